import Mathlib.Algebra.Order.Field.Basic

/-! # First-order conditions (C38) -/

namespace Sqpdfo.Spec
variable {K : Type} [Field K] [LinearOrder K] {n : ℕ}

/-- First-order conditions for minimising over the box `[l,u]` at `x` with gradient `g`: a
component that can be decreased has nonpositive gradient, one that can be increased has a
nonnegative one. -/
def FirstOrder (g x l u : Fin n → K) : Prop :=
  ∀ i, (l i < x i → g i ≤ 0) ∧ (x i < u i → 0 ≤ g i)

end Sqpdfo.Spec
