import Verif.Model.Bounds
import Mathlib.Data.List.Forall2

/-! # Specification of the bounds check (C04, C05) -/

namespace Sqpdfo.Spec
variable {K : Type} [Field K] [LinearOrder K]

/-- The point `x` is within the bounds, at distance at least `D` from each of them. -/
def InsideBy (D : K) (vs : List (Var K)) (x : List K) : Prop :=
  List.Forall₂ (fun v t => v.lb + D ≤ t ∧ t ≤ v.ub - D) vs x

/-- The bounds are inconsistent: crossed somewhere, or no variable is free. -/
def BadBounds (vs : List (Var K)) : Prop :=
  (∃ v ∈ vs, v.ub < v.lb) ∨ ∀ v ∈ vs, v.lb = v.ub

/-- Largest radius that fits into all the boxes of `vs`, and is at most 1. -/
def IsFit (vs : List (Var K)) (D : K) : Prop :=
  (D ≤ 1 ∧ ∀ v ∈ vs, 2 * D ≤ v.ub - v.lb) ∧
  ∀ D', D' ≤ 1 → (∀ v ∈ vs, 2 * D' ≤ v.ub - v.lb) → D' ≤ D

end Sqpdfo.Spec
