import Verif.Spec.Eval

/-! # Specification: evaluation history -/

namespace Sqpdfo.Spec
variable {K : Type} [Field K] [LinearOrder K]

/-- Every recorded value is the (clipped) answer of the objective in a call that was really made,
at the point stored under the same index. -/
def Recorded (U : User (List K) K) (w : World (List K)) (X : List (List K)) (fX : List (Fl K)) :
    Prop :=
  ∀ (i : ℕ) (v : Fl K), fX[i]? = some v → ∃ (y : List K) (w' : World (List K)) (q r : K),
    X[i]? = some y ∧ w'.logF ++ [y] <+: w.logF ∧ U.f w' y = .num (.fin q) ∧ v = .fin r ∧ ClipF q r

/-- `r` is the constraint residual for the values `ce` and the slacks `sl`: with `ns` slack variables,
the last `ns` values are reduced by the squares of the slacks, the others are kept. -/
structure Residual (ns : ℕ) (ce sl r : List K) : Prop where
  length : r.length = ce.length
  shape : 0 < ns → sl.length = ns ∧ ns ≤ ce.length
  equations : ∀ i, i + ns < ce.length → r[i]? = ce[i]?
  slacks : ∀ i c s, ce[ce.length - ns + i]? = some c → sl[i]? = some s →
    r[ce.length - ns + i]? = some (c - s ^ 2)

end Sqpdfo.Spec
