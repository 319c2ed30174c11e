import Verif.Spec.Entry
import Verif.Spec.Eval
import Verif.Model.Whole

/-! # Specification of a whole call (C80, C81) -/

namespace Sqpdfo.Spec
variable {K : Type}

/-- The constraint function, if there is one, always returns `m` values (0 if there is none). -/
structure Counts (U : User (List K) K) (m : ℕ) : Prop where
  none : U.c = none → m = 0
  some : ∀ c, U.c = some c → ∀ w y vs, c w y = .nums vs → vs.length = m

/-- The last call of the objective, recorded in the log `w`, failed, or the constraint function failed at the same point. -/
def LastFailed (U : User (List K) K) (w : World (List K)) : Prop :=
  ∃ (w' : World (List K)) (y : List K), w.logF = w'.logF ++ [y] ∧ Failing (answerF U w' y) (answerC U w' y)

/-- The verbosity in effect: 1 if missing or outside of `0..6`. -/
def EffVerbose (u : Opts) (v : Int) : Prop :=
  (u.verbose = some v ∧ 0 ≤ v ∧ v ≤ 6) ∨ (v = 1 ∧ ∀ w, u.verbose = some w → w < 0 ∨ 6 < w)

/-- A limit that can be printed as an integer: missing (default 1000) or finite. -/
def FiniteLimit (v : Option (Fl ℚ)) : Prop := v = none ∨ ∃ q, v = some (.fin q)

/-- The BFGS mode is chosen. -/
def ChoosesBfgs (u : Opts) : Prop := ∃ s, u.hessApprox = some (.str s) ∧ HessWord s 130

/-- A limit as the user means it: 1000 if missing. -/
def LimitIs (u : Option (Fl ℚ)) (M : ℚ) : Prop := u = none ∧ M = 1000 ∨ u = some (.fin M)

/-- A tolerance as the user means it: `1e-5` if missing or 0. -/
def TolIs (u : Option (Fl ℚ)) (t : ℚ) : Prop := (u = none ∨ u = some (.fin 0)) ∧ t = 1 / 10 ^ 5 ∨ u = some (.fin t) ∧ t ≠ 0

variable [Field K] [LinearOrder K]

/-- Some variable has a bound below `options.inf` (infinite if missing) in absolute value. -/
def Bounded (u : Opts) (vs : List (Var K)) : Prop :=
  u.inf = none ∨ u.inf = some .pinf ∨ ∃ q : ℚ, u.inf = some (.fin q) ∧ ∃ v ∈ vs, -(q : K) < v.lb ∨ v.ub < (q : K)

/-- The number of two-sided constraints. -/
noncomputable def twoSided (a : Args K) : ℕ :=
  open Classical in
  (List.range (a.mi + a.me)).countP fun i => decide (TwoSided (a.li.getD (List.replicate (a.mi + a.me) (-10 ^ 9)))
    (a.ui.getD (List.replicate (a.mi + a.me) (10 ^ 9))) i)

/-- Objective and constraints stay in the ranges that the sampling can handle. -/
structure Tame (U : User (List K) K) : Prop where
  number : ∀ w y, U.f w y ≠ .other
  low : ∀ w y q, U.f w y = .num (.fin q) → -10 ^ 25 ≤ q
  cons : ∀ c, U.c = some c → ∀ w y vs, c w y = .nums vs → ∀ v ∈ vs, v = .nan ∨ ∃ q, v = .fin q ∧ |q| < 10 ^ 25

end Sqpdfo.Spec
