import Verif.Model.Entry
import Verif.Spec.Options
import Verif.Spec.Bounds

/-! # Specification of the argument checks (C03, C20, C21, C23) -/

namespace Sqpdfo.Spec
variable {K : Type} [Field K] [LinearOrder K]

/-- The user's options, none set if no object is given. -/
def userOpts : OptArg → Opts
  | .missing => ⟨none, none, none, none, none, none, none, none, none, none, none, none, none⟩
  | .inst o => o
  | .cls o => o

/-- A usable bound argument for a start point with the given shape. -/
def BndOk (rows cols : ℕ) (b : BndArg K) : Prop :=
  (b = .missing ∧ rows = 1) ∨ b = .col [] ∨ ∃ l, b = .col l ∧ l.length = rows * cols

/-- Arguments of the right Python types and lengths: no `sys.exit`, no `IndexError`. -/
structure WellFormed (a : Args K) : Prop where
  f : a.f ≠ .notFn
  c : a.c ≠ .notFn
  opts : Typed (userOpts a.opts)
  li : ∀ l, a.li = some l → a.mi + a.me ≤ l.length
  ui : ∀ l, a.ui = some l → a.mi + a.me ≤ l.length
  data : ∀ r c d, a.x0 = .mat r c d → d.length = r * c
  lb : ∀ r c d, a.x0 = .mat r c d → BndOk r c a.lb
  ub : ∀ r c d, a.x0 = .mat r c d → BndOk r c a.ub

/-- Something is missing or illegal. -/
def BadArg (a : Args K) : Prop :=
  a.f = .missing ∨ (a.c = .missing ∧ 0 < a.me + a.mi) ∨ a.x0 = .missing ∨
  (∃ r c d, a.x0 = .mat r c d ∧ ¬ (r * c ≠ 0 ∧ (r = 1 ∨ c = 1))) ∨
  ¬ Legal (userOpts a.opts)

/-- The bound vector meant by an argument: absent bounds are `∓10^20`. -/
def meant (v : K) (k : ℕ) : BndArg K → List K
  | .missing => List.replicate k v
  | .col [] => List.replicate k v
  | .col l => l
  | .bad => []

/-- The variables with their bounds. -/
def boxes (a : Args K) : List (Var K) :=
  match a.x0 with
  | .missing => []
  | .mat _ _ d => List.zipWith (fun b x => ⟨b.1, b.2, x⟩)
      (List.zip (meant (-10 ^ 20) d.length a.lb) (meant (10 ^ 20) d.length a.ub)) d

/-- A constraint with proper lower and upper bounds. -/
def TwoSided (li ui : List K) (i : ℕ) : Prop :=
  ∃ l u, li[i]? = some l ∧ ui[i]? = some u ∧ l < u ∧ -10 ^ 7 < l ∧ u < 10 ^ 7

end Sqpdfo.Spec
