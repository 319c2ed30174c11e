import Verif.Model.Eval

/-! # Specification of evaluations (C06-C08) -/

namespace Sqpdfo.Spec
variable {P K : Type}

/-- The outcome of the two user functions at a point counts as a failure: the objective
raised or returned NaN or an infinity, or the constraint function raised or returned a
NaN component. -/
def Failing (fo : FOut K) (co : Option (COut K)) : Prop :=
  fo = .raised ∨ fo = .num .nan ∨ fo = .num .pinf ∨ fo = .num .ninf ∨
  co = some .raised ∨ ∃ vs, co = some (.nums vs) ∧ Fl.nan ∈ vs

/-- What the objective answers at `y` after the calls `w`. -/
def answerF (U : User P K) (w : World P) (y : P) : FOut K := U.f w y

/-- What the constraint function answers at `y` (it is called after the objective). -/
def answerC (U : User P K) (w : World P) (y : P) : Option (COut K) :=
  U.c.map (fun cf => cf { w with logF := w.logF ++ [y] } y)

variable [Field K] [LinearOrder K]

/-- A recorded objective value: finite and at most `10^25`. -/
def GoodF (v : Fl K) : Prop := ∃ q : K, v = .fin q ∧ q ≤ 10 ^ 25

/-- A recorded constraint value: finite and in `[-10^25, 10^25]`. -/
def GoodC (v : Fl K) : Prop := ∃ q : K, v = .fin q ∧ -10 ^ 25 ≤ q ∧ q ≤ 10 ^ 25

/-- The recorded version of a finite objective value. -/
def ClipF (q r : K) : Prop := (q ≤ 10 ^ 25 → r = q) ∧ (10 ^ 25 < q → r = 10 ^ 25)

/-- `r` is the recorded version of the constraint value `v`. -/
def ClipC (v : Fl K) (r : Fl K) : Prop :=
  (v = .pinf → r = .fin (10 ^ 25)) ∧ (v = .ninf → r = .fin (-10 ^ 25)) ∧
  ∀ q, v = .fin q →
    (10 ^ 25 < q → r = .fin (10 ^ 25)) ∧ (q < -10 ^ 25 → r = .fin (-10 ^ 25)) ∧
    (-10 ^ 25 ≤ q → q ≤ 10 ^ 25 → r = .fin q)

/-- The effect of one evaluation at the next free index. -/
inductive Effect (U : User P K) (y : P) (s : EvSt P K) : EvSt P K → Prop
  | fail {s'} : Failing (answerF U s.w y) (answerC U s.w y) →
      s'.flag = 3 → s'.fX = s.fX → s'.ceX = s.ceX → Effect U y s s'
  | good {s'} (q r : K) (ce ce' : List (Fl K)) :
      ¬ Failing (answerF U s.w y) (answerC U s.w y) →
      answerF U s.w y = .num (.fin q) → ClipF q r →
      (answerC U s.w y = none ∧ ce = [] ∨ answerC U s.w y = some (.nums ce)) →
      List.Forall₂ ClipC ce ce' →
      s'.flag = s.flag → s'.fX = s.fX ++ [.fin r] →
      (ce = [] ∧ s'.ceX = s.ceX ∨ ce ≠ [] ∧ s'.ceX = s.ceX ++ [ce']) →
      Effect U y s s'

end Sqpdfo.Spec
