import Verif.Model.Whole

/-! # Specification: two runs whose objective values differ by a constant (C101) -/

namespace Sqpdfo.Spec
variable {K F : Type} [Field K] [LinearOrder K]

/-- A value plus a constant; infinities and NaN stay. -/
def plus (d : K) : Fl K → Fl K
  | .fin q => .fin (q + d)
  | v => v

/-- What a call of the objective plus a constant does. -/
def plusOut (d : K) : FOut K → FOut K
  | .num v => .num (plus d v)
  | o => o

/-- The user's functions with a constant added to the objective. -/
def plusUser {P : Type} (d : K) (U : User P K) : User P K := ⟨fun w y => plusOut d (U.f w y), U.c⟩

/-- The same problem with a constant added to the objective. -/
def plusEnv (d : K) (e : Env K F) : Env K F := { e with U := plusUser d e.U }

/-- Neither the values of the objective nor those of the objective plus `d` exceed `1e25` in absolute value. -/
def Moderate {P : Type} (d : K) (U : User P K) : Prop :=
  ∀ w y q, U.f w y = .num (.fin q) → |q| ≤ 10 ^ 25 ∧ |q + d| ≤ 10 ^ 25

/-- Two states of runs that agree in everything - points, calls, counters, status, radius, penalty parameter, constraint values,
interpolation set - except that all objective values of the second are larger by `d`.  (Gradients, which the loop itself does not read, and
the values memorised for the next comparison while they are not in use are left out.) -/
structure ShiftedBy (d : K) (s t : MSt K F) : Prop where
  niter : t.niter = s.niter
  points : t.ev.X = s.ev.X
  values : t.ev.fX = s.ev.fX.map (plus d)
  ceX : t.ev.ceX = s.ev.ceX
  nsimul : t.ev.nsimul = s.ev.nsimul
  infoF : t.ev.infoF = plus d s.ev.infoF
  flag : t.ev.flag = s.ev.flag
  calls : t.ev.w = s.ev.w
  m : t.m = s.m
  Y : t.set.Y = s.set.Y
  ind : t.set.ind = s.set.ind
  fY : t.set.fY = s.set.fY.map (· + d)
  ciY : t.set.ciY = s.set.ciY
  ceY : t.set.ceY = s.set.ceY
  fac : t.set.fac = s.set.fac
  cur : t.cur = s.cur
  x : t.x = s.x
  fx : t.fx = s.fx + d
  ixbest : t.ixbest = s.ixbest
  delta : t.delta = s.delta
  sigma : t.sigma = s.sigma
  pred : t.pred = s.pred
  epsCur : t.epsCur = s.epsCur
  rejected : t.rejected = s.rejected
  poisedModel : t.poisedModel = s.poisedModel
  ce0n : t.ce0n = s.ce0n
  memory : s.rejected = true → t.f0 = s.f0 + d ∧ t.merit0 = s.merit0 + d
  glagn : t.glagn = s.glagn
  feasn : t.feasn = s.feasn
  compl : t.compl = s.compl
  poised : t.poised = s.poised
  yradius : t.yradius = s.yradius
  infoCe : t.infoCe = s.infoCe
  ceplus : t.ceplus = s.ceplus
  sl : t.sl = s.sl

/-- Two runs of the loop end in the same way (return, exception, or still running), with states in relation. -/
def _root_.Sqpdfo.MainRes.Both (R : MSt K F → MSt K F → Prop) (r r' : MainRes K F) : Prop :=
  match r, r' with
  | .running s, .running t => R s t
  | .done s, .done t => R s t
  | .crash c, .crash c' => c' = c
  | _, _ => False

/-- Two calls end in the same way, with the same point and states in relation. -/
def _root_.Sqpdfo.CallRes.Both (R : MSt K F → MSt K F → Prop) (r r' : CallRes K F) : Prop :=
  match r, r' with
  | .early fl w, .early fl' w' => fl' = fl ∧ w' = w
  | .raised, .raised => True
  | .crash c, .crash c' => c' = c
  | .running, .running => True
  | .outside, .outside => True
  | .done x s, .done x' t => x' = x ∧ R s t
  | _, _ => False

end Sqpdfo.Spec
