import Verif.Spec.Reorder
import Verif.Model.Multiplier

/-! # Specification: two runs that differ in the signs of equality constraints (C121) -/

namespace Sqpdfo.Spec
variable {K F : Type} [Field K] [LinearOrder K]

/-- Minus a floating-point number. -/
instance : Neg (Fl K) := ⟨Fl.neg⟩

/-- The entries marked in `ε` with the other sign.  Lists of another length than `ε` stay. -/
def signed {α : Type} [Neg α] (ε : List Bool) (l : List α) : List α :=
  if l.length = ε.length then List.zipWith (fun b v => if b then -v else v) ε l else l

/-- What a call of the constraint function does that returns the marked values with the other sign. -/
def signOut (ε : List Bool) : COut K → COut K
  | .nums vs => .nums (signed ε vs)
  | .raised => .raised

/-- The user's functions with the other sign of the marked constraints. -/
def signUser {P : Type} (ε : List Bool) (U : User P K) : User P K :=
  ⟨U.f, U.c.map fun c w y => signOut ε (c w y)⟩

/-- The same problem with the other sign of the marked constraints. -/
def signEnv (ε : List Bool) (e : Env K F) : Env K F := { e with U := signUser ε e.U }

/-- A choice of equality constraints of a problem: no constraint with a slack (these are the last ones) is marked, and the norm does not
depend on the signs. -/
structure SignOk (ε : List Bool) (e : Env K F) : Prop where
  free : ∀ i, ε[i]? = some true → i + e.ns < e.me ∧ ε.length = e.me
  nrm : ∀ l : List K, e.nrm (signed ε l) = e.nrm l

/-- Two states of runs that agree in everything - points, calls, values of the objective, counters, status, radius, penalty parameter, slacks,
interpolation set - except that the marked constraint values of the second have the other sign.  (Gradients, which the loop itself
does not read, are left out.) -/
structure SignedBy (ε : List Bool) (s t : MSt K F) : Prop where
  niter : t.niter = s.niter
  points : t.ev.X = s.ev.X
  values : t.ev.fX = s.ev.fX
  ceX : t.ev.ceX = s.ev.ceX.map (signed ε)
  nsimul : t.ev.nsimul = s.ev.nsimul
  infoF : t.ev.infoF = s.ev.infoF
  flag : t.ev.flag = s.ev.flag
  calls : t.ev.w = s.ev.w
  m : t.m = s.m
  Y : t.set.Y = s.set.Y
  ind : t.set.ind = s.set.ind
  fY : t.set.fY = s.set.fY
  ciY : t.set.ciY = s.set.ciY
  ceY : t.set.ceY = s.set.ceY.map (signed ε)
  fac : t.set.fac = s.set.fac
  cur : t.cur = s.cur
  x : t.x = s.x
  fx : t.fx = s.fx
  ixbest : t.ixbest = s.ixbest
  delta : t.delta = s.delta
  sigma : t.sigma = s.sigma
  pred : t.pred = s.pred
  epsCur : t.epsCur = s.epsCur
  rejected : t.rejected = s.rejected
  poisedModel : t.poisedModel = s.poisedModel
  f0 : t.f0 = s.f0
  ce0n : t.ce0n = s.ce0n
  merit0 : t.merit0 = s.merit0
  glagn : t.glagn = s.glagn
  feasn : t.feasn = s.feasn
  compl : t.compl = s.compl
  poised : t.poised = s.poised
  yradius : t.yradius = s.yradius
  infoCe : t.infoCe = signed ε s.infoCe
  ceplus : t.ceplus = signed ε s.ceplus
  sl : t.sl = s.sl

/-- The gradients with the other sign of the marked constraints. -/
def signG (ε : List Bool) (g : Grads K) : Grads K :=
  ⟨g.g, if g.a.length = ε.length then List.zipWith (fun b r => if b then r.map (- ·) else r) ε g.a else g.a⟩

end Sqpdfo.Spec
