import Verif.Spec.Shift
import Verif.Spec.Whole
import Mathlib.Data.List.FinRange
import Mathlib.Data.Fintype.Perm

/-! # Specification: two runs whose equality constraints come in another order (C116) -/

namespace Sqpdfo.Spec
variable {K F : Type} [Field K] [LinearOrder K]

/-- The entries of a list of length `m` in another order: entry `i` of the result is entry `σ i`.  Lists of other lengths stay. -/
def reorder {α : Type} {m : ℕ} (σ : Equiv.Perm (Fin m)) (l : List α) : List α :=
  if h : l.length = m then List.ofFn fun i : Fin m => l.get ((σ i).cast h.symm) else l

/-- What a call of the constraint function does that returns its values in another order. -/
def reorderOut {m : ℕ} (σ : Equiv.Perm (Fin m)) : COut K → COut K
  | .nums vs => .nums (reorder σ vs)
  | .raised => .raised

/-- The user's functions with the constraints in another order. -/
def reorderUser {P : Type} {m : ℕ} (σ : Equiv.Perm (Fin m)) (U : User P K) : User P K :=
  ⟨U.f, U.c.map fun c w y => reorderOut σ (c w y)⟩

/-- The same problem with the constraints in another order. -/
def reorderEnv {m : ℕ} (σ : Equiv.Perm (Fin m)) (e : Env K F) : Env K F := { e with U := reorderUser σ e.U }

/-- A reordering of the equality constraints of a problem: the constraints with slacks, which are the last ones, keep their places, and the norm
does not depend on the order. -/
structure OrderOk {m : ℕ} (σ : Equiv.Perm (Fin m)) (e : Env K F) : Prop where
  me : e.me = m
  slacks : ∀ i : Fin m, m - e.ns ≤ i → σ i = i
  nrm : ∀ l : List K, l.length = m → e.nrm (reorder σ l) = e.nrm l

/-- Two states of runs that agree in everything - points, calls, values of the objective, counters, status, radius, penalty parameter, slacks,
interpolation set - except that the constraint values of the second are in another order.  (Gradients, which the loop itself
does not read, are left out.) -/
structure ReorderedBy {m : ℕ} (σ : Equiv.Perm (Fin m)) (s t : MSt K F) : Prop where
  niter : t.niter = s.niter
  points : t.ev.X = s.ev.X
  values : t.ev.fX = s.ev.fX
  ceX : t.ev.ceX = s.ev.ceX.map (reorder σ)
  nsimul : t.ev.nsimul = s.ev.nsimul
  infoF : t.ev.infoF = s.ev.infoF
  flag : t.ev.flag = s.ev.flag
  calls : t.ev.w = s.ev.w
  m : t.m = s.m
  Y : t.set.Y = s.set.Y
  ind : t.set.ind = s.set.ind
  fY : t.set.fY = s.set.fY
  ciY : t.set.ciY = s.set.ciY
  ceY : t.set.ceY = s.set.ceY.map (reorder σ)
  fac : t.set.fac = s.set.fac
  cur : t.cur = s.cur
  x : t.x = s.x
  fx : t.fx = s.fx
  ixbest : t.ixbest = s.ixbest
  delta : t.delta = s.delta
  sigma : t.sigma = s.sigma
  pred : t.pred = s.pred
  epsCur : t.epsCur = s.epsCur
  rejected : t.rejected = s.rejected
  poisedModel : t.poisedModel = s.poisedModel
  f0 : t.f0 = s.f0
  ce0n : t.ce0n = s.ce0n
  merit0 : t.merit0 = s.merit0
  glagn : t.glagn = s.glagn
  feasn : t.feasn = s.feasn
  compl : t.compl = s.compl
  poised : t.poised = s.poised
  yradius : t.yradius = s.yradius
  infoCe : t.infoCe = reorder σ s.infoCe
  ceplus : t.ceplus = reorder σ s.ceplus
  sl : t.sl = s.sl

/-- The gradients with the rows of the constraints in another order. -/
def reorderG {m : ℕ} (σ : Equiv.Perm (Fin m)) (g : Grads K) : Grads K := ⟨g.g, reorder σ g.a⟩

/-- The number of constraints with slacks in a call: one per inequality and two-sided constraint; a call without inequalities uses
the number left by the previous call (C21). -/
noncomputable def slackNumber (a : Args K) (g : Globals K) : ℕ := if a.mi = 0 then g.nbrSlacks else a.mi + twoSided a

/-- The squared length of `A v + c` (rows `A`, right-hand sides `c`). -/
def sqResid (A : List (List K)) (c v : List K) : K := (List.zipWith (fun r q => ((List.zipWith (· * ·) r v).sum + q) ^ 2) A c).sum

/-- Entry `j` of `g + Aᵀ l`. -/
def lagrEntry (g : List K) (A : List (List K)) (l : List K) (j : ℕ) : K := g.getD j 0 + (List.zipWith (fun r q => r.getD j 0 * q) A l).sum

end Sqpdfo.Spec
