import Verif.Model.WhichModel
import Verif.Model.Bfgs

/-! # The matrix of the quadratic subproblems

`sqpdfo_computeHessian_` (`sqpdfo_computeHessian.py`), called with `null_step = 0` (`sqpdfo_main.py` L156) and `mi = 0` (inequalities are
treated as equalities with slack variables).  The part that stores the gradients in `info` is in the model of the main loop (C72). -/

namespace Sqpdfo
open Matrix
variable {n me p : ℕ}

/-- Data of a call in the mode `bfgs`: gradients of objective and constraints before (`info.g`, `info.ae`) and after (`gx`, `gce`), multipliers
`lm[n+mi:n+mi+me]`, step, `info.niter`, `info.nsimul[1]`, `options.bfgs_restart` (no default: without it the code raises, C80), `info.flag`
(`sqpdfo_computeHessian.py` L41-L68). -/
structure BfgsIn (n me : ℕ) where
  g : Fin n → ℝ
  ae : Fin me → Fin n → ℝ
  gx : Fin n → ℝ
  gce : Fin me → Fin n → ℝ
  lm : Fin me → ℝ
  s : Fin n → ℝ
  niter : ℕ
  nsimul : ℕ
  restart : ℕ
  flag : ℕ

/-- `y` (`sqpdfo_computeHessian.py` L42-L55). -/
def BfgsIn.y (d : BfgsIn n me) : Fin n → ℝ :=
  let y := -d.g
  let y := if me ≠ 0 then fun i => y i - ∑ r, d.ae r i * d.lm r else y
  let y := fun i => y i + d.gx i
  if me ≠ 0 then fun i => y i + ∑ r, d.gce r i * d.lm r else y

/-- The mode `bfgs` (`sqpdfo_computeHessian.py` L34-L76): matrix, `pc`, `info.flag`.  After a failure the update is repeated with the identity. -/
noncomputable def hessBfgs (M : Matrix (Fin n) (Fin n) ℝ) (d : BfgsIn n me) : BfgsOut ℝ n :=
  if d.restart > 0 ∧ d.nsimul % d.restart = 0 then ⟨1, 2, d.flag⟩
  else
    let first := decide (d.niter = 1)
    let r := bfgsUpdate M d.y d.s first
    if r.flag = 30 then bfgsUpdate 1 d.y d.s first else r

/-- `bcdfo_computeP_` followed by `bcdfo_hessP_` for one row of values (`sqpdfo_computeHessian.py` L105-L112). -/
noncomputable def hessOf (K : LinKit) (kind : Kind) (Y : Fin (p + 1) → Fin n → ℝ) (shift : Bool) (f : Fin (p + 1) → ℝ) :
    Except ModelExc (Matrix (Fin n) (Fin n) ℝ) :=
  (modelCoefs K kind Y shift f).map fun c => hessP n c.2 (padTo c.1 (kind.frame Y shift).scale) shift

/-- `lagfY` (`sqpdfo_computeHessian.py` L90-L102): `sl` is `concatenate((zeros,sl**2))`, the zero vector without slack variables. -/
def lagfY (fY : Fin (p + 1) → ℝ) (ceY : Fin me → Fin (p + 1) → ℝ) (lm sl : Fin me → ℝ) : Fin (p + 1) → ℝ :=
  fun j => fY j + ∑ r, lm r * (ceY r j - sl r)

/-- The mode `model` (`sqpdfo_computeHessian.py` L77-L116), the default.  Without constraints the model of the objective is used. -/
noncomputable def hessModel (K : LinKit) (kind : Kind) (Y : Fin (p + 1) → Fin n → ℝ) (shift : Bool) (fY : Fin (p + 1) → ℝ)
    (ceY : Fin me → Fin (p + 1) → ℝ) (lm sl : Fin me → ℝ) : Except ModelExc (Matrix (Fin n) (Fin n) ℝ) :=
  if me ≠ 0 then hessOf K kind Y shift (lagfY fY ceY lm sl) else hessOf K kind Y shift fY

/-- The call at the end of a rejected step (`sqpdfo_main.py` L1486-L1490): the iterate stays, the step is that to the rejected trial point (L715).
`g`, `ae` and `gx`, `gce` are gradients of the models at the iterate, before and after the change of the interpolation set. -/
def rejectedIn (g gx : Fin n → ℝ) (ae gce : Fin me → Fin n → ℝ) (lm : Fin me → ℝ) (x xnew : Fin n → ℝ) (niter nsimul : ℕ) :
    BfgsIn n me :=
  ⟨g, ae, gx, gce, lm, xnew - x, niter, nsimul, 0, 0⟩

end Sqpdfo
