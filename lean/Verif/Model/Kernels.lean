import Verif.Model.Main
import Verif.Model.NewYj
import Verif.Model.Optimality

/-! # The kernels of the main loop

The main loop works on lists of points; here its parameters `build`, `model`, the result of `bcdfo_poisedness_Y_` and the
input of `sqpdfo_optimality_` are expressed by the models of these functions, for sub-basis models (`whichmodel = 0`), `shift_Y = 1` and a
well-conditioned system (no SVD correction in `bcdfo_build_QR_of_Y_`, see `Model/Cured.lean`).  The factorisation is a function of the
points, so the points themselves stand for it. -/

namespace Sqpdfo
open Matrix

/-- The numerical kernels below: `numpy.linalg.qr` and those of the subproblem solver
(`bcdfo_build_QR_of_Y.py` L120-L122, `bcdfo_solve_TR_MS.py` L112-L119, L194, L278). -/
structure Kern (n : ℕ) where
  qr : ∀ q p : ℕ, Matrix (Fin q) (Fin p) ℝ → Matrix (Fin q) (Fin p) ℝ × Matrix (Fin p) (Fin p) ℝ
  ms : MSKer ℝ (Fin n)

/-- A list as a vector (`sqpdfo_main.py` L168-L169). -/
def vec (n : ℕ) (l : List ℝ) : Fin n → ℝ := fun i => l.getD i 0

/-- A list of `p + 1` points (`sqpdfo_main.py` L168). -/
def ptsOf (n p : ℕ) (Y : List (List ℝ)) : Fin (p + 1) → Fin n → ℝ := fun j => vec n (Y.getD j [])

/-- `xbase`, `scale` and the scaled points of `bcdfo_build_QR_of_Y_` (`bcdfo_build_QR_of_Y.py` L84-L95). -/
noncomputable def frameOf (n p : ℕ) (Y : List (List ℝ)) : Frame n p (p + 1) := buildFrame (p + 1) (ptsOf n p Y) true

/-- `QZ`, `RZ` (`bcdfo_build_QR_of_Y.py` L104-L122 without correction). -/
noncomputable def facOf {n : ℕ} (k : Kern n) (p : ℕ) (Y : List (List ℝ)) :
    Matrix (Fin (p + 1)) (Fin (p + 1)) ℝ × Matrix (Fin (p + 1)) (Fin (p + 1)) ℝ :=
  k.qr (p + 1) (p + 1) (zMat (p + 1) (frameOf n p Y).pts)

/-- Gradient at `x` of the model of the values `v`: `bcdfo_computeP_`, `bcdfo_gradP_` (`sqpdfo_main.py` L541-L557).  A singular system
raises `LinAlgError` in the code, here the result is then empty; the theorems assume poised sets. -/
noncomputable def gradOf {n : ℕ} (k : Kern n) (p : ℕ) (Y : List (List ℝ)) (x v : List ℝ) : List ℝ :=
  match computeP (facOf k p Y).1 (facOf k p Y).2 (vec (p + 1) v) with
  | some P => List.ofFn (gradP P (vec n x) (frameOf n p Y).xbase (frameOf n p Y).scale true)
  | none => []

/-- `gx` and `gce`: the rows of `ceY` are interpolated one by one (`sqpdfo_main.py` L540-L558). -/
noncomputable def modelOf {n : ℕ} (k : Kern n) (me : ℕ) (Y : List (List ℝ)) (x fY : List ℝ) (ceY : List (List ℝ)) : Grads ℝ where
  g := gradOf k (Y.length - 1) Y x fY
  a := (List.range me).map fun r => gradOf k (Y.length - 1) Y x (ceY.map fun c => c.getD r 0)

/-- `bcdfo_poisedness_Y_` with `eps_L = 1e-3` (`sqpdfo_main.py` L297-L299). -/
noncomputable def poisOf {n : ℕ} (k : Kern n) (p : ℕ) (Y : List (List ℝ)) : Option (ℝ × ℝ) :=
  poisednessY k.ms (facOf k p Y).1 (facOf k p Y).2 (ptsOf n p Y) (1 / 10 ^ 3) (frameOf n p Y).xbase
    (frameOf n p Y).scale true

/-- Position of a constraint row in `info.ce` and `info.ae` (`sqpdfo_optimality.py` L45-L60). -/
def rowIx {m ns : ℕ} : Fin m ⊕ Fin ns → ℕ
  | .inl i => i
  | .inr j => m + j

/-- The input of `sqpdfo_optimality_` at the top of a pass (`sqpdfo_main.py` L259-L260) with the multipliers `lmB`, `lmE`. -/
def optimIn (e : Env ℝ (List (List ℝ))) (m : ℕ) (s : MSt ℝ (List (List ℝ))) (lmB : Fin e.n → ℝ)
    (lmE : Fin m ⊕ Fin e.ns → ℝ) : OptimIn ℝ e.n m e.ns where
  x := vec e.n s.x
  lb := vec e.n e.lb
  ub := vec e.n e.ub
  g := vec e.n s.infoG.g
  ce := fun r => s.infoCe.getD (rowIx r) 0
  ae := fun r => vec e.n (s.infoG.a.getD (rowIx r) [])
  sl := vec e.ns s.sl
  lmB := lmB
  lmE := lmE

end Sqpdfo
