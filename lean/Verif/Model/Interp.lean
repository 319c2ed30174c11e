import Verif.Model.Poly
import Mathlib.Analysis.Real.Sqrt
import Mathlib.LinearAlgebra.Matrix.NonsingularInverse

/-! # Interpolation: shift and scaling, model coefficients, Lagrange polynomials

The interpolation set has `p + 1` points `Y j : Fin n → ℝ` (column 0 is the base point).
`numpy.linalg.qr` (mode `reduced`) is represented by its factors `Q`, `R`. -/

namespace Sqpdfo
open Matrix
variable {n p q : ℕ}

/-- `norm_(v)` (`runtime.py` L313-L336). -/
noncomputable def enorm2 (v : Fin n → ℝ) : ℝ := Real.sqrt (v ⬝ᵥ v)

/-- `scaleY` (`bcdfo_build_QR_of_Y.py` L86-L89): the running maximum of the distances to the
base point, starting with 0. -/
noncomputable def scaleY (Y : Fin (p + 1) → Fin n → ℝ) : ℝ :=
  (List.finRange (p + 1)).foldl (fun s i => max s (enorm2 (Y i - Y 0))) 0

/-- `scale` (`bcdfo_build_QR_of_Y.py` L90): `1`, then `min(n,q-1)` times `1/scaleY`, then `q-n-1` times
`1/scaleY**2`. Used with `q ≥ n+1`. -/
noncomputable def scaleVec (n q : ℕ) (s : ℝ) : Fin q → ℝ := fun r =>
  if (r : ℕ) = 0 then 1 else if (r : ℕ) ≤ min n (q - 1) then s⁻¹ else (s ^ 2)⁻¹

/-- What `bcdfo_build_QR_of_Y_` fixes before the factorisation (`bcdfo_build_QR_of_Y.py` L84-L95): base point, scaling
vector, transformed points.  Shifting happens only with more than one point. -/
structure Frame (n p q : ℕ) where
  xbase : Fin n → ℝ
  scale : Fin q → ℝ
  pts : Fin (p + 1) → Fin n → ℝ

/-- See `Frame` (`bcdfo_build_QR_of_Y.py` L84-L95). -/
noncomputable def buildFrame (q : ℕ) (Y : Fin (p + 1) → Fin n → ℝ) (shift : Bool) :
    Frame n p q :=
  if shift = true ∧ p + 1 > 1 then
    { xbase := Y 0, scale := scaleVec n q (scaleY Y),
      pts := fun j i => (Y j i - Y 0 i) / scaleY Y }
  else { xbase := 0, scale := fun _ => 1, pts := Y }

/-- `Z = bcdfo_evalZ_(Y,q)`: the column of a point (`bcdfo_build_QR_of_Y.py` L104; the list has length `q`, C35). -/
noncomputable def zCol (q : ℕ) (y : Fin n → ℝ) : Fin q → ℝ := fun r =>
  (evalZ n (ext y) q).getD r 0

/-- The matrix `Z` that is factorised for sub-basis (`q = p1`) and minimum-norm models
(`bcdfo_build_QR_of_Y.py` L104, L157). -/
noncomputable def zMat (q : ℕ) (pts : Fin p → Fin n → ℝ) : Matrix (Fin q) (Fin p) ℝ :=
  fun r j => zCol q (pts j) r

/-- `numpy.linalg.solve(A, b)`; a singular matrix raises `LinAlgError` (`bcdfo_computeP.py` L75). -/
noncomputable def solve {k : ℕ} (A : Matrix (Fin k) (Fin k) ℝ) (b : Fin k → ℝ) :
    Option (Fin k → ℝ) :=
  open Classical in if IsUnit A.det then some (A⁻¹ *ᵥ b) else none

/-- `bcdfo_computeP_` for models 0 and 2 (`bcdfo_computeP.py` L71-L75, L109-L110), one
right-hand side. -/
noncomputable def computeP (Q : Matrix (Fin q) (Fin p) ℝ) (R : Matrix (Fin p) (Fin p) ℝ)
    (fY : Fin p → ℝ) : Option (Fin q → ℝ) :=
  (solve Rᵀ fY).map (fun w => Q *ᵥ w)

/-- `bcdfo_computeLj_` for model 0, and for model 2 with a square invertible `R`
(`bcdfo_computeLj.py` L57-L60, L90-L98: there a pseudo-inverse replaces `solve`). -/
noncomputable def computeLj (Q : Matrix (Fin q) (Fin p) ℝ) (R : Matrix (Fin p) (Fin p) ℝ)
    (j : Fin p) : Option (Fin q → ℝ) :=
  (solve Rᵀ (Pi.single j 1)).map (fun w => Q *ᵥ w)

/-- `bcdfo_evalL_` for model 0 (`bcdfo_evalL.py` L64-L70): zero outside `choice_set`, otherwise
the value of the polynomial with coefficients `(I.dot(solve(RZ,QZ.T)))[j,:]`. -/
noncomputable def evalL (Q : Matrix (Fin q) (Fin p) ℝ) (R : Matrix (Fin p) (Fin p) ℝ)
    (choice : Finset (Fin p)) (x xbase : Fin n → ℝ) (scale : Fin q → ℝ) (shift : Bool) :
    Option (Fin p → ℝ) :=
  open Classical in
  if IsUnit R.det then
    some fun j => if j ∈ choice then evalP ((R⁻¹ * Qᵀ) j) x xbase scale shift else 0
  else none

end Sqpdfo
