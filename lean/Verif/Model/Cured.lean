import Verif.Model.WhichModel

/-! # The correction of ill-conditioned interpolation systems

`bcdfo_build_QR_of_Y_` (`bcdfo_build_QR_of_Y.py` L60-L70, L106-L122 and the same lines of the other kinds): if the condition number of the
matrix of monomials exceeds `kappa_ill`, small singular values are replaced by a tolerance before the factorisation.
`numpy.linalg.svd` is a parameter.  Arithmetic is exact. -/

namespace Sqpdfo
open Matrix
variable {n p : ℕ}

/-- `_del` (`bcdfo_build_QR_of_Y.py` L63-L70). -/
noncomputable def delTol (Δ normgx : ℝ) : ℝ :=
  open Classical in
  let d := if normgx = 0 then Δ ^ 2 / (1 / 10 ^ 12) else Δ ^ 2 / normgx
  let d := if d > 1 / 10 then 1 / 10 else d
  if d < 1 / 10 ^ 10 then 1 / 10 ^ 10 else d

/-- `linalg.svd(Z,full_matrices=0)` for a matrix with at least as many rows as columns: `U, Sdiag, V` (`bcdfo_build_QR_of_Y.py` L115). -/
abbrev SvdFn := ∀ r c : ℕ, Matrix (Fin r) (Fin c) ℝ → Matrix (Fin r) (Fin c) ℝ × (Fin c → ℝ) × Matrix (Fin c) (Fin c) ℝ

/-- `cond_(Z) > kappa_ill`, with an infinite condition number if the last singular value is 0
(`bcdfo_build_QR_of_Y.py` L109-L111, `runtime.py` L267-L279). -/
noncomputable def illCond {c : ℕ} (κ : ℝ) (s : Fin c → ℝ) : Prop :=
  ∃ h : 0 < c, s ⟨c - 1, by omega⟩ = 0 ∨ s ⟨0, h⟩ / s ⟨c - 1, by omega⟩ > κ

/-- `Sdiag[indices]=_del` with `indices=find_(Sdiag < _del)` (`bcdfo_build_QR_of_Y.py` L116-L117). -/
noncomputable def raised {c : ℕ} (δ : ℝ) (s : Fin c → ℝ) : Fin c → ℝ :=
  open Classical in fun i => if s i < δ then δ else s i

/-- The matrix that is factorised (`bcdfo_build_QR_of_Y.py` L108-L122). -/
noncomputable def curedMat (svd : SvdFn) (κ δ : ℝ) {r c : ℕ} (Z : Matrix (Fin r) (Fin c) ℝ) : Matrix (Fin r) (Fin c) ℝ :=
  open Classical in
  if illCond κ (svd r c Z).2.1 then (svd r c Z).1 * (diagonal (raised δ (svd r c Z).2.1) * (svd r c Z).2.2) else Z

/-- The factorisation after the correction (`bcdfo_build_QR_of_Y.py` L108-L122). -/
noncomputable def LinKit.cured (K : LinKit) (svd : SvdFn) (κ δ : ℝ) : LinKit where
  qr := fun r c Z => K.qr r c (curedMat svd κ δ Z)
  pinv := K.pinv

/-- All points coincide and are scaled: `Y / scaleY` is NaN, and `linalg.svd` raises `LinAlgError` for it
(`bcdfo_build_QR_of_Y.py` L84-L91, L108-L115). -/
noncomputable def collapsed (Y : Fin (p + 1) → Fin n → ℝ) (shift : Bool) : Prop :=
  shift = true ∧ 1 ≤ p ∧ scaleY Y = 0

/-- `bcdfo_build_QR_of_Y_` with correction followed by `bcdfo_computeP_` (`bcdfo_build_QR_of_Y.py` L60-L193,
`bcdfo_computeP.py` L65-L113). -/
noncomputable def modelSafe (K : LinKit) (svd : SvdFn) (κ δ : ℝ) (kind : Kind) (Y : Fin (p + 1) → Fin n → ℝ) (shift : Bool)
    (f : Fin (p + 1) → ℝ) : Except ModelExc Coefs :=
  open Classical in
  if collapsed Y shift then .error .singular else modelCoefs (K.cured svd κ δ) kind Y shift f

end Sqpdfo
