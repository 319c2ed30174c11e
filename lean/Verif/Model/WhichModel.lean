import Verif.Model.Interp

/-! # The four kinds of models

`options.whichmodel` (`helper.py`, `sqpdfo_options.py`): sub-basis (0), minimum Frobenius norm (1), minimum `l2` norm (2) and regression (3).
`bcdfo_build_QR_of_Y_`, `bcdfo_computeP_`, `bcdfo_computeLj_` and `bcdfo_evalL_` choose matrix and formula by it.  Arithmetic is exact and the SVD
correction of ill-conditioned systems (`bcdfo_build_QR_of_Y.py` L109-L119 and the same lines of the other kinds) is left out here
(see `Model/Cured.lean`).
`numpy.linalg.qr` and `numpy.linalg.pinv` are parameters. -/

namespace Sqpdfo
open Matrix
variable {n p : ℕ}

/-- `options.whichmodel` (`sqpdfo_values.py` L34-L36, `sqpdfo_options.py` L147-L155). -/
inductive Kind
  | subbasis | frobnorm | l2norm | regression
  deriving DecidableEq

/-- Exceptions (`bcdfo_computeP.py` L75-L108). -/
inductive ModelExc
  /-- `numpy.linalg.LinAlgError` of `solve` -/
  | singular
  /-- `ValueError` of `numpy.hstack` (`bcdfo_computeP.py` L101) or `UnboundLocalError` of `P_i` (L104) -/
  | frobP
  /-- `UnboundLocalError` of `Lj` (`bcdfo_computeLj.py` L86) -/
  | frobL
  /-- `TypeError` (`bcdfo_evalL.py` L83) -/
  | frobV
  deriving DecidableEq

/-- `numpy.linalg.qr`, `numpy.linalg.pinv` (`bcdfo_build_QR_of_Y.py` L100-L193, `bcdfo_computeP.py` L112). -/
structure LinKit where
  qr : ∀ r c : ℕ, Matrix (Fin r) (Fin c) ℝ → Matrix (Fin r) (Fin c) ℝ × Matrix (Fin c) (Fin c) ℝ
  pinv : ∀ c : ℕ, Matrix (Fin c) (Fin c) ℝ → Matrix (Fin c) (Fin c) ℝ

/-- Size of a full quadratic polynomial (`bcdfo_build_QR_of_Y.py` L77). -/
def fullSize (n : ℕ) : ℕ := (n + 1) * (n + 2) / 2

/-- `if (whichmodel == 3 and p1 < q): whichmodel = 2`
(`bcdfo_build_QR_of_Y.py` L78-L81, `bcdfo_computeP.py` L68-L70, `bcdfo_computeLj.py` L54-L56, `bcdfo_evalL.py` L60-L62). -/
def Kind.eff (k : Kind) (p1 q : ℕ) : Kind := if k = .regression ∧ p1 < q then .l2norm else k

/-- `q` of `bcdfo_build_QR_of_Y_` (`bcdfo_build_QR_of_Y.py` L74-L77): number of entries of `scale`. -/
def Kind.size (k : Kind) (n p1 : ℕ) : ℕ := if k = .subbasis then p1 else fullSize n

/-- `xbase`, `scale` and the transformed points (`bcdfo_build_QR_of_Y.py` L84-L95). -/
noncomputable def Kind.frame (k : Kind) (Y : Fin (p + 1) → Fin n → ℝ) (shift : Bool) : Frame n p (k.size n (p + 1)) :=
  buildFrame (k.size n (p + 1)) Y shift

/-- Append zeros: `P=zeros((n_rhs,q)); P[0:n_rhs,0:p1]=...` (`bcdfo_computeP.py` L80-L82). -/
def padTo (q : ℕ) {m : ℕ} (v : Fin m → ℝ) : Fin q → ℝ := fun i => if h : (i : ℕ) < m then v ⟨i, h⟩ else 0

/-- A row of coefficients (`bcdfo_computeP.py` L75-L112). -/
abbrev Coefs := Σ m : ℕ, Fin m → ℝ

/-- `solve` with its exception (`bcdfo_computeP.py` L75, L82, L110). -/
noncomputable def solveE {k : ℕ} (A : Matrix (Fin k) (Fin k) ℝ) (b : Fin k → ℝ) : Except ModelExc (Fin k → ℝ) :=
  match solve A b with
  | some w => .ok w
  | none => .error .singular

/-- Factorisation (`bcdfo_build_QR_of_Y.py` L100-L193) followed by `bcdfo_computeP_` (`bcdfo_computeP.py` L65-L113), for one row of values. -/
noncomputable def modelCoefs (K : LinKit) (kind : Kind) (Y : Fin (p + 1) → Fin n → ℝ) (shift : Bool) (f : Fin (p + 1) → ℝ) :
    Except ModelExc Coefs :=
  let pts := (kind.frame Y shift).pts
  let q := fullSize n
  match kind.eff (p + 1) q with
  | .subbasis =>
    let F := K.qr (p + 1) (p + 1) (zMat (p + 1) pts)
    (solveE F.2ᵀ f).map fun w => ⟨p + 1, F.1 *ᵥ w⟩
  | .frobnorm =>
    if p + 1 = n + 1 ∨ p + 1 = q then
      let F := K.qr (p + 1) (p + 1) (zMat (p + 1) pts)ᵀ
      (solveE F.2 (F.1ᵀ *ᵥ f)).map fun w => ⟨q, padTo q w⟩
    else .error .frobP
  | .l2norm =>
    let F := K.qr q (p + 1) (zMat q pts)
    (solveE F.2ᵀ f).map fun w => ⟨q, F.1 *ᵥ w⟩
  | .regression =>
    let F := K.qr (p + 1) q (zMat q pts)ᵀ
    .ok ⟨q, K.pinv q F.2 *ᵥ (F.1ᵀ *ᵥ f)⟩

/-- Factorisation followed by `bcdfo_computeLj_` (`bcdfo_computeLj.py` L51-L103).  L69 (`Lj[n + 1:q]=0`) selects no row of the 1-row matrix `Lj`. -/
noncomputable def lagrangeCoefs (K : LinKit) (kind : Kind) (Y : Fin (p + 1) → Fin n → ℝ) (shift : Bool) (j : Fin (p + 1)) :
    Except ModelExc Coefs :=
  let pts := (kind.frame Y shift).pts
  let q := fullSize n
  match kind.eff (p + 1) q with
  | .subbasis =>
    let F := K.qr (p + 1) (p + 1) (zMat (p + 1) pts)
    (solveE F.2ᵀ (Pi.single j 1)).map fun w => ⟨p + 1, F.1 *ᵥ w⟩
  | .frobnorm =>
    if p + 1 = n + 1 ∨ p + 1 = q then
      let F := K.qr (p + 1) (p + 1) (zMat (p + 1) pts)ᵀ
      (solveE F.2 (F.1ᵀ *ᵥ Pi.single j 1)).map fun w => ⟨p + 1, w⟩
    else .error .frobL
  | .l2norm =>
    let F := K.qr q (p + 1) (zMat q pts)
    if p + 1 < q then .ok ⟨q, F.1 *ᵥ (K.pinv (p + 1) F.2ᵀ *ᵥ Pi.single j 1)⟩
    else (solveE F.2ᵀ (Pi.single j 1)).map fun w => ⟨q, F.1 *ᵥ w⟩
  | .regression =>
    let F := K.qr (p + 1) q (zMat q pts)ᵀ
    .ok ⟨q, K.pinv q F.2 *ᵥ (F.1ᵀ *ᵥ Pi.single j 1)⟩

/-- Value at `x` of a row of coefficients: `bcdfo_evalP_` in the frame of the set (`bcdfo_evalP.py` L52-L56). -/
noncomputable def Coefs.eval (c : Coefs) {q : ℕ} (x xbase : Fin n → ℝ) (scale : Fin q → ℝ) (shift : Bool) : ℝ :=
  evalP c.2 x xbase (padTo c.1 scale) shift

/-- An elementwise quotient; `none`: an infinite value or NaN (`bcdfo_evalL.py` L70). -/
noncomputable def fdiv (a b : ℝ) : Option ℝ := open Classical in if b = 0 then none else some (a / b)

/-- A scalar product with entries that need not be finite: `inf*0`, `inf - inf` are NaN (`bcdfo_evalL.py` L70, `bcdfo_evalP.py` L53). -/
noncomputable def fdot {m : ℕ} (u : Fin m → Option ℝ) (v : Fin m → ℝ) : Option ℝ :=
  open Classical in if ∀ i, (u i).isSome then some (∑ i, (u i).getD 0 * v i) else none

/-- Factorisation followed by `bcdfo_evalL_` (`bcdfo_evalL.py` L56-L99) for one index of `choice_set`; `none` inside: not finite.  With
`frobnorm` the coefficients are the rows of `QZ / RZ.T`, an elementwise quotient (L70).  Between linear and quadratic size `bcdfo_evalZ_` is
called with a float `q` (L58, L83) and `numpy.zeros` raises. -/
noncomputable def lagrangeVal (K : LinKit) (kind : Kind) (Y : Fin (p + 1) → Fin n → ℝ) (shift : Bool) (j : Fin (p + 1))
    (x : Fin n → ℝ) : Except ModelExc (Option ℝ) :=
  let fr := kind.frame Y shift
  let q := fullSize n
  match kind.eff (p + 1) q with
  | .subbasis =>
    let F := K.qr (p + 1) (p + 1) (zMat (p + 1) fr.pts)
    open Classical in
    if IsUnit F.2.det then .ok (some (Coefs.eval ⟨p + 1, (F.2⁻¹ * F.1ᵀ) j⟩ x fr.xbase fr.scale shift)) else .error .singular
  | .frobnorm =>
    if p + 1 = n + 1 ∨ p + 1 = q then
      let F := K.qr (p + 1) (p + 1) (zMat (p + 1) fr.pts)ᵀ
      .ok (fdot (fun i => fdiv (F.1 j i) (F.2ᵀ j i)) (zCol (p + 1)
        (if shift then fun i => (x i - fr.xbase i) * ext fr.scale 1 else x)))
    else .error .frobV
  | .l2norm =>
    let F := K.qr q (p + 1) (zMat q fr.pts)
    open Classical in
    if p + 1 < q then .ok (some (Coefs.eval ⟨q, (K.pinv (p + 1) F.2 * F.1ᵀ) j⟩ x fr.xbase fr.scale shift))
    else if IsUnit F.2.det then .ok (some (Coefs.eval ⟨q, (F.2⁻¹ * F.1ᵀ) j⟩ x fr.xbase fr.scale shift)) else .error .singular
  | .regression =>
    let F := K.qr (p + 1) q (zMat q fr.pts)ᵀ
    .ok (some (Coefs.eval ⟨q, (F.1 * K.pinv q F.2ᵀ) j⟩ x fr.xbase fr.scale shift))

end Sqpdfo
