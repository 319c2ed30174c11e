import Verif.Props.C34_C35_C53_Poly
import Mathlib.LinearAlgebra.Matrix.Adjugate

/-! # C36, C37: interpolation models and Lagrange polynomials; determinants for C26 -/

set_option linter.unusedSectionVars false

namespace Sqpdfo
open Matrix Finset
variable {n p q : ℕ}

/-- What is assumed of `numpy.linalg.qr(Z)` (mode `reduced`). -/
structure IsQR (Q : Matrix (Fin q) (Fin p) ℝ) (R : Matrix (Fin p) (Fin p) ℝ)
    (Z : Matrix (Fin q) (Fin p) ℝ) : Prop where
  orth : Qᵀ * Q = 1
  eq : Q * R = Z

/-- The points are poised: the columns of `Z` are linearly independent. -/
def Poised (Z : Matrix (Fin q) (Fin p) ℝ) : Prop := ∀ v : Fin p → ℝ, Z *ᵥ v = 0 → v = 0

theorem dotFrom_getD (P : ℕ → ℝ) : ∀ (l : List ℝ) (off : ℕ),
    dotFrom P off l = ∑ r ∈ range l.length, P (off + r) * l.getD r 0 := by
  intro l
  induction l with
  | nil => intro off; simp [dotFrom]
  | cons z zs ih =>
    intro off
    rw [dotFrom, ih, List.length_cons, sum_range_succ']
    simp only [List.getD_cons_zero, List.getD_cons_succ, add_zero]
    rw [add_comm]
    congr 1
    apply sum_congr rfl
    intro r _
    rw [show off + 1 + r = off + (r + 1) by omega]

theorem dotFrom_zCol (P : Fin q → ℝ) (y : Fin n → ℝ) (h1 : 1 ≤ q)
    (h2 : q ≤ (n + 1) * (n + 2) / 2) :
    dotFrom (ext P) 0 (evalZ n (ext y) q) = P ⬝ᵥ zCol q y := by
  rw [dotFrom_getD, evalZ_length _ h1 h2, Finset.sum_range]
  simp [dotProduct, zCol, ext]

/-- The point in the coordinates of the frame, as used by `bcdfo_evalP_`. -/
noncomputable def frameMap (xbase : Fin n → ℝ) (scale : Fin q → ℝ) (shift : Bool) (x : Fin n → ℝ) : Fin n → ℝ :=
  if shift then fun i => (x i - xbase i) * ext scale 1 else x

theorem evalP_zCol (P : Fin q → ℝ) (x xbase : Fin n → ℝ) (scale : Fin q → ℝ) (shift : Bool)
    (h1 : 1 ≤ q) (h2 : q ≤ (n + 1) * (n + 2) / 2) :
    evalP P x xbase scale shift = P ⬝ᵥ zCol q (frameMap xbase scale shift x) := by
  rw [← dotFrom_zCol _ _ h1 h2]
  unfold evalP frameMap
  cases shift
  · simp
  · simp only [if_true]
    congr 2
    funext i
    by_cases hi : i < n <;> simp [ext, hi]

/-- The interpolation points in the coordinates of the frame are the points whose monomials are
factorised. -/
theorem frameMap_pts (Y : Fin (p + 1) → Fin n → ℝ) (shift : Bool) (hq : n + 1 ≤ q) (hn : 1 ≤ n)
    (j : Fin (p + 1)) :
    frameMap (buildFrame q Y shift).xbase (buildFrame q Y shift).scale shift (Y j) =
      (buildFrame q Y shift).pts j := by
  unfold frameMap buildFrame
  cases shift with
  | false => simp
  | true =>
    by_cases hp : p + 1 > 1
    · simp only [hp, and_self, if_true]
      funext i
      have : ext (scaleVec n q (scaleY Y)) 1 = (scaleY Y)⁻¹ := by
        unfold ext
        rw [dif_pos (by omega)]
        simp only [scaleVec]
        rw [if_neg (by norm_num), if_pos (by omega)]
      rw [this, div_eq_mul_inv]
    · simp only [hp, and_false, if_false, if_true]
      funext i
      have : ext (fun _ : Fin q => (1 : ℝ)) 1 = 1 := by
        unfold ext; rw [dif_pos (by omega)]
      rw [this]; simp

theorem solve_some {k : ℕ} {A : Matrix (Fin k) (Fin k) ℝ} {b w : Fin k → ℝ}
    (h : solve A b = some w) : A *ᵥ w = b := by
  unfold solve at h
  split_ifs at h with hu
  rw [← Option.some.inj h, mulVec_mulVec, Matrix.mul_nonsing_inv _ hu, one_mulVec]

/-- `Zᵀ P = f` for the computed coefficients. -/
theorem computeP_solves {Q Z : Matrix (Fin q) (Fin p) ℝ} {R : Matrix (Fin p) (Fin p) ℝ}
    {f : Fin p → ℝ} {P : Fin q → ℝ} (hQR : IsQR Q R Z) (h : computeP Q R f = some P) :
    Zᵀ *ᵥ P = f := by
  unfold computeP at h
  obtain ⟨w, hw, rfl⟩ := Option.map_eq_some_iff.1 h
  rw [← hQR.eq, transpose_mul, mulVec_mulVec, Matrix.mul_assoc, hQR.orth, Matrix.mul_one]
  exact solve_some hw

/-- For a poised set the triangular factor is invertible, so `solve` does not fail. -/
theorem R_unit {Q Z : Matrix (Fin q) (Fin p) ℝ} {R : Matrix (Fin p) (Fin p) ℝ}
    (hQR : IsQR Q R Z) (hp : Poised Z) : IsUnit R.det := by
  rw [← Matrix.isUnit_iff_isUnit_det, ← Matrix.mulVec_injective_iff_isUnit]
  intro v w hvw
  have : R *ᵥ (v - w) = 0 := by rw [mulVec_sub]; exact sub_eq_zero.2 hvw
  have hz : Z *ᵥ (v - w) = 0 := by rw [← hQR.eq, ← mulVec_mulVec, this, mulVec_zero]
  exact sub_eq_zero.1 (hp _ hz)

/-- C36: for a poised interpolation set of any size, any values and any exact reduced QR
factorisation of the matrix the code factorises (sub-basis: `q = p + 1`; minimum-norm: `q` the
full quadratic size), the coefficients exist and the model takes the given value at every
interpolation point, with and without shift. -/
theorem C36_interpolates (Y : Fin (p + 1) → Fin n → ℝ) (shift : Bool) (fY : Fin (p + 1) → ℝ)
    (Q : Matrix (Fin q) (Fin (p + 1)) ℝ) (R : Matrix (Fin (p + 1)) (Fin (p + 1)) ℝ)
    (hn : 1 ≤ n) (hq : n + 1 ≤ q) (hq2 : q ≤ (n + 1) * (n + 2) / 2)
    (hQR : IsQR Q R (zMat q (buildFrame q Y shift).pts))
    (hp : Poised (zMat q (buildFrame q Y shift).pts)) :
    ∃ P, computeP Q R fY = some P ∧ ∀ j,
      evalP P (Y j) (buildFrame q Y shift).xbase (buildFrame q Y shift).scale shift = fY j := by
  have hu := R_unit hQR hp
  have hu' : IsUnit (Rᵀ).det := by rw [det_transpose]; exact hu
  have hex : ∃ P, computeP Q R fY = some P := by
    unfold computeP solve
    rw [if_pos hu']
    exact ⟨_, rfl⟩
  obtain ⟨P, hP⟩ := hex
  refine ⟨P, hP, fun j => ?_⟩
  rw [evalP_zCol _ _ _ _ _ (by omega) hq2, frameMap_pts Y shift hq hn j]
  have := congrFun (computeP_solves hQR hP) j
  rw [← this, mulVec, dotProduct_comm]
  rfl

/-- The coefficients do not depend on the factorisation: for a square system (`q = p + 1`) they
are the only interpolating ones. -/
theorem C36_unique (Y : Fin (p + 1) → Fin n → ℝ) (shift : Bool) (fY : Fin (p + 1) → ℝ)
    (Q R : Matrix (Fin (p + 1)) (Fin (p + 1)) ℝ)
    (hn : 1 ≤ n) (hq : n + 1 ≤ p + 1) (hq2 : p + 1 ≤ (n + 1) * (n + 2) / 2)
    (hQR : IsQR Q R (zMat (p + 1) (buildFrame (p + 1) Y shift).pts))
    (hp : Poised (zMat (p + 1) (buildFrame (p + 1) Y shift).pts)) (P : Fin (p + 1) → ℝ)
    (hP : ∀ j, evalP P (Y j) (buildFrame (p + 1) Y shift).xbase
      (buildFrame (p + 1) Y shift).scale shift = fY j) :
    computeP Q R fY = some P := by
  obtain ⟨P', hP', -⟩ := C36_interpolates Y shift fY Q R hn hq hq2 hQR hp
  have h1 := computeP_solves hQR hP'
  have h2 : (zMat (p + 1) (buildFrame (p + 1) Y shift).pts)ᵀ *ᵥ P = fY := by
    funext j
    rw [← hP j, evalP_zCol _ _ _ _ _ (by omega) hq2, frameMap_pts Y shift hq hn j, mulVec,
      dotProduct_comm]
    rfl
  have hinj : Function.Injective
      ((zMat (p + 1) (buildFrame (p + 1) Y shift).pts)ᵀ *ᵥ · : (Fin (p + 1) → ℝ) → _) := by
    rw [Matrix.mulVec_injective_iff_isUnit, Matrix.isUnit_transpose,
      ← Matrix.mulVec_injective_iff_isUnit]
    intro v w hvw
    exact sub_eq_zero.1 (hp _ (by rw [mulVec_sub]; exact sub_eq_zero.2 hvw))
  rw [hP', hinj (h1.trans h2.symm)]

/-- C37: Lagrange polynomials are cardinal, and evaluating them through the factors
(`bcdfo_evalL_`) gives at every point and every selected index the value of the polynomial with
the computed coefficients (`bcdfo_computeLj_`); indices not selected get 0; the model is the
combination of the Lagrange polynomials with the given values. -/
theorem C37_lagrange (Y : Fin (p + 1) → Fin n → ℝ) (shift : Bool)
    (Q : Matrix (Fin q) (Fin (p + 1)) ℝ) (R : Matrix (Fin (p + 1)) (Fin (p + 1)) ℝ)
    (hn : 1 ≤ n) (hq : n + 1 ≤ q) (hq2 : q ≤ (n + 1) * (n + 2) / 2)
    (hQR : IsQR Q R (zMat q (buildFrame q Y shift).pts))
    (hp : Poised (zMat q (buildFrame q Y shift).pts)) :
    ∃ L : Fin (p + 1) → Fin q → ℝ, (∀ j, computeLj Q R j = some (L j)) ∧
    (∀ i j, evalP (L j) (Y i) (buildFrame q Y shift).xbase (buildFrame q Y shift).scale shift =
      if i = j then 1 else 0) ∧
    (∀ choice x, ∃ v, evalL Q R choice x (buildFrame q Y shift).xbase
        (buildFrame q Y shift).scale shift = some v ∧
      ∀ j, v j = if j ∈ choice then
        evalP (L j) x (buildFrame q Y shift).xbase (buildFrame q Y shift).scale shift else 0) ∧
    (∀ fY P x, computeP Q R fY = some P →
      evalP P x (buildFrame q Y shift).xbase (buildFrame q Y shift).scale shift =
      ∑ j, fY j *
        evalP (L j) x (buildFrame q Y shift).xbase (buildFrame q Y shift).scale shift) := by
  have hu := R_unit hQR hp
  have hu' : IsUnit (Rᵀ).det := by rw [det_transpose]; exact hu
  have hex : ∀ j, ∃ P, computeLj Q R j = some P ∧ ∀ i,
      evalP P (Y i) (buildFrame q Y shift).xbase (buildFrame q Y shift).scale shift =
        (Pi.single j 1 : Fin (p + 1) → ℝ) i :=
    fun j => C36_interpolates Y shift (Pi.single j 1) Q R hn hq hq2 hQR hp
  choose L hL hL2 using hex
  have hform : ∀ j, L j = (R⁻¹ * Qᵀ) j := by
    intro j
    have := hL j
    unfold computeLj solve at this
    rw [if_pos hu'] at this
    have h2 : Q *ᵥ (Rᵀ⁻¹ *ᵥ Pi.single j 1) = L j := Option.some.inj this
    rw [← h2, mulVec_mulVec, mulVec_single_one, ← transpose_nonsing_inv,
      show Q * (R⁻¹)ᵀ = (R⁻¹ * Qᵀ)ᵀ by rw [transpose_mul, transpose_transpose]]
    rfl
  refine ⟨L, hL, ?_, ?_, ?_⟩
  · intro i j
    rw [hL2 j i, Pi.single_apply]
  · intro choice x
    unfold evalL
    rw [if_pos hu]
    refine ⟨_, rfl, fun j => ?_⟩
    simp only [hform]
  · intro fY P x hP
    have hPf : P = Q *ᵥ (Rᵀ⁻¹ *ᵥ fY) := by
      unfold computeP solve at hP
      rw [if_pos hu'] at hP
      exact (Option.some.inj hP).symm
    simp only [evalP_zCol _ _ _ _ _ (show 1 ≤ q by omega) hq2]
    have hPL : P = ∑ j, fY j • L j := by
      rw [hPf, mulVec_mulVec, ← transpose_nonsing_inv]
      rw [show Q * (R⁻¹)ᵀ = (R⁻¹ * Qᵀ)ᵀ by rw [transpose_mul, transpose_transpose]]
      funext r
      simp only [mulVec, dotProduct, Finset.sum_apply, Pi.smul_apply, smul_eq_mul, hform,
        transpose_apply]
      exact sum_congr rfl fun j _ => by ring
    rw [hPL]
    simp only [sum_dotProduct, smul_dotProduct, smul_eq_mul]

/-- Replacing point `j` by `x` (in the same frame) multiplies the determinant of the interpolation
matrix by the value at `x` of the `j`-th Lagrange polynomial. -/
theorem C26_determinant (pts : Fin p → Fin n → ℝ) (Q R : Matrix (Fin p) (Fin p) ℝ)
    (hQR : IsQR Q R (zMat p pts)) (j : Fin p) (y : Fin n → ℝ)
    (L : Fin p → ℝ) (hL : computeLj Q R j = some L) :
    (zMat p (Function.update pts j y)).det = (L ⬝ᵥ zCol p y) * (zMat p pts).det := by
  have h1 : zMat p (Function.update pts j y) = (zMat p pts).updateCol j (zCol p y) := by
    ext r i
    rw [updateCol_apply]
    by_cases h : i = j
    · subst h; simp [zMat]
    · simp [h, zMat]
  have hZL : (zMat p pts)ᵀ *ᵥ L = Pi.single j 1 := computeP_solves hQR hL
  have h2 := mulVec_cramer (zMat p pts) (zCol p y)
  have h3 := congrArg (fun v => L ⬝ᵥ v) h2
  simp only [dotProduct_smul, smul_eq_mul] at h3
  rw [h1, ← cramer_apply, mul_comm, ← h3, dotProduct_mulVec, ← mulVec_transpose, hZL]
  simp

/-- Hence a set stays poised when a point is replaced at which the Lagrange polynomial does not
vanish (`bcdfo_include_in_Y_` requires more than `Lambda ≥ 0`). -/
theorem C26_poised_after (pts : Fin p → Fin n → ℝ) (Q R : Matrix (Fin p) (Fin p) ℝ)
    (hQR : IsQR Q R (zMat p pts)) (hp : Poised (zMat p pts)) (j : Fin p) (y : Fin n → ℝ)
    (L : Fin p → ℝ) (hL : computeLj Q R j = some L) (hne : L ⬝ᵥ zCol p y ≠ 0) :
    Poised (zMat p (Function.update pts j y)) := by
  have hd : (zMat p pts).det ≠ 0 := by
    have : IsUnit (zMat p pts) := by
      rw [← Matrix.mulVec_injective_iff_isUnit]
      intro v w hvw
      exact sub_eq_zero.1 (hp _ (by rw [mulVec_sub]; exact sub_eq_zero.2 hvw))
    exact ((Matrix.isUnit_iff_isUnit_det _).1 this).ne_zero
  have hd' : (zMat p (Function.update pts j y)).det ≠ 0 := by
    rw [C26_determinant pts Q R hQR j y L hL]
    exact mul_ne_zero hne hd
  intro v hv
  have hinj := Matrix.mulVec_injective_iff_isUnit.2
    ((Matrix.isUnit_iff_isUnit_det _).2 (isUnit_iff_ne_zero.2 hd'))
  exact hinj (by rw [hv, mulVec_zero])

/-- Instance: the points 0 and 1 on the line with linear monomials. -/
theorem zMat_example : zMat 2 (![![0], ![1]] : Fin 2 → Fin 1 → ℝ) = !![1, 1; 0, 1] := by
  ext i j
  fin_cases i <;> fin_cases j <;> simp [zMat, zCol, evalZ, ext]

example : IsQR (1 : Matrix (Fin 2) (Fin 2) ℝ) !![1, 1; 0, 1]
    (zMat 2 (buildFrame 2 (![![0], ![1]] : Fin 2 → Fin 1 → ℝ) false).pts) ∧
    Poised (zMat 2 (buildFrame 2 (![![0], ![1]] : Fin 2 → Fin 1 → ℝ) false).pts) := by
  have : (buildFrame 2 (![![0], ![1]] : Fin 2 → Fin 1 → ℝ) false).pts = ![![0], ![1]] := by
    simp [buildFrame]
  rw [this, zMat_example]
  refine ⟨⟨by simp, by simp⟩, ?_⟩
  intro v hv
  have h0 := congrFun hv 0
  have h1 := congrFun hv 1
  simp [mulVec, dotProduct, Fin.sum_univ_two] at h0 h1
  funext i
  fin_cases i
  · simpa [h1] using h0
  · exact h1

#print axioms C36_interpolates
#print axioms C36_unique
#print axioms C37_lagrange
#print axioms C26_determinant
#print axioms C26_poised_after

end Sqpdfo
