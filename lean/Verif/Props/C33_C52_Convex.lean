import Verif.Model.Convex
import Verif.Spec.Matrix
import Verif.Props.C31_C32_Bfgs
import Verif.Lemmas.Spectral

/-! # C33, C52: convexification and condition repair -/

set_option linter.unusedSectionVars false

namespace Sqpdfo
open Spec Matrix
variable {K : Type} [Field K] [LinearOrder K] [IsStrictOrderedRing K] {ι : Type} [Fintype ι]
  [DecidableEq ι]

/-- What is assumed of `eigh(A)`: an orthogonal diagonalisation. -/
structure EigDecomp (A v : Matrix ι ι K) (d : ι → K) : Prop where
  orth : vᵀ * v = 1
  orth' : v * vᵀ = 1
  eq : A = v * (diagonal d * vᵀ)

/-- The quadratic form of `v diag(d) vᵀ`. -/
theorem quad_diag (v : Matrix ι ι K) (d x : ι → K) :
    x ⬝ᵥ (v * (diagonal d * vᵀ)) *ᵥ x = ∑ i, d i * ((vᵀ *ᵥ x) i) ^ 2 := by
  rw [← mulVec_mulVec, ← mulVec_mulVec, dotProduct_mulVec, ← mulVec_transpose, dotProduct]
  apply Finset.sum_congr rfl
  intro i _
  rw [mulVec_diagonal]
  ring

theorem norm_orth {v : Matrix ι ι K} (h : v * vᵀ = 1) (x : ι → K) :
    ∑ i, ((vᵀ *ᵥ x) i) ^ 2 = x ⬝ᵥ x := by
  have : x ⬝ᵥ (v * (diagonal (fun _ => (1 : K)) * vᵀ)) *ᵥ x = x ⬝ᵥ x := by
    rw [show diagonal (fun _ : ι => (1 : K)) = 1 from rfl, Matrix.one_mul, h, one_mulVec]
  rw [← this, quad_diag]
  simp

theorem symm_diag (v : Matrix ι ι K) (d : ι → K) (i j : ι) :
    (v * (diagonal d * vᵀ)) i j = (v * (diagonal d * vᵀ)) j i := by
  have : (v * (diagonal d * vᵀ))ᵀ = v * (diagonal d * vᵀ) := by
    rw [transpose_mul, transpose_mul, transpose_transpose, diagonal_transpose, Matrix.mul_assoc]
  conv_lhs => rw [← this]
  rfl

theorem liftEig_ge (d : K) : 1 / 10 ^ 10 ≤ liftEig d := by
  unfold liftEig
  split_ifs with h
  · norm_num
  · exact not_lt.1 h

/-- The columns of `v` are eigenvectors. -/
theorem eigcol {A v : Matrix ι ι K} {d : ι → K} (h : vᵀ * v = 1)
    (hA : A = v * (diagonal d * vᵀ)) (i : ι) :
    A *ᵥ (v *ᵥ Pi.single i 1) = d i • (v *ᵥ Pi.single i 1) ∧ v *ᵥ (Pi.single i (1 : K)) ≠ 0 := by
  have hinv : vᵀ *ᵥ (v *ᵥ Pi.single i (1 : K)) = Pi.single i 1 := by
    rw [mulVec_mulVec, h, one_mulVec]
  constructor
  · rw [hA, ← mulVec_mulVec, ← mulVec_mulVec, hinv, ← mulVec_smul]
    congr 1
    ext j
    rw [mulVec_diagonal]
    by_cases hij : j = i
    · subst hij; simp
    · simp [Pi.single_eq_of_ne hij]
  · intro h0
    rw [h0, mulVec_zero] at hinv
    have := congrFun hinv i
    simp at this

/-- Eigenvalues of a diagonalised matrix. -/
theorem eig_mem {A v : Matrix ι ι K} {d : ι → K} (h : EigDecomp A v d) (μ : K) :
    IsEigenvalue A μ ↔ ∃ i, d i = μ := by
  constructor
  · rintro ⟨x, hx, hAx⟩
    have h1 : diagonal d *ᵥ (vᵀ *ᵥ x) = μ • (vᵀ *ᵥ x) := by
      have := congrArg (vᵀ *ᵥ ·) hAx
      simp only [mulVec_smul] at this
      rw [← this, h.eq, ← mulVec_mulVec, ← mulVec_mulVec, mulVec_mulVec _ vᵀ v, h.orth, one_mulVec]
    have hne : vᵀ *ᵥ x ≠ 0 := by
      intro h0
      apply hx
      have : v *ᵥ (vᵀ *ᵥ x) = x := by rw [mulVec_mulVec, h.orth', one_mulVec]
      rw [← this, h0, mulVec_zero]
    obtain ⟨i, hi⟩ := Function.ne_iff.1 hne
    refine ⟨i, ?_⟩
    have := congrFun h1 i
    rw [mulVec_diagonal] at this
    exact mul_right_cancel₀ hi (by simpa using this)
  · rintro ⟨i, rfl⟩
    obtain ⟨h1, h2⟩ := eigcol h.orth h.eq i
    exact ⟨_, h2, h1⟩

/-- C33: `ev` and `(d, v)` are the eigenvalues and the eigendecomposition of the symmetric
matrix `A` (with `ev` in any order).  A matrix without negative eigenvalues is returned
unchanged. If there is a negative one, the result is symmetric positive definite, all its
eigenvalues are at least `1e-10`, the eigenvectors with eigenvalue at least `1e-10` keep their
eigenvalue, and the other eigenvalues become `1e-9`. -/
theorem C33_convexify (A v : Matrix ι ι K) (ev d : ι → K)
    (h : EigDecomp A v d) (hev : ∀ μ, (∃ i, ev i = μ) ↔ ∃ i, d i = μ) :
    ((∀ μ, IsEigenvalue A μ → 0 ≤ μ) → checkConvex ev d v A = A) ∧
    ((∃ μ, IsEigenvalue A μ ∧ μ < 0) →
      SymPD (checkConvex ev d v A) ∧
      (∀ μ, IsEigenvalue (checkConvex ev d v A) μ → 1 / 10 ^ 10 ≤ μ) ∧
      (∀ x : ι → K, 1 / 10 ^ 10 * (x ⬝ᵥ x) ≤ x ⬝ᵥ checkConvex ev d v A *ᵥ x) ∧
      ∀ i, checkConvex ev d v A *ᵥ (v *ᵥ Pi.single i 1) =
        (if d i < 1 / 10 ^ 10 then 1 / 10 ^ 9 else d i) • (v *ᵥ Pi.single i 1)) := by
  constructor
  · intro hpos
    unfold checkConvex
    rw [if_neg]
    rintro ⟨i, hi⟩
    have := hpos (ev i) ((eig_mem h _).2 ((hev _).1 ⟨i, rfl⟩))
    exact absurd hi (not_lt.2 this)
  · rintro ⟨μ, hμ, hneg⟩
    have hex : ∃ i, ev i < 0 := by
      obtain ⟨i, hi⟩ := (hev μ).2 ((eig_mem h μ).1 hμ)
      exact ⟨i, by rw [hi]; exact hneg⟩
    have hr : checkConvex ev d v A = v * (diagonal (fun i => liftEig (d i)) * vᵀ) := by
      unfold checkConvex; rw [if_pos hex]
    rw [hr]
    have hquad : ∀ x : ι → K, 1 / 10 ^ 10 * (x ⬝ᵥ x) ≤
        x ⬝ᵥ (v * (diagonal (fun i => liftEig (d i)) * vᵀ)) *ᵥ x := by
      intro x
      rw [quad_diag, ← norm_orth h.orth' x, Finset.mul_sum]
      apply Finset.sum_le_sum
      intro i _
      exact mul_le_mul_of_nonneg_right (liftEig_ge _) (sq_nonneg _)
    refine ⟨⟨symm_diag _ _, ?_⟩, ?_, hquad, ?_⟩
    · intro x hx
      refine lt_of_lt_of_le ?_ (hquad x)
      exact mul_pos (by positivity) (dot_self_pos hx)
    · intro μ hμ
      obtain ⟨i, rfl⟩ := (eig_mem (d := fun i => liftEig (d i)) ⟨h.orth, h.orth', rfl⟩ μ).1 hμ
      exact liftEig_ge _
    · intro i
      exact (eigcol h.orth rfl i).1

/-- Functions of a matrix do not depend on the decomposition. -/
theorem eig_unique {A v w : Matrix ι ι K} {d e : ι → K} (h : EigDecomp A v d) (h' : EigDecomp A w e) (f : K → K) :
    v * (diagonal (fun i => f (d i)) * vᵀ) = w * (diagonal (fun i => f (e i)) * wᵀ) := by
  have hU : diagonal d * (vᵀ * w) = (vᵀ * w) * diagonal e := by
    calc diagonal d * (vᵀ * w) = vᵀ * (v * (diagonal d * vᵀ)) * w := by
          rw [← Matrix.mul_assoc vᵀ v, h.orth, Matrix.one_mul, Matrix.mul_assoc]
      _ = vᵀ * (w * (diagonal e * wᵀ)) * w := by rw [← h.eq, h'.eq]
      _ = (vᵀ * w) * diagonal e := by
          rw [Matrix.mul_assoc vᵀ, Matrix.mul_assoc w, Matrix.mul_assoc (diagonal e), h'.orth, Matrix.mul_one, Matrix.mul_assoc]
  have hf : diagonal (fun i => f (d i)) * (vᵀ * w) = (vᵀ * w) * diagonal (fun i => f (e i)) := by
    ext i j
    have hij := congrFun (congrFun hU i) j
    rw [diagonal_mul, mul_diagonal] at hij
    rw [diagonal_mul, mul_diagonal]
    by_cases h0 : (vᵀ * w) i j = 0
    · rw [h0, mul_zero, zero_mul]
    · have : d i = e j := mul_right_cancel₀ h0 (by rw [hij, mul_comm])
      rw [this, mul_comm]
  calc v * (diagonal (fun i => f (d i)) * vᵀ) = v * (diagonal (fun i => f (d i)) * (vᵀ * w)) * wᵀ := by
        rw [Matrix.mul_assoc v, Matrix.mul_assoc (diagonal _), Matrix.mul_assoc vᵀ, h'.orth', Matrix.mul_one]
    _ = w * (diagonal (fun i => f (e i)) * wᵀ) := by
        rw [hf, ← Matrix.mul_assoc v, ← Matrix.mul_assoc v, h.orth', Matrix.one_mul, Matrix.mul_assoc]

/-- C33, unconditional form over the real numbers: every symmetric matrix has an eigendecomposition, and the result of the convexification is the
same for each of them; so it is a function of the matrix alone, and it is positive semidefinite. -/
theorem C33_real (A : Matrix ι ι ℝ) (hA : ∀ i j, A i j = A j i) :
    ∃ B : Matrix ι ι ℝ, (∃ v d, EigDecomp A v d) ∧
      (∀ v ev d, EigDecomp A v d → (∀ μ, (∃ i, ev i = μ) ↔ ∃ i, d i = μ) → checkConvex ev d v A = B) ∧
      (∀ i j, B i j = B j i) ∧ (∀ x : ι → ℝ, 0 ≤ x ⬝ᵥ B *ᵥ x) ∧ ((∀ x : ι → ℝ, 0 ≤ x ⬝ᵥ A *ᵥ x) ↔ B = A) := by
  obtain ⟨V, D, h1, h2, h3⟩ := exists_spectral A hA
  have hE : EigDecomp A V D := ⟨h1, h2, by rw [h3, Matrix.mul_assoc]⟩
  have hid := fun μ : ℝ => Iff.refl (∃ i, D i = μ)
  have hpsd : ∀ x : ι → ℝ, 0 ≤ x ⬝ᵥ checkConvex D D V A *ᵥ x := by
    intro x
    by_cases hneg : ∃ i, D i < 0
    · obtain ⟨i, hi⟩ := hneg
      refine le_trans ?_ (((C33_convexify A V D D hE hid).2 ⟨D i, (eig_mem hE _).2 ⟨i, rfl⟩, hi⟩).2.2.1 x)
      exact mul_nonneg (by norm_num) (Finset.sum_nonneg fun i _ => mul_self_nonneg _)
    · have : checkConvex D D V A = A := by unfold checkConvex; rw [if_neg hneg]
      rw [this, hE.eq, quad_diag]
      push Not at hneg
      exact Finset.sum_nonneg fun i _ => mul_nonneg (hneg i) (sq_nonneg _)
  refine ⟨checkConvex D D V A, ⟨V, D, hE⟩, fun v ev d h hev => ?_, fun i j => ?_, hpsd, fun h => ?_, fun h => h ▸ hpsd⟩
  · have hneg : (∃ i, ev i < 0) ↔ ∃ i, D i < 0 := by
      constructor
      · rintro ⟨i, hi⟩
        obtain ⟨j, hj⟩ := (eig_mem hE _).1 ((eig_mem h _).2 ((hev _).1 ⟨i, rfl⟩))
        exact ⟨j, by rw [hj]; exact hi⟩
      · rintro ⟨i, hi⟩
        obtain ⟨j, hj⟩ := (hev (D i)).2 ((eig_mem h _).1 ((eig_mem hE _).2 ⟨i, rfl⟩))
        exact ⟨j, by rw [hj]; exact hi⟩
    unfold checkConvex
    by_cases hn : ∃ i, D i < 0
    · rw [if_pos hn, if_pos (hneg.2 hn)]
      exact eig_unique h hE liftEig
    · rw [if_neg hn, if_neg (fun h => hn (hneg.1 h))]
  · unfold checkConvex
    split
    · exact symm_diag _ _ i j
    · exact hA i j
  · unfold checkConvex
    rw [if_neg]
    rintro ⟨i, hi⟩
    obtain ⟨x, hx, hx2⟩ := (eig_mem hE _).2 ⟨i, rfl⟩
    have := h x
    rw [hx2, dotProduct_smul, smul_eq_mul] at this
    exact absurd (mul_neg_of_neg_of_pos hi (dot_self_pos hx)) (not_lt.2 this)

/-- A rotated indefinite matrix has a decomposition. -/
example : ∃ v d, EigDecomp (!![0, 1; 1, 0] : Matrix (Fin 2) (Fin 2) ℝ) v d :=
  (C33_real !![0, 1; 1, 0] (by intro i j; fin_cases i <;> fin_cases j <;> rfl)).choose_spec.1

/-- Instance: `diag(-1, 3)` with the identity as eigenvector matrix. -/
example : EigDecomp (!![-1, 0; 0, 3] : Matrix (Fin 2) (Fin 2) ℚ) 1 ![-1, 3] := by
  refine ⟨by simp, by simp, ?_⟩
  ext i j
  fin_cases i <;> fin_cases j <;> simp

example : checkConvex (![3, -1] : Fin 2 → ℚ) ![-1, 3] 1 !![-1, 0; 0, 3] 0 0 = 1 / 10 ^ 9 := by
  decide +kernel

/-- A singular value decomposition with square factors. -/
structure SvdDecomp (A U Vh : Matrix ι ι K) (S : ι → K) : Prop where
  U1 : Uᵀ * U = 1
  U2 : U * Uᵀ = 1
  V1 : Vhᵀ * Vh = 1
  V2 : Vh * Vhᵀ = 1
  nonneg : ∀ i, 0 ≤ S i
  eq : A = U * (diagonal S * Vh)

/-- C52, full statement: *well conditioned matrices are unchanged; otherwise the singular
values below `1e-7` are raised to `1e-7` and the others kept*.  False in general: if the
result is not symmetric it is symmetrised, which can destroy it
(`C52_symmetrisation_can_vanish`). Proved (`_partial`): the claim, if the recomposed matrix
is symmetric. -/
theorem C52_condition_repair_partial (nrm : Matrix ι ι K → K) (cond thr : K)
    (A U Vh : Matrix ι ι K) (S : ι → K) (h : SvdDecomp A U Vh S)
    (h0 : nrm 0 = 0) :
    (cond ≤ thr → checkCond nrm cond thr S U Vh A = (A, false)) ∧
    (thr < cond →
      (∀ i j, (U * (diagonal (fun i => if S i < 1 / 10 ^ 7 then 1 / 10 ^ 7 else S i) * Vh)) i j =
        (U * (diagonal (fun i => if S i < 1 / 10 ^ 7 then 1 / 10 ^ 7 else S i) * Vh)) j i) →
      (checkCond nrm cond thr S U Vh A).2 = true ∧
      SvdDecomp (checkCond nrm cond thr S U Vh A).1 U Vh
        (fun i => if S i < 1 / 10 ^ 7 then 1 / 10 ^ 7 else S i)) := by
  constructor
  · intro hc; unfold checkCond; rw [if_neg (not_lt.2 hc)]
  · intro hc hsym
    have hB : (Vhᵀ * (diagonal (fun i => liftSing (S i)) * Uᵀ))ᵀ =
        U * (diagonal (fun i => if S i < 1 / 10 ^ 7 then 1 / 10 ^ 7 else S i) * Vh) := by
      rw [transpose_mul, transpose_mul, transpose_transpose, transpose_transpose,
        diagonal_transpose, Matrix.mul_assoc]
      rfl
    have hd : U * (diagonal (fun i => if S i < 1 / 10 ^ 7 then 1 / 10 ^ 7 else S i) * Vh) -
        (U * (diagonal (fun i => if S i < 1 / 10 ^ 7 then 1 / 10 ^ 7 else S i) * Vh))ᵀ = 0 := by
      ext i j
      rw [Matrix.sub_apply, transpose_apply, hsym i j, sub_self]; rfl
    have hn : ¬ (nrm (U * (diagonal (fun i => if S i < 1 / 10 ^ 7 then 1 / 10 ^ 7 else S i) * Vh) -
        (U * (diagonal (fun i => if S i < 1 / 10 ^ 7 then 1 / 10 ^ 7 else S i) * Vh))ᵀ) >
        1 / 10 ^ 14) := by
      rw [hd, h0, gt_iff_lt, not_lt]; positivity
    have hr : checkCond nrm cond thr S U Vh A =
        (U * (diagonal (fun i => if S i < 1 / 10 ^ 7 then 1 / 10 ^ 7 else S i) * Vh), true) := by
      simp only [checkCond, gt_iff_lt, hc, if_true, hB]
      rw [if_neg hn]
    rw [hr]
    refine ⟨rfl, h.U1, h.U2, h.V1, h.V2, ?_, rfl⟩
    intro i
    by_cases hi : S i < 1 / 10 ^ 7
    · simp only [if_pos hi]; positivity
    · simp only [if_neg hi]; exact h.nonneg i

/-- For a nonsingular symmetric matrix, replacing the singular values by functions of them gives a symmetric matrix. -/
theorem svd_symm {A U Vh : Matrix ι ι K} {S : ι → K} (h : SvdDecomp A U Vh S) (hA : Aᵀ = A) (hS : ∀ i, S i ≠ 0) (f : K → K) :
    (U * (diagonal (fun i => f (S i)) * Vh))ᵀ = U * (diagonal (fun i => f (S i)) * Vh) := by
  obtain ⟨W, hWdef⟩ : ∃ W, W = Uᵀ * Vhᵀ := ⟨_, rfl⟩
  have hWt : Wᵀ = Vh * U := by rw [hWdef, transpose_mul, transpose_transpose, transpose_transpose]
  have hWW : W * Wᵀ = 1 := by
    rw [hWt, hWdef, Matrix.mul_assoc, ← Matrix.mul_assoc Vhᵀ, h.V1, Matrix.one_mul, h.U1]
  have hWW' : Wᵀ * W = 1 := by
    rw [hWt, hWdef, Matrix.mul_assoc, ← Matrix.mul_assoc U, h.U2, Matrix.one_mul, h.V2]
  have hcomm : diagonal S * Wᵀ = W * diagonal S := by
    have e : A = Vhᵀ * (diagonal S * Uᵀ) := by
      rw [← hA, h.eq, transpose_mul, transpose_mul, diagonal_transpose, Matrix.mul_assoc]
    calc diagonal S * Wᵀ = Uᵀ * (U * (diagonal S * Vh)) * U := by
          rw [hWt, ← Matrix.mul_assoc Uᵀ, h.U1, Matrix.one_mul, Matrix.mul_assoc]
      _ = Uᵀ * (Vhᵀ * (diagonal S * Uᵀ)) * U := by rw [← h.eq, ← e]
      _ = W * diagonal S := by
          rw [Matrix.mul_assoc, Matrix.mul_assoc, Matrix.mul_assoc, h.U1, Matrix.mul_one, hWdef, Matrix.mul_assoc]
  have hsq : diagonal S * diagonal S * W = W * (diagonal S * diagonal S) := by
    calc diagonal S * diagonal S * W = (diagonal S * Wᵀ) * (W * diagonal S) * W := by
          rw [Matrix.mul_assoc (diagonal S) Wᵀ, ← Matrix.mul_assoc Wᵀ, hWW', Matrix.one_mul]
      _ = (W * diagonal S) * (diagonal S * Wᵀ) * W := by rw [hcomm]
      _ = W * (diagonal S * diagonal S) := by
          rw [Matrix.mul_assoc, Matrix.mul_assoc (diagonal S) Wᵀ, hWW', Matrix.mul_one, Matrix.mul_assoc]
  have key : ∀ i j, f (S i) * W j i = W i j * f (S j) := by
    intro i j
    have h1 : S i * W j i = W i j * S j := by
      have := congrFun (congrFun hcomm i) j
      rwa [diagonal_mul, mul_diagonal, transpose_apply] at this
    by_cases h0 : W i j = 0
    · rw [h0, zero_mul] at h1
      rw [h0, zero_mul, (mul_eq_zero.1 h1).resolve_left (hS i), mul_zero]
    · have h2 := congrFun (congrFun hsq i) j
      rw [diagonal_mul_diagonal, diagonal_mul, mul_diagonal, mul_comm (W i j)] at h2
      have h3 : S i = S j := (mul_self_inj (h.nonneg i) (h.nonneg j)).1 (mul_right_cancel₀ h0 h2)
      rw [h3, mul_comm (W i j)] at h1
      rw [mul_left_cancel₀ (hS j) h1, h3, mul_comm]
  have hf : diagonal (fun i => f (S i)) * Wᵀ = W * diagonal (fun i => f (S i)) := by
    ext i j
    rw [diagonal_mul, mul_diagonal, transpose_apply]
    exact key i j
  calc (U * (diagonal (fun i => f (S i)) * Vh))ᵀ = U * (W * diagonal (fun i => f (S i))) * Uᵀ := by
        rw [transpose_mul, transpose_mul, diagonal_transpose, hWdef, ← Matrix.mul_assoc U, ← Matrix.mul_assoc U, h.U2, Matrix.one_mul]
    _ = U * (diagonal (fun i => f (S i)) * Wᵀ) * Uᵀ := by rw [hf]
    _ = U * (diagonal (fun i => f (S i)) * Vh) := by
        rw [hWt, Matrix.mul_assoc U, Matrix.mul_assoc (diagonal _), Matrix.mul_assoc Vh, h.U2, Matrix.mul_one]

/-- C52 for nonsingular symmetric matrices (singular values as small as one likes): the claim holds without restriction.  The symmetric matrices
that are destroyed are singular. -/
theorem C52_symmetric (nrm : Matrix ι ι K → K) (cond thr : K) (A U Vh : Matrix ι ι K) (S : ι → K) (h : SvdDecomp A U Vh S) (h0 : nrm 0 = 0)
    (hA : Aᵀ = A) (hS : ∀ i, S i ≠ 0) (hc : thr < cond) :
    (checkCond nrm cond thr S U Vh A).2 = true ∧ (checkCond nrm cond thr S U Vh A).1ᵀ = (checkCond nrm cond thr S U Vh A).1 ∧
      SvdDecomp (checkCond nrm cond thr S U Vh A).1 U Vh (fun i => if S i < 1 / 10 ^ 7 then 1 / 10 ^ 7 else S i) := by
  have hs := svd_symm h hA hS fun s => if s < 1 / 10 ^ 7 then 1 / 10 ^ 7 else s
  obtain ⟨h1, h2⟩ := (C52_condition_repair_partial nrm cond thr A U Vh S h h0).2 hc fun i j => by
    conv_lhs => rw [← hs]
    rfl
  exact ⟨h1, by rw [h2.eq]; exact hs, h2⟩

/-- `diag(1, -1e-20)`. -/
example : (checkCond (fun M : Matrix (Fin 2) (Fin 2) ℚ => |M 0 0| + |M 0 1| + |M 1 0| + |M 1 1|) (10 ^ 20) (10 ^ 17) ![1, 1 / 10 ^ 20] 1
    !![1, 0; 0, -1] !![1, 0; 0, -1 / 10 ^ 20]).2 = true := by
  refine (C52_symmetric _ _ _ _ _ _ _ ⟨by simp, by simp, ?_, ?_, ?_, ?_⟩ (by simp) ?_ ?_ (by norm_num)).1
  · ext i j; fin_cases i <;> fin_cases j <;> simp [Matrix.mul_apply, Fin.sum_univ_two]
  · ext i j; fin_cases i <;> fin_cases j <;> simp [Matrix.mul_apply, Fin.sum_univ_two]
  · intro i; fin_cases i <;> norm_num
  · ext i j; fin_cases i <;> fin_cases j <;> simp [Matrix.mul_apply, Fin.sum_univ_two, diagonal] <;> norm_num
  · ext i j; fin_cases i <;> fin_cases j <;> simp
  · intro i; fin_cases i <;> norm_num

/-- Negation of C52 in general: with the exact singular value decomposition
`0 = I · 0 · R` of the zero matrix (`R` a rotation by 90 degrees) the repaired matrix
`1e-7 R` is symmetrised to the zero matrix. -/
theorem C52_symmetrisation_can_vanish :
    let R : Matrix (Fin 2) (Fin 2) ℚ := !![0, -1; 1, 0]
    let nrm : Matrix (Fin 2) (Fin 2) ℚ → ℚ := fun M => |M 0 0| + |M 0 1| + |M 1 0| + |M 1 1|
    SvdDecomp 0 1 R (fun _ => 0) ∧
    ∀ i j, (checkCond nrm (10 ^ 20) (10 ^ 17) (fun _ => 0) 1 R 0).1 i j = 0 := by
  refine ⟨⟨by simp, by simp, ?_, ?_, by simp, by simp⟩,
    fun i j => by fin_cases i <;> fin_cases j <;> decide +kernel⟩
  · ext i j; fin_cases i <;> fin_cases j <;> simp [Matrix.mul_apply, Fin.sum_univ_two]
  · ext i j; fin_cases i <;> fin_cases j <;> simp [Matrix.mul_apply, Fin.sum_univ_two]

/-- Instance of the partial theorem: `diag(5, 0)`. -/
example : SvdDecomp (!![5, 0; 0, 0] : Matrix (Fin 2) (Fin 2) ℚ) 1 1 ![5, 0] := by
  refine ⟨by simp, by simp, by simp, by simp, ?_, ?_⟩
  · intro i; fin_cases i <;> simp
  · ext i j
    fin_cases i <;> fin_cases j <;> simp

#print axioms C33_convexify
#print axioms C33_real
#print axioms C52_symmetric
#print axioms C52_condition_repair_partial
#print axioms C52_symmetrisation_can_vanish

end Sqpdfo
