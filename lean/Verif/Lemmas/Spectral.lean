import Mathlib.Analysis.Matrix.Spectrum
import Mathlib.Analysis.Real.Sqrt

/-! # Existence of the decompositions the kernels compute, over the reals -/

namespace Sqpdfo
open Matrix
variable {ι : Type} [Fintype ι] [DecidableEq ι]

/-- Spectral theorem in the form used here. -/
theorem exists_spectral (H : Matrix ι ι ℝ) (hH : ∀ i j, H i j = H j i) :
    ∃ (V : Matrix ι ι ℝ) (D : ι → ℝ), Vᵀ * V = 1 ∧ V * Vᵀ = 1 ∧ H = V * diagonal D * Vᵀ := by
  have hA : H.IsHermitian := by
    ext i j
    simp [hH i j]
  have hU := hA.eigenvectorUnitary.2
  rw [mem_unitaryGroup_iff'] at hU
  have hU' := hA.eigenvectorUnitary.2
  rw [mem_unitaryGroup_iff] at hU'
  have e : star (hA.eigenvectorUnitary : Matrix ι ι ℝ) = (hA.eigenvectorUnitary : Matrix ι ι ℝ)ᵀ := by
    rw [star_eq_conjTranspose, conjTranspose_eq_transpose_of_trivial]
  rw [e] at hU hU'
  refine ⟨hA.eigenvectorUnitary, hA.eigenvalues, hU, hU', ?_⟩
  have h := hA.spectral_theorem
  rw [Unitary.conjStarAlgAut_apply] at h
  rw [e] at h
  exact h

/-- A factor `R` with `R'R = M` for a symmetric matrix with positive eigenvalues. -/
theorem exists_factor (M V : Matrix ι ι ℝ) (D : ι → ℝ) (h1 : Vᵀ * V = 1) (h2 : V * Vᵀ = 1)
    (hM : M = V * diagonal D * Vᵀ) (hD : ∀ i, 0 < D i) :
    ∃ R : Matrix ι ι ℝ, Rᵀ * R = M ∧ IsUnit R := by
  refine ⟨diagonal (fun i => √(D i)) * Vᵀ, ?_, ?_⟩
  · rw [transpose_mul, transpose_transpose, diagonal_transpose, Matrix.mul_assoc,
      ← Matrix.mul_assoc (diagonal _), diagonal_mul_diagonal, hM, Matrix.mul_assoc]
    congr 3
    funext i
    exact Real.mul_self_sqrt (hD i).le
  · refine ⟨⟨diagonal (fun i => √(D i)) * Vᵀ, V * diagonal (fun i => (√(D i))⁻¹), ?_, ?_⟩, rfl⟩
    · rw [Matrix.mul_assoc, ← Matrix.mul_assoc Vᵀ, h1, Matrix.one_mul, diagonal_mul_diagonal,
        ← diagonal_one]
      congr 1
      funext i
      exact mul_inv_cancel₀ (Real.sqrt_pos.2 (hD i)).ne'
    · rw [Matrix.mul_assoc, ← Matrix.mul_assoc (diagonal _), diagonal_mul_diagonal]
      have : (fun i => (√(D i))⁻¹ * √(D i)) = fun _ => (1 : ℝ) := by
        funext i
        exact inv_mul_cancel₀ (Real.sqrt_pos.2 (hD i)).ne'
      rw [this, diagonal_one, Matrix.one_mul, h2]

/-- Columns of an orthogonal matrix are not zero. -/
theorem col_ne_zero {V : Matrix ι ι ℝ} (h : Vᵀ * V = 1) (j : ι) : (fun i => V i j) ≠ 0 := by
  intro h0
  have := congrFun (congrFun h j) j
  rw [Matrix.mul_apply, Matrix.one_apply_eq] at this
  have h1 : ∀ i, V i j = 0 := fun i => congrFun h0 i
  simp [h1] at this

/-- Symmetric positive definite matrices have a factor. -/
theorem exists_chol (M : Matrix ι ι ℝ) (hM : ∀ i j, M i j = M j i)
    (hp : ∀ v : ι → ℝ, v ≠ 0 → 0 < v ⬝ᵥ M *ᵥ v) : ∃ R : Matrix ι ι ℝ, Rᵀ * R = M ∧ IsUnit R := by
  obtain ⟨V, D, e1, e2, e3⟩ := exists_spectral M hM
  have hD : ∀ i, 0 < D i := by
    intro i
    have hne := col_ne_zero e1 i
    have hp := hp _ hne
    have hcol : Vᵀ *ᵥ (fun j => V j i) = Pi.single i 1 := by
      funext j
      have := congrFun (congrFun e1 j) i
      rw [Matrix.mul_apply] at this
      change ∑ l, Vᵀ j l * V l i = _
      rw [this, Matrix.one_apply, Pi.single_apply]
    rw [e3, ← mulVec_mulVec, ← mulVec_mulVec, hcol, dotProduct_mulVec, ← mulVec_transpose, hcol] at hp
    simpa using hp
  exact exists_factor M V D e1 e2 e3 hD

end Sqpdfo
