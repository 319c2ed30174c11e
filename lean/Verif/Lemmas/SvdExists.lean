import Verif.Props.C36_C37_Interp
import Mathlib.Analysis.Matrix.Spectrum
import Mathlib.Data.Fin.Tuple.Sort
import Mathlib.Analysis.Matrix.PosDef
import Mathlib.Algebra.Order.Star.Real

/-! # Singular value decompositions -/

namespace Sqpdfo
open Matrix
variable {r c : ℕ}

/-- A reduced singular value decomposition `Z = U diag(s) V` with singular values in descending order
(what `numpy.linalg.svd(Z, full_matrices=0)` returns for a matrix that has at least as many rows as columns). -/
structure Spec.IsSvd3 (Z U : Matrix (Fin r) (Fin c) ℝ) (s : Fin c → ℝ) (V : Matrix (Fin c) (Fin c) ℝ) : Prop where
  left : Uᵀ * U = 1
  right : V * Vᵀ = 1
  eq : U * (diagonal s * V) = Z
  nonneg : ∀ i, 0 ≤ s i
  sorted : ∀ i j, i ≤ j → s j ≤ s i

open Spec

/-- Orthogonal diagonalisation of `Zᵀ Z` with descending eigenvalues. -/
theorem exists_gram (Z : Matrix (Fin r) (Fin c) ℝ) : ∃ (V : Matrix (Fin c) (Fin c) ℝ) (e : Fin c → ℝ), V * Vᵀ = 1 ∧
    (Z * Vᵀ)ᵀ * (Z * Vᵀ) = diagonal e ∧ ∀ i j, i ≤ j → e j ≤ e i := by
  have hG : (Zᵀ * Z).IsHermitian := by
    have := Matrix.isHermitian_conjTranspose_mul_self Z
    rwa [conjTranspose_eq_transpose_of_trivial] at this
  set W : Matrix (Fin c) (Fin c) ℝ := (hG.eigenvectorUnitary : Matrix (Fin c) (Fin c) ℝ) with hW
  have hWW : Wᵀ * W = 1 := by
    have := (Matrix.mem_unitaryGroup_iff').1 hG.eigenvectorUnitary.2
    rwa [star_eq_conjTranspose, conjTranspose_eq_transpose_of_trivial] at this
  have hGW : Zᵀ * Z * W = W * diagonal hG.eigenvalues := by
    ext i j
    have := congrFun (hG.mulVec_eigenvectorBasis j) i
    rw [mul_diagonal]
    have h2 : (Zᵀ * Z * W) i j = ((Zᵀ * Z) *ᵥ ⇑(hG.eigenvectorBasis j)) i := rfl
    rw [h2, this, Pi.smul_apply, smul_eq_mul, mul_comm]
    rfl
  set σ := Tuple.sort fun i => - hG.eigenvalues i with hσ
  refine ⟨Wᵀ.submatrix σ id, fun i => hG.eigenvalues (σ i), ?_, ?_, ?_⟩
  · rw [transpose_submatrix, transpose_transpose]
    have : Wᵀ.submatrix σ id * W.submatrix id σ = (Wᵀ * W).submatrix σ σ := rfl
    rw [this, hWW]
    exact submatrix_one_equiv σ
  · have h1 : Z * (Wᵀ.submatrix σ id)ᵀ = (Z * W).submatrix id σ := rfl
    have h2 : ((Z * W).submatrix id σ)ᵀ * (Z * W).submatrix id σ = ((Z * W)ᵀ * (Z * W)).submatrix σ σ := rfl
    rw [h1, h2, transpose_mul, Matrix.mul_assoc, ← Matrix.mul_assoc Zᵀ, hGW, ← Matrix.mul_assoc, hWW, Matrix.one_mul]
    exact submatrix_diagonal_equiv _ σ
  · intro i j hij
    have := Tuple.monotone_sort (fun i => - hG.eigenvalues i) hij
    simpa using this

theorem exists_svd (Z : Matrix (Fin r) (Fin c) ℝ) (hrc : c ≤ r) : ∃ U s V, IsSvd3 Z U s V := by
  obtain ⟨V, e, hV, he, hs⟩ := exists_gram Z
  set A := Z * Vᵀ with hA
  have hdot : ∀ i j, (fun k => A k i) ⬝ᵥ (fun k => A k j) = if i = j then e i else 0 := by
    intro i j
    have := congrFun (congrFun he i) j
    rw [diagonal_apply] at this
    exact this
  have he0 : ∀ i, 0 ≤ e i := by
    intro i
    have := hdot i i
    rw [if_pos rfl] at this
    rw [← this]
    exact Finset.sum_nonneg fun k _ => mul_self_nonneg _
  set s : Fin c → ℝ := fun i => Real.sqrt (e i) with hsd
  have hss : ∀ i, s i * s i = e i := fun i => Real.mul_self_sqrt (he0 i)
  -- the columns that belong to positive singular values, normalised
  let v : Fin r → EuclideanSpace ℝ (Fin r) := fun k =>
    if h : k.1 < c then WithLp.toLp 2 fun l => (s ⟨k, h⟩)⁻¹ * A l ⟨k, h⟩ else 0
  let S : Set (Fin r) := {k | ∃ h : k.1 < c, s ⟨k, h⟩ ≠ 0}
  have hon : Orthonormal ℝ (S.domRestrict v) := by
    rw [orthonormal_iff_ite]
    rintro ⟨k, hk, hk0⟩ ⟨l, hl, hl0⟩
    have h1 : inner ℝ (v k) (v l) = if k = l then (1 : ℝ) else 0 := by
      simp only [v, dif_pos hk, dif_pos hl]
      rw [EuclideanSpace.inner_eq_star_dotProduct]
      simp only [star_trivial]
      have h2 : (fun i => (s ⟨l, hl⟩)⁻¹ * A i ⟨l, hl⟩) ⬝ᵥ (fun i => (s ⟨k, hk⟩)⁻¹ * A i ⟨k, hk⟩) =
          (s ⟨l, hl⟩)⁻¹ * (s ⟨k, hk⟩)⁻¹ * ((fun i => A i ⟨l, hl⟩) ⬝ᵥ (fun i => A i ⟨k, hk⟩)) := by
        simp only [dotProduct, Finset.mul_sum]
        exact Finset.sum_congr rfl fun i _ => by ring
      rw [h2, hdot]
      by_cases hkl : k = l
      · subst hkl
        rw [if_pos rfl, if_pos rfl, ← hss]
        field_simp
      · rw [if_neg hkl, if_neg, mul_zero]
        intro h
        exact hkl (Fin.ext (Fin.mk.inj h).symm)
    have h3 : ((⟨k, hk, hk0⟩ : S) = ⟨l, hl, hl0⟩) ↔ k = l := Subtype.mk_eq_mk
    simp only [Set.domRestrict_apply, h1, h3]
  obtain ⟨b, hb⟩ := hon.exists_orthonormalBasis_extension_of_card_eq (by simp)
  refine ⟨Matrix.of fun i j => b (Fin.castLE hrc j) i, s, V, ⟨?_, hV, ?_, fun i => Real.sqrt_nonneg _, fun i j hij => Real.sqrt_le_sqrt (hs i j hij)⟩⟩
  · ext i j
    have h1 := (orthonormal_iff_ite.1 b.orthonormal) (Fin.castLE hrc i) (Fin.castLE hrc j)
    rw [EuclideanSpace.inner_eq_star_dotProduct] at h1
    simp only [star_trivial] at h1
    rw [dotProduct_comm] at h1
    rw [one_apply]
    have h2 : (Fin.castLE hrc i = Fin.castLE hrc j) ↔ i = j := by
      simp [Fin.ext_iff]
    simp only [h2] at h1
    exact h1
  · have hcol : (Matrix.of fun i j => b (Fin.castLE hrc j) i) * diagonal s = A := by
      ext i j
      rw [mul_diagonal, Matrix.of_apply]
      by_cases h0 : s j = 0
      · rw [h0, mul_zero]
        have hz := hdot j j
        rw [if_pos rfl, ← hss, h0, mul_zero] at hz
        have := congrFun (dotProduct_self_eq_zero.1 hz) i
        exact this.symm
      · have hm : Fin.castLE hrc j ∈ S := ⟨j.2, h0⟩
        have hv : b (Fin.castLE hrc j) = WithLp.toLp 2 fun l => (s j)⁻¹ * A l j := by
          rw [hb _ hm]
          exact dif_pos j.2
        rw [hv]
        show (s j)⁻¹ * A i j * s j = A i j
        field_simp
    have hVV : Vᵀ * V = 1 := mul_eq_one_comm.1 hV
    rw [← Matrix.mul_assoc, hcol, hA, Matrix.mul_assoc, hVV, Matrix.mul_one]

end Sqpdfo
