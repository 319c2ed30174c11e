import Verif.Props.C36_C37_Interp
import Mathlib.Analysis.Matrix.LDL
import Mathlib.LinearAlgebra.Matrix.Block
import Mathlib.Algebra.Order.Star.Real

/-! # Existence of the reduced QR factorisation

A matrix with independent columns has a factorisation `Z = Q R` with `Qᵀ Q = 1` and an upper triangular `R`. -/

namespace Sqpdfo
open Matrix
variable {r c : ℕ}

theorem poised_posDef {Z : Matrix (Fin r) (Fin c) ℝ} (h : Poised Z) : (Zᵀ * Z).PosDef := by
  have hi : Function.Injective Z.mulVec := by
    intro v w hvw
    exact sub_eq_zero.1 (h _ (by rw [mulVec_sub]; exact sub_eq_zero.2 hvw))
  have := Matrix.PosDef.conjTranspose_mul_self Z hi
  rwa [conjTranspose_eq_transpose_of_trivial] at this

theorem exists_qr_tri (Z : Matrix (Fin r) (Fin c) ℝ) (h : Poised Z) :
    ∃ (Q : Matrix (Fin r) (Fin c) ℝ) (R : Matrix (Fin c) (Fin c) ℝ), IsQR Q R Z ∧ ∀ i j, j < i → R i j = 0 := by
  have hS := poised_posDef h
  set G := LDL.lowerInv hS with hG
  have : Invertible G := LDL.invertibleLowerInv hS
  have : Invertible Gᵀ := invertibleTranspose G
  have hD : diagonal (LDL.diagEntries hS) = G * (Zᵀ * Z) * Gᵀ := by
    have := LDL.diag_eq_lowerInv_conj hS
    rwa [LDL.diag, conjTranspose_eq_transpose_of_trivial] at this
  have hpos : ∀ i, 0 < LDL.diagEntries hS i := by
    have hp : (diagonal (LDL.diagEntries hS)).PosDef := by
      rw [hD]
      have hinj : Function.Injective Gᵀ.mulVec :=
        (Matrix.mulVec_injective_iff_isUnit).2 (isUnit_of_invertible _)
      have := hS.conjTranspose_mul_mul_same hinj
      rwa [conjTranspose_eq_transpose_of_trivial, transpose_transpose] at this
    exact fun i => (Matrix.posDef_diagonal_iff.1 hp) i
  set s : Fin c → ℝ := fun i => Real.sqrt (LDL.diagEntries hS i) with hs
  have hs0 : ∀ i, s i ≠ 0 := fun i => (Real.sqrt_pos.2 (hpos i)).ne'
  have hss : ∀ i, s i * s i = LDL.diagEntries hS i := fun i => Real.mul_self_sqrt (hpos i).le
  have htri : BlockTriangular Gᵀ (id : Fin c → Fin c) := fun i j hij => LDL.lowerInv_triangular hS hij
  have hinv := blockTriangular_inv_of_blockTriangular htri
  refine ⟨Z * (Gᵀ * diagonal fun i => (s i)⁻¹), diagonal s * Gᵀ⁻¹, ⟨?_, ?_⟩, ?_⟩
  · rw [transpose_mul, transpose_mul, diagonal_transpose, transpose_transpose, Matrix.mul_assoc, ← Matrix.mul_assoc Zᵀ,
      Matrix.mul_assoc, ← Matrix.mul_assoc _ Gᵀ, ← Matrix.mul_assoc G, ← Matrix.mul_assoc G (Zᵀ * Z), ← hD, diagonal_mul_diagonal, diagonal_mul_diagonal,
      ← diagonal_one]
    congr 1
    funext i
    rw [← hss i]
    have := hs0 i
    field_simp
  · have : (diagonal fun i => (s i)⁻¹) * diagonal s = (1 : Matrix (Fin c) (Fin c) ℝ) := by
      rw [diagonal_mul_diagonal, ← diagonal_one]
      congr 1
      funext i
      exact inv_mul_cancel₀ (hs0 i)
    rw [Matrix.mul_assoc, Matrix.mul_assoc Gᵀ, ← Matrix.mul_assoc _ (diagonal s), this, Matrix.one_mul,
      mul_inv_of_invertible, Matrix.mul_one]
  · intro i j hij
    rw [diagonal_mul, hinv hij, mul_zero]

#print axioms exists_qr_tri

end Sqpdfo
