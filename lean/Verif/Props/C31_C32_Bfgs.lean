import Verif.Model.Bfgs
import Verif.Spec.Matrix
import Mathlib.Tactic.Linarith
import Mathlib.Tactic.Ring
import Mathlib.Tactic.FieldSimp
import Mathlib.Tactic.NormNum
import Mathlib.Algebra.Order.BigOperators.Ring.Finset
import Mathlib.LinearAlgebra.Matrix.Notation

/-! # C31, C32: the BFGS update -/

set_option linter.unusedSectionVars false

namespace Sqpdfo
open Spec Matrix
variable {K : Type} [Field K] [LinearOrder K] [IsStrictOrderedRing K] {n : ℕ}

theorem dot_self_pos {ι : Type} [Fintype ι] {v : ι → K} (hv : v ≠ 0) : 0 < v ⬝ᵥ v := by
  obtain ⟨i, hi⟩ := Function.ne_iff.1 hv
  refine lt_of_lt_of_le (mul_self_pos.2 hi) ?_
  exact Finset.single_le_sum (f := fun j => v j * v j) (fun j _ => mul_self_nonneg _)
    (Finset.mem_univ i)

theorem symm_dot {H : Matrix (Fin n) (Fin n) K} (hH : ∀ i j, H i j = H j i) (u v : Fin n → K) :
    u ⬝ᵥ H *ᵥ v = v ⬝ᵥ H *ᵥ u := by
  have ht : Hᵀ = H := by ext i j; exact hH j i
  calc u ⬝ᵥ H *ᵥ v = (u ᵥ* H) ⬝ᵥ v := dotProduct_mulVec _ _ _
    _ = (Hᵀ *ᵥ u) ⬝ᵥ v := by rw [mulVec_transpose]
    _ = v ⬝ᵥ H *ᵥ u := by rw [ht, dotProduct_comm]

/-- The rank-two update of a symmetric positive definite matrix. -/
theorem rankTwo_PD {H : Matrix (Fin n) (Fin n) K} (hH : SymPD H) {y s : Fin n → K} (hs : s ≠ 0)
    (hys : 0 < y ⬝ᵥ s) :
    SymPD (H - (1 / (s ⬝ᵥ H *ᵥ s)) • vecMulVec (H *ᵥ s) (H *ᵥ s) + (1 / (y ⬝ᵥ s)) • vecMulVec y y) ∧
    (H - (1 / (s ⬝ᵥ H *ᵥ s)) • vecMulVec (H *ᵥ s) (H *ᵥ s) + (1 / (y ⬝ᵥ s)) • vecMulVec y y) *ᵥ s
      = y := by
  obtain ⟨hsym, hpd⟩ := hH
  have hsHs := hpd s hs
  set a := s ⬝ᵥ H *ᵥ s with ha
  have hmv : ∀ (w v : Fin n → K), vecMulVec w w *ᵥ v = (w ⬝ᵥ v) • w := by
    intro w v
    ext i
    simp only [mulVec, dotProduct, vecMulVec_apply, Pi.smul_apply, smul_eq_mul, Finset.sum_mul]
    apply Finset.sum_congr rfl
    intro j _; ring
  have hval : ∀ v : Fin n → K,
      v ⬝ᵥ (H - (1 / a) • vecMulVec (H *ᵥ s) (H *ᵥ s) + (1 / (y ⬝ᵥ s)) • vecMulVec y y) *ᵥ v =
      v ⬝ᵥ H *ᵥ v - (v ⬝ᵥ H *ᵥ s) ^ 2 / a + (v ⬝ᵥ y) ^ 2 / (y ⬝ᵥ s) := by
    intro v
    rw [add_mulVec, sub_mulVec, smul_mulVec, smul_mulVec, hmv, hmv, dotProduct_add,
      dotProduct_sub, dotProduct_smul, dotProduct_smul, dotProduct_smul, dotProduct_smul,
      dotProduct_comm (H *ᵥ s) v, dotProduct_comm y v]
    simp only [smul_eq_mul]
    field_simp
  refine ⟨⟨?_, ?_⟩, ?_⟩
  · intro i j
    simp only [add_apply, sub_apply, smul_apply, vecMulVec_apply, smul_eq_mul]
    rw [hsym i j]
    ring
  · intro v hv
    rw [hval]
    set t := (v ⬝ᵥ H *ᵥ s) / a with ht
    have hw : (v - t • s) ⬝ᵥ H *ᵥ (v - t • s) = v ⬝ᵥ H *ᵥ v - (v ⬝ᵥ H *ᵥ s) ^ 2 / a := by
      rw [mulVec_sub, mulVec_smul, sub_dotProduct, dotProduct_sub, dotProduct_sub,
        dotProduct_smul, smul_dotProduct, smul_dotProduct, dotProduct_smul,
        symm_dot hsym s v, ← ha]
      simp only [smul_eq_mul, ht]
      field_simp
      ring
    rw [← hw]
    have h2 : 0 ≤ (v ⬝ᵥ y) ^ 2 / (y ⬝ᵥ s) := div_nonneg (sq_nonneg _) hys.le
    by_cases hw0 : v - t • s = 0
    · have hvs : v = t • s := sub_eq_zero.1 hw0
      have ht0 : t ≠ 0 := by
        rintro h; rw [h, zero_smul] at hvs; exact hv hvs
      rw [hw0]
      simp only [mulVec_zero, dotProduct_zero, zero_add]
      have : v ⬝ᵥ y = t * (y ⬝ᵥ s) := by
        rw [hvs, smul_dotProduct, dotProduct_comm s y]; rfl
      rw [this]
      apply div_pos _ hys
      exact pow_pos_of_ne (mul_ne_zero ht0 hys.ne')
    · have := hpd _ hw0
      linarith
  · rw [add_mulVec, sub_mulVec, smul_mulVec, smul_mulVec, hmv, hmv]
    have h1 : (H *ᵥ s) ⬝ᵥ s = a := by rw [dotProduct_comm]
    rw [h1, smul_smul, smul_smul, one_div_mul_cancel hsHs.ne', one_div_mul_cancel hys.ne']
    simp
where
  pow_pos_of_ne {x : K} (h : x ≠ 0) : 0 < x ^ 2 := by
    rw [sq]; exact mul_self_pos.2 h

theorem smul_one_PD {c : K} (hc : 0 < c) : SymPD (c • (1 : Matrix (Fin n) (Fin n) K)) := by
  refine ⟨?_, ?_⟩
  · intro i j
    simp only [smul_apply, one_apply, eq_comm]
  · intro v hv
    rw [smul_mulVec, one_mulVec, dotProduct_smul]
    exact mul_pos hc (dot_self_pos hv)

/-- The assembly step, for a positive definite matrix and `yᵀs > 0`. -/
theorem assemble_PD {H : Matrix (Fin n) (Fin n) K} (hH : SymPD H) {y s : Fin n → K}
    (hs : s ≠ 0) (hys : 0 < y ⬝ᵥ s) (first : Bool) :
    SymPD (bfgsAssemble H y s first) ∧ bfgsAssemble H y s first *ᵥ s = y := by
  cases first with
  | false => exact rankTwo_PD hH hs hys
  | true =>
    have hy : y ≠ 0 := by rintro rfl; simp at hys
    have hp : 0 < (y ⬝ᵥ y) / (y ⬝ᵥ s) := div_pos (dot_self_pos hy) hys
    have := rankTwo_PD (smul_one_PD (n := n) hp) hs hys
    simp only [smul_mulVec, one_mulVec] at this
    simpa [bfgsAssemble] using this

/-- The damped `y` has exactly one fifth of the curvature of `H`. -/
theorem damped_curv {H : Matrix (Fin n) (Fin n) K} {y s : Fin n → K}
    (hpos : 0 < s ⬝ᵥ H *ᵥ s) (hlt : y ⬝ᵥ s < 1 / 5 * (s ⬝ᵥ H *ᵥ s)) :
    (((1 - 1 / 5) * (s ⬝ᵥ H *ᵥ s) / ((s ⬝ᵥ H *ᵥ s) - y ⬝ᵥ s)) • y +
      (1 - (1 - 1 / 5) * (s ⬝ᵥ H *ᵥ s) / ((s ⬝ᵥ H *ᵥ s) - y ⬝ᵥ s)) • H *ᵥ s) ⬝ᵥ s =
      1 / 5 * (s ⬝ᵥ H *ᵥ s) := by
  rw [add_dotProduct, smul_dotProduct, smul_dotProduct, dotProduct_comm (H *ᵥ s) s]
  have : (s ⬝ᵥ H *ᵥ s) - y ⬝ᵥ s ≠ 0 := by
    have : (1 : K) / 5 * (s ⬝ᵥ H *ᵥ s) < s ⬝ᵥ H *ᵥ s := by linarith
    linarith
  simp only [smul_eq_mul]
  field_simp
  ring

/-- C31: an update that reports success maps symmetric positive definite matrices to
symmetric positive definite matrices; a failing update returns the old matrix. -/
theorem C31_bfgs_preserves_SPD (H : Matrix (Fin n) (Fin n) K) (y s : Fin n → K) (first : Bool)
    (hH : SymPD H) :
    SymPD (bfgsUpdate H y s first).H ∧
      ((bfgsUpdate H y s first).flag ≠ 0 → (bfgsUpdate H y s first).H = H) := by
  simp only [bfgsUpdate]
  split_ifs with h1 h2 h3 h4 h5
  · exact ⟨hH, fun _ => rfl⟩
  · exact ⟨hH, fun _ => rfl⟩
  · exact ⟨hH, fun _ => rfl⟩
  · exact ⟨(assemble_PD hH h1 (not_le.1 h4) first).1, fun h => absurd rfl h⟩
  · exact ⟨hH, fun _ => rfl⟩
  · exact ⟨(assemble_PD hH h1 (not_le.1 h5) first).1, fun h => absurd rfl h⟩

/-- C32: the update of a symmetric positive definite matrix.  It fails exactly for the zero
step.  Otherwise the new matrix maps the step to `pc*y + (1-pc)*H*s`, where `pc = 1` exactly
if `yᵀs ≥ 0.2 sᵀHs` and `0 < pc < 1` otherwise, and the curvature along the step is at least
`0.2 sᵀHs > 0` (exactly that much in the damped case). -/
theorem C32_secant_powell (H : Matrix (Fin n) (Fin n) K) (y s : Fin n → K) (first : Bool)
    (hH : SymPD H) :
    ((bfgsUpdate H y s first).flag = 30 ↔ s = 0) ∧
    (s ≠ 0 →
      let r := bfgsUpdate H y s first
      r.flag = 0 ∧ r.H *ᵥ s = r.pc • y + (1 - r.pc) • (H *ᵥ s) ∧
      (r.pc = 1 ↔ 1 / 5 * (s ⬝ᵥ H *ᵥ s) ≤ y ⬝ᵥ s) ∧ 0 < r.pc ∧ r.pc ≤ 1 ∧
      0 < s ⬝ᵥ H *ᵥ s ∧ 1 / 5 * (s ⬝ᵥ H *ᵥ s) ≤ s ⬝ᵥ r.H *ᵥ s ∧
      (r.pc ≠ 1 → s ⬝ᵥ r.H *ᵥ s = 1 / 5 * (s ⬝ᵥ H *ᵥ s)) ∧
      (r.pc = 1 → s ⬝ᵥ r.H *ᵥ s = y ⬝ᵥ s)) := by
  have main : s ≠ 0 →
      let r := bfgsUpdate H y s first
      r.flag = 0 ∧ r.H *ᵥ s = r.pc • y + (1 - r.pc) • (H *ᵥ s) ∧
      (r.pc = 1 ↔ 1 / 5 * (s ⬝ᵥ H *ᵥ s) ≤ y ⬝ᵥ s) ∧ 0 < r.pc ∧ r.pc ≤ 1 ∧
      0 < s ⬝ᵥ H *ᵥ s ∧ 1 / 5 * (s ⬝ᵥ H *ᵥ s) ≤ s ⬝ᵥ r.H *ᵥ s ∧
      (r.pc ≠ 1 → s ⬝ᵥ r.H *ᵥ s = 1 / 5 * (s ⬝ᵥ H *ᵥ s)) ∧
      (r.pc = 1 → s ⬝ᵥ r.H *ᵥ s = y ⬝ᵥ s) := by
    intro hs
    have hpos := hH.2 s hs
    have hn : ¬ (s ⬝ᵥ H *ᵥ s ≤ 0) := not_le.2 hpos
    by_cases hd : y ⬝ᵥ s < 1 / 5 * (s ⬝ᵥ H *ᵥ s)
    · have hc := damped_curv hpos hd
      set pc := (1 - 1 / 5) * (s ⬝ᵥ H *ᵥ s) / ((s ⬝ᵥ H *ᵥ s) - y ⬝ᵥ s) with hpc
      have hnp : ¬ ((pc • y + (1 - pc) • H *ᵥ s) ⬝ᵥ s ≤ 0) := by
        rw [hc]; exact not_le.2 (by linarith)
      have hr : bfgsUpdate H y s first =
          ⟨bfgsAssemble H (pc • y + (1 - pc) • H *ᵥ s) s first, pc, 0⟩ := by
        simp only [bfgsUpdate, hs, hn, hd, if_true, if_false, ← hpc, hnp]
      have hden : 0 < (s ⬝ᵥ H *ᵥ s) - y ⬝ᵥ s := by linarith
      have hpc0 : 0 < pc := by
        rw [hpc]; apply div_pos _ hden
        have : (0 : K) < 1 - 1 / 5 := by norm_num
        exact mul_pos this hpos
      have hpc1 : pc < 1 := by
        rw [hpc, div_lt_one hden]; linarith
      obtain ⟨-, hsec⟩ := assemble_PD hH hs (not_le.1 hnp) first
      have hcurv : s ⬝ᵥ bfgsAssemble H (pc • y + (1 - pc) • H *ᵥ s) s first *ᵥ s =
          1 / 5 * (s ⬝ᵥ H *ᵥ s) := by
        rw [hsec, dotProduct_comm, hc]
      rw [hr]
      refine ⟨rfl, hsec, ⟨fun h => absurd h hpc1.ne, fun h => absurd hd (not_lt.2 h)⟩, hpc0,
        hpc1.le, hpos, hcurv.ge, fun _ => hcurv, fun h => absurd h hpc1.ne⟩
    · have hd' := not_lt.1 hd
      have hys : 0 < y ⬝ᵥ s := by linarith
      have hr : bfgsUpdate H y s first = ⟨bfgsAssemble H y s first, 1, 0⟩ := by
        simp only [bfgsUpdate, hs, hn, hd, not_le.2 hys, if_false]
      obtain ⟨-, hsec⟩ := assemble_PD hH hs hys first
      have hcurv : s ⬝ᵥ bfgsAssemble H y s first *ᵥ s = y ⬝ᵥ s := by
        rw [hsec, dotProduct_comm]
      rw [hr]
      refine ⟨rfl, by simp [hsec], ⟨fun _ => hd', fun _ => rfl⟩, one_pos, le_refl _, hpos, ?_,
        fun h => absurd rfl h, fun _ => hcurv⟩
      simp only; rw [hcurv]; exact hd'
  refine ⟨⟨?_, ?_⟩, main⟩
  · intro h
    by_contra hs
    have := (main hs).1
    rw [this] at h; cases h
  · intro h; simp [bfgsUpdate, h]

/-- Instance: `H = diag(1,2)`, a damped update. -/
example : (bfgsUpdate (!![1, 0; 0, 2] : Matrix (Fin 2) (Fin 2) ℚ) ![-1, 0] ![1, 0] false).pc
    = 2 / 5 := by decide +kernel

example : SymPD (!![1, 0; 0, 2] : Matrix (Fin 2) (Fin 2) ℚ) := by
  refine ⟨fun i j => by fin_cases i <;> fin_cases j <;> rfl, ?_⟩
  intro v hv
  have : v ⬝ᵥ !![1, 0; 0, 2] *ᵥ v = v 0 * v 0 + 2 * (v 1 * v 1) := by
    simp [dotProduct, mulVec, Fin.sum_univ_two]; ring
  rw [this]
  by_contra h
  have h0 : v 0 * v 0 = 0 := by nlinarith [mul_self_nonneg (v 0), mul_self_nonneg (v 1)]
  have h1 : v 1 * v 1 = 0 := by nlinarith [mul_self_nonneg (v 0), mul_self_nonneg (v 1)]
  apply hv
  ext i
  fin_cases i
  · simpa using h0
  · simpa using h1

#print axioms C31_bfgs_preserves_SPD
#print axioms C32_secant_powell

end Sqpdfo
