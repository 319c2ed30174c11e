import Verif.Model.Cured
import Verif.Lemmas.SvdExists
import Verif.Props.C75_Kinds

/-! # C103: ill-conditioned interpolation systems -/

set_option linter.unusedSectionVars false

namespace Sqpdfo
open Matrix Finset
variable {n p : ℕ}

/-- What is assumed of `numpy.linalg.svd`. -/
def Spec.GoodSvd (svd : SvdFn) : Prop :=
  ∀ r c (Z : Matrix (Fin r) (Fin c) ℝ), c ≤ r → IsSvd3 Z (svd r c Z).1 (svd r c Z).2.1 (svd r c Z).2.2

open Spec

/-- There is such a function. -/
theorem exists_goodSvd : ∃ svd, GoodSvd svd := by
  classical
  refine ⟨fun r c Z => if h : c ≤ r then
    ((exists_svd Z h).choose, (exists_svd Z h).choose_spec.choose, (exists_svd Z h).choose_spec.choose_spec.choose) else 0, fun r c Z h => ?_⟩
  simp only [dif_pos h]
  exact (exists_svd Z h).choose_spec.choose_spec.choose_spec

/-! ### Matrices with given singular values -/

section
variable {r c : ℕ} {U : Matrix (Fin r) (Fin c) ℝ} {V : Matrix (Fin c) (Fin c) ℝ} {s t : Fin c → ℝ}

theorem orth_dot (hV : V * Vᵀ = 1) (f : Fin c → ℝ) : (V *ᵥ f) ⬝ᵥ (V *ᵥ f) = f ⬝ᵥ f := by
  have : Vᵀ * V = 1 := mul_eq_one_comm.1 hV
  rw [dotProduct_mulVec, vecMul_mulVec, this, vecMul_one]

theorem col_dot (hU : Uᵀ * U = 1) (f : Fin c → ℝ) : (U *ᵥ f) ⬝ᵥ (U *ᵥ f) = f ⬝ᵥ f := by
  rw [dotProduct_mulVec, vecMul_mulVec, hU, vecMul_one]

theorem svd_poised (hU : Uᵀ * U = 1) (hV : V * Vᵀ = 1) (ht : ∀ i, t i ≠ 0) : Poised (U * (diagonal t * V)) := by
  intro v hv
  have h1 : Uᵀ *ᵥ ((U * (diagonal t * V)) *ᵥ v) = diagonal t *ᵥ (V *ᵥ v) := by
    rw [mulVec_mulVec, ← Matrix.mul_assoc, hU, Matrix.one_mul, mulVec_mulVec]
  rw [hv, mulVec_zero] at h1
  have h2 : V *ᵥ v = 0 := by
    funext i
    have := congrFun h1 i
    rw [mulVec_diagonal] at this
    rcases mul_eq_zero.1 this.symm with h | h
    · exact absurd h (ht i)
    · exact h
  have hVV : Vᵀ * V = 1 := mul_eq_one_comm.1 hV
  have : Vᵀ *ᵥ (V *ᵥ v) = v := by rw [mulVec_mulVec, hVV, one_mulVec]
  rw [← this, h2, mulVec_zero]

/-- A system with the matrix `U diag(t) V` is solved, the residual of the system with `U diag(s) V` is taken. -/
theorem tall_residual (hU : Uᵀ * U = 1) (hV : V * Vᵀ = 1) (hs : ∀ i, 0 ≤ s i) (hst : ∀ i, s i ≤ t i) (ht : ∀ i, 0 < t i)
    {d : Fin r → ℝ} {f : Fin c → ℝ} (hr : ∃ u, d = (U * (diagonal t * V)) *ᵥ u) (hd : (U * (diagonal t * V))ᵀ *ᵥ d = f) :
    ((U * (diagonal s * V))ᵀ *ᵥ d - f) ⬝ᵥ ((U * (diagonal s * V))ᵀ *ᵥ d - f) ≤ f ⬝ᵥ f ∧
    ∀ δ, 0 ≤ δ → (∀ i, δ ≤ t i) → δ ^ 2 * (d ⬝ᵥ d) ≤ f ⬝ᵥ f := by
  obtain ⟨u, hu⟩ := hr
  set w := diagonal t *ᵥ (V *ᵥ u) with hw
  have hdw : d = U *ᵥ w := by rw [hu, hw, mulVec_mulVec, mulVec_mulVec, Matrix.mul_assoc]
  have key : ∀ a : Fin c → ℝ, (U * (diagonal a * V))ᵀ *ᵥ d = Vᵀ *ᵥ (diagonal a *ᵥ w) := by
    intro a
    clear_value w
    rw [transpose_mul, transpose_mul, diagonal_transpose, hdw, mulVec_mulVec, Matrix.mul_assoc, hU, Matrix.mul_one, mulVec_mulVec]
  have hVV : V *ᵥ (Vᵀ *ᵥ (diagonal t *ᵥ w)) = diagonal t *ᵥ w := by rw [mulVec_mulVec, hV, one_mulVec]
  have hf : f = Vᵀ *ᵥ (diagonal t *ᵥ w) := by rw [← hd, key]
  have hVt : Vᵀ * Vᵀᵀ = 1 := by rw [transpose_transpose]; exact mul_eq_one_comm.1 hV
  have hff : f ⬝ᵥ f = ∑ i, (t i * w i) ^ 2 := by
    rw [hf, orth_dot hVt]
    exact Finset.sum_congr rfl fun i _ => by rw [mulVec_diagonal, pow_two]
  constructor
  · rw [key, hf, ← mulVec_sub, orth_dot hVt, ← hf, hff]
    refine Finset.sum_le_sum fun i _ => ?_
    rw [Pi.sub_apply, mulVec_diagonal, mulVec_diagonal]
    have h1 : (s i * w i - t i * w i) * (s i * w i - t i * w i) = (t i - s i) ^ 2 * w i ^ 2 := by ring
    have h2 : (t i * w i) ^ 2 = t i ^ 2 * w i ^ 2 := by ring
    rw [h1, h2]
    refine mul_le_mul_of_nonneg_right ?_ (sq_nonneg _)
    exact pow_le_pow_left₀ (by linarith [hst i]) (by linarith [hs i]) 2
  · intro δ h0 hδ
    rw [hdw, col_dot hU, hff, dotProduct, Finset.mul_sum]
    refine Finset.sum_le_sum fun i _ => ?_
    have h2 : (t i * w i) ^ 2 = t i ^ 2 * (w i * w i) := by ring
    rw [h2]
    exact mul_le_mul_of_nonneg_right (pow_le_pow_left₀ h0 (hδ i) 2) (mul_self_nonneg _)

/-- The same for least squares. -/
theorem wide_residual (hU : Uᵀ * U = 1) (hV : V * Vᵀ = 1) (hs : ∀ i, 0 ≤ s i) (hst : ∀ i, s i ≤ t i) (ht : ∀ i, 0 < t i)
    {d : Fin c → ℝ} {f : Fin r → ℝ} (hd : (U * (diagonal t * V))ᵀ *ᵥ ((U * (diagonal t * V)) *ᵥ d - f) = 0) :
    ((U * (diagonal s * V)) *ᵥ d - f) ⬝ᵥ ((U * (diagonal s * V)) *ᵥ d - f) ≤ f ⬝ᵥ f ∧
    ∀ δ, 0 ≤ δ → (∀ i, δ ≤ t i) → δ ^ 2 * (d ⬝ᵥ d) ≤ f ⬝ᵥ f := by
  set w := V *ᵥ d with hw
  have key : ∀ a : Fin c → ℝ, (U * (diagonal a * V)) *ᵥ d = U *ᵥ (diagonal a *ᵥ w) := by
    intro a
    rw [hw, mulVec_mulVec, mulVec_mulVec, Matrix.mul_assoc]
  set g := Uᵀ *ᵥ f with hg
  have hUU : ∀ a : Fin c → ℝ, Uᵀ *ᵥ (U *ᵥ a) = a := fun a => by rw [mulVec_mulVec, hU, one_mulVec]
  have hVinj : ∀ a : Fin c → ℝ, Vᵀ *ᵥ a = 0 → a = 0 := by
    intro a ha
    have : V *ᵥ (Vᵀ *ᵥ a) = a := by rw [mulVec_mulVec, hV, one_mulVec]
    rw [← this, ha, mulVec_zero]
  have hwg : ∀ i, t i * w i = g i := by
    have h1 : Vᵀ *ᵥ (diagonal t *ᵥ (diagonal t *ᵥ w - g)) = 0 := by
      rw [← hd, key, transpose_mul, transpose_mul, diagonal_transpose, ← mulVec_mulVec, ← mulVec_mulVec, mulVec_sub Uᵀ, hUU]
    have h2 := hVinj _ h1
    intro i
    have := congrFun h2 i
    rw [mulVec_diagonal, Pi.sub_apply, mulVec_diagonal] at this
    rcases mul_eq_zero.1 this with h | h
    · exact absurd h (ht i).ne'
    · linarith
  have hgf : g ⬝ᵥ g ≤ f ⬝ᵥ f := by
    have h1 : (f - U *ᵥ g) ⬝ᵥ (f - U *ᵥ g) = f ⬝ᵥ f - g ⬝ᵥ g := by
      have h2 : f ⬝ᵥ (U *ᵥ g) = g ⬝ᵥ g := by rw [dotProduct_mulVec, ← mulVec_transpose, ← hg]
      rw [sub_dotProduct, dotProduct_sub, dotProduct_sub, col_dot hU, dotProduct_comm (U *ᵥ g) f, h2]
      ring
    have h0 : 0 ≤ (f - U *ᵥ g) ⬝ᵥ (f - U *ᵥ g) := Finset.sum_nonneg fun i _ => mul_self_nonneg _
    linarith
  constructor
  · have h1 : ((U * (diagonal s * V)) *ᵥ d - f) ⬝ᵥ ((U * (diagonal s * V)) *ᵥ d - f) =
        f ⬝ᵥ f + ∑ i, (s i * w i * (s i * w i) - 2 * (s i * w i * g i)) := by
      have h2 : (U *ᵥ (diagonal s *ᵥ w)) ⬝ᵥ f = ∑ i, s i * w i * g i := by
        rw [dotProduct_comm, dotProduct_mulVec, ← mulVec_transpose, ← hg, dotProduct_comm]
        exact Finset.sum_congr rfl fun i _ => by rw [mulVec_diagonal]
      have h3 : (U *ᵥ (diagonal s *ᵥ w)) ⬝ᵥ (U *ᵥ (diagonal s *ᵥ w)) = ∑ i, s i * w i * (s i * w i) := by
        rw [col_dot hU]
        exact Finset.sum_congr rfl fun i _ => by rw [mulVec_diagonal]
      rw [key, sub_dotProduct, dotProduct_sub, dotProduct_sub, dotProduct_comm f, h2, h3, Finset.sum_sub_distrib, ← Finset.mul_sum]
      ring
    rw [h1]
    have : ∑ i, (s i * w i * (s i * w i) - 2 * (s i * w i * g i)) ≤ 0 := by
      refine Finset.sum_nonpos fun i _ => ?_
      rw [← hwg i]
      have : s i * w i * (s i * w i) - 2 * (s i * w i * (t i * w i)) = - (s i * (2 * t i - s i) * (w i * w i)) := by ring
      rw [this]
      have := mul_nonneg (mul_nonneg (hs i) (show 0 ≤ 2 * t i - s i by linarith [hs i, hst i])) (mul_self_nonneg (w i))
      linarith
    linarith
  · intro δ h0 hδ
    refine le_trans ?_ hgf
    rw [← orth_dot hV d, ← hw, dotProduct, dotProduct, Finset.mul_sum]
    refine Finset.sum_le_sum fun i _ => ?_
    have h2 : g i * g i = t i ^ 2 * (w i * w i) := by rw [← hwg i]; ring
    rw [h2]
    exact mul_le_mul_of_nonneg_right (pow_le_pow_left₀ h0 (hδ i) 2) (mul_self_nonneg _)

end

/-! ### The matrix that is factorised -/

theorem raised_le (δ : ℝ) {c : ℕ} (s : Fin c → ℝ) (i : Fin c) : s i ≤ raised δ s i ∧ δ ≤ raised δ s i := by
  unfold raised
  split_ifs with h
  · exact ⟨h.le, le_rfl⟩
  · exact ⟨le_rfl, not_lt.1 h⟩

/-- The two cases: the matrix is unchanged and has independent columns, or its small singular values are raised. -/
theorem cured_cases {svd : SvdFn} (hS : GoodSvd svd) (κ δ : ℝ) {r c : ℕ} (hrc : c ≤ r) (Z : Matrix (Fin r) (Fin c) ℝ) :
    (curedMat svd κ δ Z = Z ∧ Poised Z) ∨
    ∃ (U : Matrix (Fin r) (Fin c) ℝ) (V : Matrix (Fin c) (Fin c) ℝ) (s t : Fin c → ℝ), Uᵀ * U = 1 ∧ V * Vᵀ = 1 ∧ (∀ i, 0 ≤ s i) ∧
      (∀ i, s i ≤ t i) ∧ (∀ i, δ ≤ t i) ∧ U * (diagonal s * V) = Z ∧ curedMat svd κ δ Z = U * (diagonal t * V) := by
  have h := hS r c Z hrc
  unfold curedMat
  by_cases hill : illCond κ (svd r c Z).2.1
  · rw [if_pos hill]
    exact Or.inr ⟨_, _, _, _, h.left, h.right, h.nonneg, fun i => (raised_le δ _ i).1, fun i => (raised_le δ _ i).2, h.eq, rfl⟩
  · rw [if_neg hill]
    refine Or.inl ⟨rfl, ?_⟩
    rw [← h.eq]
    refine svd_poised h.left h.right fun i h0 => hill ?_
    have hc : 0 < c := by have := i.2; omega
    refine ⟨hc, Or.inl (le_antisymm ?_ (h.nonneg _))⟩
    rw [← h0]
    exact h.sorted _ _ (by rw [Fin.le_def]; have := i.2; simp only; omega)

theorem cured_poised {svd : SvdFn} (hS : GoodSvd svd) (κ : ℝ) {δ : ℝ} (hδ : 0 < δ) {r c : ℕ} (hrc : c ≤ r) (Z : Matrix (Fin r) (Fin c) ℝ) :
    Poised (curedMat svd κ δ Z) := by
  rcases cured_cases hS κ δ hrc Z with ⟨h1, h2⟩ | ⟨U, V, s, t, h1, h2, -, -, h5, -, h7⟩
  · rw [h1]; exact h2
  · rw [h7]
    exact svd_poised h1 h2 fun i => (lt_of_lt_of_le hδ (h5 i)).ne'

theorem svd_sq {r c : ℕ} {Z U : Matrix (Fin r) (Fin c) ℝ} {V : Matrix (Fin c) (Fin c) ℝ} {a : Fin c → ℝ} (hU : Uᵀ * U = 1)
    (hZ : U * (diagonal a * V) = Z) (v : Fin c → ℝ) : (Z *ᵥ v) ⬝ᵥ (Z *ᵥ v) = ∑ i, a i ^ 2 * (V *ᵥ v) i ^ 2 := by
  have h : Z *ᵥ v = U *ᵥ (diagonal a *ᵥ (V *ᵥ v)) := by rw [← hZ, mulVec_mulVec, mulVec_mulVec, Matrix.mul_assoc]
  rw [h, col_dot hU]
  exact Finset.sum_congr rfl fun i _ => by rw [mulVec_diagonal]; ring

theorem orth_sq {c : ℕ} {V : Matrix (Fin c) (Fin c) ℝ} (hV : V * Vᵀ = 1) (v : Fin c → ℝ) : v ⬝ᵥ v = ∑ i, (V *ᵥ v) i ^ 2 := by
  rw [← orth_dot hV v]
  exact Finset.sum_congr rfl fun i _ => (pow_two _).symm

/-- The direction of a singular value. -/
theorem svd_dir {r c : ℕ} {Z U : Matrix (Fin r) (Fin c) ℝ} {V : Matrix (Fin c) (Fin c) ℝ} {a : Fin c → ℝ} (hU : Uᵀ * U = 1)
    (hV : V * Vᵀ = 1) (hZ : U * (diagonal a * V) = Z) (i : Fin c) :
    ∃ v : Fin c → ℝ, v ⬝ᵥ v = 1 ∧ (Z *ᵥ v) ⬝ᵥ (Z *ᵥ v) = a i ^ 2 := by
  have h : V *ᵥ (Vᵀ *ᵥ Pi.single i 1) = Pi.single i 1 := by rw [mulVec_mulVec, hV, one_mulVec]
  refine ⟨Vᵀ *ᵥ Pi.single i 1, ?_, ?_⟩
  · rw [orth_sq hV, h]
    simp [Pi.single_apply]
  · rw [svd_sq hU hZ, h]
    simp [Pi.single_apply]

/-- **C103 (matrix).** The correction in terms of the matrix alone.  If the largest stretching is at most `κ` times the smallest one, the matrix is
not changed.  If it is more than `κ` times the smallest one, the new matrix stretches every vector at least by `δ` and differs from the
old one by at most `δ` on unit vectors. -/
theorem C103_matrix {svd : SvdFn} (hS : GoodSvd svd) {κ δ : ℝ} (hκ : 0 ≤ κ) (hδ : 0 < δ) {r c : ℕ} (hrc : c ≤ r)
    (Z : Matrix (Fin r) (Fin c) ℝ) :
    (∀ a b, 0 < a → 0 ≤ b → b ≤ κ * a → (∀ v, a ^ 2 * (v ⬝ᵥ v) ≤ (Z *ᵥ v) ⬝ᵥ (Z *ᵥ v) ∧ (Z *ᵥ v) ⬝ᵥ (Z *ᵥ v) ≤ b ^ 2 * (v ⬝ᵥ v)) →
      curedMat svd κ δ Z = Z) ∧
    ((∃ v w, κ ^ 2 * ((Z *ᵥ w) ⬝ᵥ (Z *ᵥ w)) * (v ⬝ᵥ v) < (Z *ᵥ v) ⬝ᵥ (Z *ᵥ v) * (w ⬝ᵥ w)) →
      ∀ u, δ ^ 2 * (u ⬝ᵥ u) ≤ (curedMat svd κ δ Z *ᵥ u) ⬝ᵥ (curedMat svd κ δ Z *ᵥ u) ∧
        ((curedMat svd κ δ Z - Z) *ᵥ u) ⬝ᵥ ((curedMat svd κ δ Z - Z) *ᵥ u) ≤ δ ^ 2 * (u ⬝ᵥ u)) := by
  have h := hS r c Z hrc
  constructor
  · intro a b ha hb hab hbd
    unfold curedMat
    rw [if_neg]
    rintro ⟨hc, hill⟩
    obtain ⟨v, v1, v2⟩ := svd_dir h.left h.right h.eq ⟨0, hc⟩
    obtain ⟨w, w1, w2⟩ := svd_dir h.left h.right h.eq ⟨c - 1, by omega⟩
    have hv := (hbd v).2
    have hw := (hbd w).1
    rw [v1, v2, mul_one] at hv
    rw [w1, w2, mul_one] at hw
    have hs0 : (svd r c Z).2.1 ⟨0, hc⟩ ≤ b := (pow_le_pow_iff_left₀ (h.nonneg _) hb two_ne_zero).1 hv
    have hsl : a ≤ (svd r c Z).2.1 ⟨c - 1, by omega⟩ := (pow_le_pow_iff_left₀ ha.le (h.nonneg _) two_ne_zero).1 hw
    rcases hill with h0 | h0
    · linarith
    · have hpos : 0 < (svd r c Z).2.1 ⟨c - 1, by omega⟩ := lt_of_lt_of_le ha hsl
      rw [gt_iff_lt, lt_div_iff₀ hpos] at h0
      have := mul_le_mul_of_nonneg_left hsl hκ
      linarith
  · rintro ⟨v, w, hvw⟩ u
    have hc : 0 < c := by
      rcases Nat.eq_zero_or_pos c with h0 | h0
      · subst h0
        have e1 : v ⬝ᵥ v = 0 := by simp [dotProduct]
        have e2 : w ⬝ᵥ w = 0 := by simp [dotProduct]
        rw [e1, e2, mul_zero, mul_zero] at hvw
        exact absurd hvw (lt_irrefl _)
      · exact h0
    have hill : illCond κ (svd r c Z).2.1 := by
      refine ⟨hc, ?_⟩
      set s := (svd r c Z).2.1 with hs
      by_cases h0 : s ⟨c - 1, by omega⟩ = 0
      · exact Or.inl h0
      · right
        have hpos : 0 < s ⟨c - 1, by omega⟩ := lt_of_le_of_ne (h.nonneg _) (Ne.symm h0)
        rw [gt_iff_lt, lt_div_iff₀ hpos]
        by_contra hle
        push Not at hle
        have e1 : (Z *ᵥ v) ⬝ᵥ (Z *ᵥ v) ≤ s ⟨0, hc⟩ ^ 2 * (v ⬝ᵥ v) := by
          rw [svd_sq h.left h.eq, orth_sq h.right v, Finset.mul_sum]
          refine Finset.sum_le_sum fun i _ => mul_le_mul_of_nonneg_right ?_ (sq_nonneg _)
          exact pow_le_pow_left₀ (h.nonneg i) (h.sorted _ _ (by rw [Fin.le_def]; simp)) 2
        have e2 : s ⟨c - 1, by omega⟩ ^ 2 * (w ⬝ᵥ w) ≤ (Z *ᵥ w) ⬝ᵥ (Z *ᵥ w) := by
          rw [svd_sq h.left h.eq, orth_sq h.right w, Finset.mul_sum]
          refine Finset.sum_le_sum fun i _ => mul_le_mul_of_nonneg_right ?_ (sq_nonneg _)
          exact pow_le_pow_left₀ (h.nonneg _) (h.sorted _ _ (by rw [Fin.le_def]; have := i.2; simp only; omega)) 2
        have e3 : s ⟨0, hc⟩ ^ 2 ≤ κ ^ 2 * s ⟨c - 1, by omega⟩ ^ 2 := by
          rw [← mul_pow]
          exact pow_le_pow_left₀ (h.nonneg _) hle 2
        have hvv : 0 ≤ v ⬝ᵥ v := Finset.sum_nonneg fun i _ => mul_self_nonneg _
        have hww : 0 ≤ w ⬝ᵥ w := Finset.sum_nonneg fun i _ => mul_self_nonneg _
        have e4 := mul_le_mul_of_nonneg_right e1 hww
        have e5 := mul_le_mul_of_nonneg_right (mul_le_mul_of_nonneg_left e2 (sq_nonneg κ)) hvv
        have e6 := mul_le_mul_of_nonneg_right e3 (mul_nonneg hvv hww)
        nlinarith
    have hM : curedMat svd κ δ Z = (svd r c Z).1 * (diagonal (raised δ (svd r c Z).2.1) * (svd r c Z).2.2) := by
      unfold curedMat
      rw [if_pos hill]
    constructor
    · rw [svd_sq h.left hM.symm, orth_sq h.right u, Finset.mul_sum]
      refine Finset.sum_le_sum fun i _ => mul_le_mul_of_nonneg_right ?_ (sq_nonneg _)
      exact pow_le_pow_left₀ hδ.le (raised_le δ _ i).2 2
    · have hD : (svd r c Z).1 * (diagonal (raised δ (svd r c Z).2.1 - (svd r c Z).2.1) * (svd r c Z).2.2) = curedMat svd κ δ Z - Z := by
        refine Eq.trans ?_ (congrArg (fun M => curedMat svd κ δ Z - M) h.eq)
        show _ = curedMat svd κ δ Z - _
        rw [hM, ← Matrix.mul_sub, ← Matrix.sub_mul, diagonal_sub]
        rfl
      rw [svd_sq h.left hD, orth_sq h.right u, Finset.mul_sum]
      refine Finset.sum_le_sum fun i _ => mul_le_mul_of_nonneg_right ?_ (sq_nonneg _)
      have h1 := (raised_le δ (svd r c Z).2.1 i).1
      have h2 : raised δ (svd r c Z).2.1 i - (svd r c Z).2.1 i ≤ δ := by
        have := h.nonneg i
        unfold raised
        split_ifs <;> linarith
      exact pow_le_pow_left₀ (by linarith) h2 2

/-! ### Models -/

/-- A model in the sense of the two cases. -/
def Close (Z : Matrix (Fin n) (Fin p) ℝ) (κ : Prop) (δ : ℝ) (d : Fin n → ℝ) (f : Fin p → ℝ) : Prop :=
  (Zᵀ *ᵥ d - f) ⬝ᵥ (Zᵀ *ᵥ d - f) ≤ f ⬝ᵥ f ∧ (κ ∨ δ ^ 2 * (d ⬝ᵥ d) ≤ f ⬝ᵥ f)

theorem qr_tall {r c : ℕ} {Z Q : Matrix (Fin r) (Fin c) ℝ} {R : Matrix (Fin c) (Fin c) ℝ} (h : IsQR Q R Z)
    (hu : IsUnit R.det) : Zᵀ * (Q * Rᵀ⁻¹) = 1 ∧ Q * Rᵀ⁻¹ = Z * (R⁻¹ * Rᵀ⁻¹) := by
  constructor
  · rw [← h.eq, transpose_mul, Matrix.mul_assoc, ← Matrix.mul_assoc Qᵀ, h.orth, Matrix.one_mul, mul_nonsing_inv _ (unit_tr hu)]
  · rw [← h.eq, Matrix.mul_assoc, ← Matrix.mul_assoc R, mul_nonsing_inv _ hu, Matrix.one_mul]

theorem safe_tall {K : LinKit} (hK : GoodKit K) {svd : SvdFn} (hS : GoodSvd svd) (κ : ℝ) {δ : ℝ} (hδ : 0 < δ) {r c : ℕ} (hrc : c ≤ r)
    (Z : Matrix (Fin r) (Fin c) ℝ) (f : Fin c → ℝ) :
    let F := (K.cured svd κ δ).qr r c Z
    ∃ d, (solveE F.2ᵀ f).map (fun w => (⟨r, F.1 *ᵥ w⟩ : Coefs)) = .ok ⟨r, d⟩ ∧
      Close Z (Poised Z ∧ K.qr r c Z = F) δ d f := by
  intro F
  have hF : F = K.qr r c (curedMat svd κ δ Z) := rfl
  have hp := cured_poised hS κ hδ hrc Z
  have hQR : IsQR F.1 F.2 (curedMat svd κ δ Z) := (hK.qr _ _ _ hp).1
  clear_value F
  have hu := R_unit hQR hp
  obtain ⟨e1, e2⟩ := qr_tall hQR hu
  refine ⟨F.1 *ᵥ (F.2ᵀ⁻¹ *ᵥ f), by rw [solveE_ok (unit_tr hu)]; rfl, ?_⟩
  have hd1 : (curedMat svd κ δ Z)ᵀ *ᵥ (F.1 *ᵥ (F.2ᵀ⁻¹ *ᵥ f)) = f := by
    rw [mulVec_mulVec f F.1, mulVec_mulVec, e1, one_mulVec]
  have hd2 : ∃ u, F.1 *ᵥ (F.2ᵀ⁻¹ *ᵥ f) = curedMat svd κ δ Z *ᵥ u :=
    ⟨(F.2⁻¹ * F.2ᵀ⁻¹) *ᵥ f, by rw [mulVec_mulVec, e2, mulVec_mulVec]⟩
  rcases cured_cases hS κ δ hrc Z with ⟨h1, h2⟩ | ⟨U, V, s, t, h1, h2, h3, h4, h5, h6, h7⟩
  · rw [h1] at hd1 hF
    refine ⟨?_, Or.inl ⟨h2, hF.symm⟩⟩
    rw [hd1, sub_self, zero_dotProduct]
    exact Finset.sum_nonneg fun i _ => mul_self_nonneg _
  · rw [h7] at hd1 hd2
    have := tall_residual h1 h2 h3 h4 (fun i => lt_of_lt_of_le hδ (h5 i)) hd2 hd1
    rw [h6] at this
    exact ⟨this.1, Or.inr (this.2 δ hδ.le h5)⟩

theorem safe_wide {K : LinKit} (hK : GoodKit K) {svd : SvdFn} (hS : GoodSvd svd) (κ : ℝ) {δ : ℝ} (hδ : 0 < δ) {r c : ℕ} (hrc : c ≤ r)
    (Z : Matrix (Fin c) (Fin r) ℝ) (f : Fin r → ℝ) :
    Close Z (Poised Zᵀ ∧ K.qr r c Zᵀ = (K.cured svd κ δ).qr r c Zᵀ) δ
      (K.pinv c ((K.cured svd κ δ).qr r c Zᵀ).2 *ᵥ (((K.cured svd κ δ).qr r c Zᵀ).1ᵀ *ᵥ f)) f := by
  have hp := cured_poised hS κ hδ hrc Zᵀ
  have hQR := (hK.qr _ _ _ hp).1
  have hF : (K.cured svd κ δ).qr r c Zᵀ = K.qr r c (curedMat svd κ δ Zᵀ) := rfl
  rw [hF]
  generalize hG : K.qr r c (curedMat svd κ δ Zᵀ) = F at hQR
  have hu := R_unit hQR hp
  rw [hK.pinv _ _ hu]
  have hd : (curedMat svd κ δ Zᵀ)ᵀ *ᵥ (curedMat svd κ δ Zᵀ *ᵥ (F.2⁻¹ *ᵥ (F.1ᵀ *ᵥ f)) - f) = 0 := by
    have h1 : curedMat svd κ δ Zᵀ *ᵥ (F.2⁻¹ *ᵥ (F.1ᵀ *ᵥ f)) = F.1 *ᵥ (F.1ᵀ *ᵥ f) := by
      rw [← hQR.eq, mulVec_mulVec, Matrix.mul_assoc, mul_nonsing_inv _ hu, Matrix.mul_one]
    rw [h1, ← hQR.eq, transpose_mul, ← mulVec_mulVec, mulVec_sub F.1ᵀ, mulVec_mulVec _ F.1ᵀ, hQR.orth, one_mulVec, sub_self, mulVec_zero]
  unfold Close
  rcases cured_cases hS κ δ hrc Zᵀ with ⟨h1, h2⟩ | ⟨U, V, s, t, h1, h2, h3, h4, h5, h6, h7⟩
  · have hG' := hG
    rw [h1] at hG'
    refine ⟨?_, Or.inl ⟨h2, hG'⟩⟩
    rw [h1] at hd
    generalize F.2⁻¹ *ᵥ (F.1ᵀ *ᵥ f) = d at hd
    have h3 : (Zᵀ *ᵥ d - f) ⬝ᵥ (Zᵀ *ᵥ d) = 0 := by
      rw [dotProduct_mulVec, ← mulVec_transpose, hd, zero_dotProduct]
    have h4 : f ⬝ᵥ f = (Zᵀ *ᵥ d - f) ⬝ᵥ (Zᵀ *ᵥ d - f) + (Zᵀ *ᵥ d) ⬝ᵥ (Zᵀ *ᵥ d) := by
      have e : (Zᵀ *ᵥ d) ⬝ᵥ (Zᵀ *ᵥ d) = f ⬝ᵥ (Zᵀ *ᵥ d) := by
        rw [sub_dotProduct] at h3
        linarith
      rw [sub_dotProduct, dotProduct_sub, dotProduct_sub, dotProduct_comm (Zᵀ *ᵥ d) f, e]
      ring
    have h5 : 0 ≤ (Zᵀ *ᵥ d) ⬝ᵥ (Zᵀ *ᵥ d) := Finset.sum_nonneg fun i _ => mul_self_nonneg _
    linarith
  · rw [h7] at hd
    have := wide_residual h1 h2 h3 h4 (fun i => lt_of_lt_of_le hδ (h5 i)) hd
    rw [h6] at this
    exact ⟨this.1, Or.inr (this.2 δ hδ.le h5)⟩

/-- **C103.** With the correction, for sub-basis, minimum-norm and regression models and every set of points that do not all coincide - poised or
not, with repeated points or not - a model is returned, with a tolerance `δ > 0` and any threshold for the condition number.  Its deviation
from the data is not larger than the data themselves (in the sum of squares).  Either the system was not changed; then the set is
poised, and the model is that of C75.  Or the coefficients are at most `1/δ` times the data. -/
theorem C103_models {K : LinKit} (hK : GoodKit K) {svd : SvdFn} (hS : GoodSvd svd) (κ : ℝ) {δ : ℝ} (hδ : 0 < δ) (kind : Kind)
    (Y : Fin (p + 1) → Fin n → ℝ) (shift : Bool) (hn : 1 ≤ n) (hnp : n ≤ p) (hh : Handled kind n (p + 1))
    (hd : shift = true → ∃ j, Y j ≠ Y 0) (f : Fin (p + 1) → ℝ) :
    ∃ c : Fin (dofs kind n (p + 1)) → ℝ, modelSafe K svd κ δ kind Y shift f = .ok ⟨_, c⟩ ∧
      ∑ j, (value kind Y shift ⟨_, c⟩ (Y j) - f j) ^ 2 ≤ ∑ j, f j ^ 2 ∧
      ((WellPosed kind Y shift ∧ modelCoefs K kind Y shift f = .ok ⟨_, c⟩) ∨ δ ^ 2 * ∑ i, c i ^ 2 ≤ ∑ j, f j ^ 2) := by
  have hcol : ¬ collapsed Y shift := fun ⟨h1, _, h3⟩ => (scaleY_spec Y (hd h1)).1.ne' h3
  unfold modelSafe
  rw [if_neg hcol]
  have hv := fun c j => value_pts (m := dofs kind n (p + 1)) kind Y shift hn hnp (dofs_ge kind hnp) (dofs_le hh) c j
  have hsq : ∀ (m : ℕ) (g : Fin m → ℝ), ∑ j, g j ^ 2 = g ⬝ᵥ g := fun m g => Finset.sum_congr rfl fun j _ => pow_two _
  have hres : ∀ c : Fin (dofs kind n (p + 1)) → ℝ, ∑ j, (value kind Y shift ⟨_, c⟩ (Y j) - f j) ^ 2 =
      ((zMat (dofs kind n (p + 1)) (kind.frame Y shift).pts)ᵀ *ᵥ c - f) ⬝ᵥ
        ((zMat (dofs kind n (p + 1)) (kind.frame Y shift).pts)ᵀ *ᵥ c - f) := by
    intro c
    refine Finset.sum_congr rfl fun j _ => ?_
    rw [hv c j, pow_two]
    rfl
  -- tall matrices
  have tall : ∀ (hle : p + 1 ≤ dofs kind n (p + 1)),
      (∀ K' : LinKit, modelCoefs K' kind Y shift f =
        (solveE (K'.qr (dofs kind n (p + 1)) (p + 1) (zMat (dofs kind n (p + 1)) (kind.frame Y shift).pts)).2ᵀ f).map fun w =>
          (⟨dofs kind n (p + 1), (K'.qr (dofs kind n (p + 1)) (p + 1) (zMat (dofs kind n (p + 1)) (kind.frame Y shift).pts)).1 *ᵥ w⟩ : Coefs)) →
      ∃ c : Fin (dofs kind n (p + 1)) → ℝ, modelCoefs (K.cured svd κ δ) kind Y shift f = .ok ⟨_, c⟩ ∧
        ∑ j, (value kind Y shift ⟨_, c⟩ (Y j) - f j) ^ 2 ≤ ∑ j, f j ^ 2 ∧
        ((WellPosed kind Y shift ∧ modelCoefs K kind Y shift f = .ok ⟨_, c⟩) ∨ δ ^ 2 * ∑ i, c i ^ 2 ≤ ∑ j, f j ^ 2) := by
    intro hle hm
    obtain ⟨c, h1, h2, h3⟩ := safe_tall hK hS κ hδ hle (zMat (dofs kind n (p + 1)) (kind.frame Y shift).pts) f
    refine ⟨c, by rw [hm, h1], by rw [hres, hsq]; exact h2, ?_⟩
    rcases h3 with ⟨h3, h4⟩ | h3
    · refine Or.inl ⟨?_, ?_⟩
      · unfold WellPosed
        rw [if_pos hle]
        exact h3
      · rw [hm, h4, h1]
    · right
      rw [hsq, hsq]
      exact h3
  cases kind with
  | subbasis => exact tall le_rfl fun K' => rfl
  | frobnorm => rcases hh with h | h <;> simp at h
  | l2norm =>
    rcases hh with h | h
    · simp at h
    · exact tall h.2 fun K' => rfl
  | regression =>
    by_cases hlt : p + 1 < fullSize n
    · refine tall hlt.le fun K' => ?_
      have he : Kind.regression.eff (p + 1) (fullSize n) = .l2norm := by
        unfold Kind.eff
        rw [if_pos ⟨rfl, hlt⟩]
      unfold modelCoefs
      simp only [he]
      rfl
    · have hle : fullSize n ≤ p + 1 := not_lt.1 hlt
      have he : Kind.regression.eff (p + 1) (fullSize n) = .regression := by
        unfold Kind.eff
        rw [if_neg (fun h => hlt h.2)]
      have hm : ∀ K' : LinKit, modelCoefs K' .regression Y shift f =
          .ok ⟨fullSize n, K'.pinv (fullSize n) (K'.qr (p + 1) (fullSize n) (zMat (fullSize n) (Kind.regression.frame Y shift).pts)ᵀ).2 *ᵥ
            ((K'.qr (p + 1) (fullSize n) (zMat (fullSize n) (Kind.regression.frame Y shift).pts)ᵀ).1ᵀ *ᵥ f)⟩ := by
        intro K'
        unfold modelCoefs
        simp only [he]
      obtain ⟨c, hc⟩ : ∃ c : Fin (dofs .regression n (p + 1)) → ℝ, c =
          (K.cured svd κ δ).pinv (fullSize n) ((K.cured svd κ δ).qr (p + 1) (fullSize n)
            (zMat (fullSize n) (Kind.regression.frame Y shift).pts)ᵀ).2 *ᵥ
          (((K.cured svd κ δ).qr (p + 1) (fullSize n) (zMat (fullSize n) (Kind.regression.frame Y shift).pts)ᵀ).1ᵀ *ᵥ f) := ⟨_, rfl⟩
      have h23 : Close (zMat (dofs .regression n (p + 1)) (Kind.regression.frame Y shift).pts)
          (Poised (zMat (dofs .regression n (p + 1)) (Kind.regression.frame Y shift).pts)ᵀ ∧
            K.qr (p + 1) (fullSize n) (zMat (fullSize n) (Kind.regression.frame Y shift).pts)ᵀ =
            (K.cured svd κ δ).qr (p + 1) (fullSize n) (zMat (fullSize n) (Kind.regression.frame Y shift).pts)ᵀ) δ c f := by
        rw [hc]
        exact safe_wide hK hS κ hδ hle (zMat (fullSize n) (Kind.regression.frame Y shift).pts) f
      obtain ⟨h2, h3⟩ := h23
      refine ⟨c, by rw [hc]; exact hm _, by rw [hres, hsq]; exact h2, ?_⟩
      rcases h3 with ⟨h3, h4⟩ | h3
      · refine Or.inl ⟨?_, ?_⟩
        · unfold WellPosed
          by_cases hle' : p + 1 ≤ dofs .regression n (p + 1)
          · rw [if_pos hle']
            exact poised_transpose' (le_antisymm hle' hle) h3
          · rw [if_neg hle']
            exact h3
        · rw [hm K, h4, hc]
          rfl
      · right
        rw [hsq, hsq]
        exact h3

/-- C103: the tolerance lies between `1e-10` and `0.1` for all radii and gradients. -/
theorem C103_tolerance (Δ normgx : ℝ) : 1 / 10 ^ 10 ≤ delTol Δ normgx ∧ delTol Δ normgx ≤ 1 / 10 := by
  unfold delTol
  simp only
  split_ifs <;> constructor <;> (try norm_num at *) <;> linarith

/-- C103: if all points coincide, an exception is raised. -/
theorem C103_collapsed (K : LinKit) (svd : SvdFn) (κ δ : ℝ) (kind : Kind) (Y : Fin (p + 1) → Fin n → ℝ) (hp : 1 ≤ p)
    (h : ∀ j, Y j = Y 0) (f : Fin (p + 1) → ℝ) : modelSafe K svd κ δ kind Y true f = .error .singular := by
  unfold modelSafe
  rw [if_pos]
  refine ⟨rfl, hp, ?_⟩
  unfold scaleY
  have hz : ∀ i, enorm2 (Y i - Y 0) = 0 := by
    intro i
    rw [h i, sub_self]
    simp [enorm2]
  simp only [hz]
  exact List.foldl_fixed' (fun _ => max_self 0) _

namespace Ex

/-- The points 0, 1 and 1. -/
noncomputable def twice : Fin (2 + 1) → Fin 1 → ℝ := fun j _ => if j = 0 then 0 else 1

theorem twice_ne : ∃ j, twice j ≠ twice 0 := ⟨1, fun h => by simpa [twice] using congrFun h 0⟩

end Ex

open Ex in
/-- C103: a model of a corrected system need not interpolate.  With a repeated point and different values at it, the model that is returned
does not have the given values. -/
theorem C103_interpolates_false {K : LinKit} (hK : GoodKit K) {svd : SvdFn} (hS : GoodSvd svd) (κ : ℝ) {δ : ℝ} (hδ : 0 < δ) :
    ∃ c, modelSafe K svd κ δ .subbasis twice true ![0, 0, 1] = .ok c ∧ ¬ ∀ j, value .subbasis twice true c (twice j) = ![0, 0, 1] j := by
  obtain ⟨c, h1, -⟩ := C103_models hK hS κ hδ .subbasis twice true le_rfl (by decide) (.inr ⟨by decide, by decide⟩) (fun _ => twice_ne) ![0, 0, 1]
  refine ⟨_, h1, fun h => ?_⟩
  have e1 : _ = (0 : ℝ) := h 1
  have e2 : _ = (1 : ℝ) := h 2
  have : twice 1 = twice 2 := by
    funext i
    simp [twice]
  rw [this, e2] at e1
  norm_num at e1

open Ex in
/-- Hypotheses of `C103_models`: three points, two of them equal; threshold of the program, a radius of 1 and a gradient of norm 2. -/
example : ∃ K svd, GoodKit K ∧ GoodSvd svd ∧ ∃ c : Fin 3 → ℝ,
    modelSafe K svd (10 ^ 15) (delTol 1 2) .l2norm twice true ![0, 0, 1] = .ok ⟨3, c⟩ ∧
    ∑ j, (value .l2norm twice true ⟨3, c⟩ (twice j) - ![0, 0, 1] j) ^ 2 ≤ 1 := by
  obtain ⟨K, hK⟩ := exists_goodKit
  obtain ⟨svd, hS⟩ := exists_goodSvd
  have hδ : 0 < delTol 1 2 := lt_of_lt_of_le (by norm_num) (C103_tolerance 1 2).1
  obtain ⟨c, h1, h2, -⟩ := C103_models hK hS (10 ^ 15) hδ .l2norm twice true le_rfl (by decide) (.inr ⟨by decide, by decide⟩)
    (fun _ => twice_ne) ![0, 0, 1]
  refine ⟨K, svd, hK, hS, c, h1, le_trans h2 ?_⟩
  simp [Fin.sum_univ_three]

/-- A matrix with stretchings 1 and 2, threshold 3: unchanged. A singular matrix: the new one stretches by at least 1/10. -/
example : ∃ svd, GoodSvd svd ∧ curedMat svd 3 (1 / 10) (diagonal ![1, 2] : Matrix (Fin 2) (Fin 2) ℝ) = diagonal ![1, 2] ∧
    ∀ u, (1 / 10) ^ 2 * (u ⬝ᵥ u) ≤ (curedMat svd 3 (1 / 10) (diagonal ![1, 0] : Matrix (Fin 2) (Fin 2) ℝ) *ᵥ u) ⬝ᵥ
      (curedMat svd 3 (1 / 10) (diagonal ![1, 0] : Matrix (Fin 2) (Fin 2) ℝ) *ᵥ u) := by
  obtain ⟨svd, hS⟩ := exists_goodSvd
  refine ⟨svd, hS, (C103_matrix hS (by norm_num) (by norm_num) le_rfl _).1 1 2 one_pos (by norm_num) (by norm_num) fun v => ?_, fun u =>
    ((C103_matrix hS (by norm_num) (by norm_num) le_rfl _).2 ⟨![1, 0], ![0, 1], ?_⟩ u).1⟩
  · simp only [dotProduct, mulVec_diagonal, Fin.sum_univ_two]
    simp
    constructor <;> nlinarith [mul_self_nonneg (v 0), mul_self_nonneg (v 1)]
  · simp [dotProduct, mulVec_diagonal, Fin.sum_univ_two]

/-- Two equal points. -/
example (K : LinKit) (svd : SvdFn) (f : Fin (1 + 1) → ℝ) :
    modelSafe K svd (10 ^ 15) (1 / 10) .subbasis (fun _ _ => 3 : Fin (1 + 1) → Fin 1 → ℝ) true f = .error .singular :=
  C103_collapsed K svd _ _ _ _ le_rfl (fun _ => rfl) f

#print axioms C103_matrix
#print axioms C103_models
#print axioms C103_tolerance
#print axioms C103_collapsed
#print axioms C103_interpolates_false
#print axioms exists_goodSvd

end Sqpdfo
