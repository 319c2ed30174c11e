import Verif.Model.TRMS
import Verif.Lemmas.Spectral
import Mathlib.LinearAlgebra.Matrix.NonsingularInverse
import Mathlib.LinearAlgebra.Matrix.Notation
import Mathlib.Analysis.Real.Sqrt
import Mathlib.Tactic.Linarith
import Mathlib.Tactic.NormNum
import Mathlib.Tactic.FieldSimp
import Mathlib.Tactic.Ring

/-! # C42, C61: the Moré-Sorensen trust-region solver -/

namespace Sqpdfo
open Matrix
variable {K : Type} [Field K] [LinearOrder K] [IsStrictOrderedRing K]
variable {ι : Type} [Fintype ι] [DecidableEq ι]

/-- What is assumed of the numpy kernels: exact square roots of nonnegative numbers, a Cholesky factor
`R` with `R'R = M` that is invertible, exact solutions of regular systems, a nonzero eigenvector. -/
structure Spec.GoodKer (k : MSKer K ι) : Prop where
  sq : ∀ a, 0 ≤ a → 0 ≤ k.sq a ∧ k.sq a * k.sq a = a
  hb : ∀ H, 0 ≤ k.hb H
  chol : ∀ M R, (∀ i j, M i j = M j i) → k.chol M = .ok R → Rᵀ * R = M ∧ IsUnit R
  noNan : ∀ M, k.chol M ≠ .nan
  solve : ∀ M b, IsUnit M → M *ᵥ k.solve M b = b
  eig : ∀ H, (fun i => (k.eig H).1 i (k.eig H).2.2) ≠ 0

open Spec

theorem ms_dot_self_nonneg (v : ι → K) : 0 ≤ v ⬝ᵥ v :=
  Finset.sum_nonneg fun i _ => mul_self_nonneg (v i)

theorem ms_dot_self_pos (v : ι → K) (h : v ≠ 0) : 0 < v ⬝ᵥ v := by
  obtain ⟨i, hi⟩ := Function.ne_iff.1 h
  exact Finset.sum_pos' (fun i _ => mul_self_nonneg (v i)) ⟨i, Finset.mem_univ i, mul_self_pos.2 hi⟩

theorem GoodKer.nrm_nonneg {k : MSKer K ι} (hk : GoodKer k) (v : ι → K) : 0 ≤ k.nrm v :=
  (hk.sq _ (ms_dot_self_nonneg v)).1

theorem GoodKer.nrm_sq {k : MSKer K ι} (hk : GoodKer k) (v : ι → K) :
    k.nrm v * k.nrm v = v ⬝ᵥ v := (hk.sq _ (ms_dot_self_nonneg v)).2

theorem GoodKer.nrm_zero {k : MSKer K ι} (hk : GoodKer k) : k.nrm (0 : ι → K) = 0 := by
  have h := GoodKer.nrm_sq hk (0 : ι → K)
  rw [zero_dotProduct] at h
  exact mul_self_eq_zero.1 h

/-- `nrm v` is the only nonnegative number with the right square. -/
theorem GoodKer.nrm_eq {k : MSKer K ι} (hk : GoodKer k) (v : ι → K) (c : K) (hc : 0 ≤ c)
    (h : v ⬝ᵥ v = c * c) : k.nrm v = c := by
  have h1 := GoodKer.nrm_sq hk v
  rw [h] at h1
  exact (mul_self_inj (GoodKer.nrm_nonneg hk v) hc).1 h1

/-- `0 ≤ lower ≤ lambda ≤ upper`. -/
structure MSInv (S : MSState K ι) : Prop where
  low : 0 ≤ S.lower
  lam : S.lower ≤ S.lam
  upp : S.lam ≤ S.upper

theorem theta_bounds : (0 : K) ≤ thetaMS ∧ (thetaMS : K) ≤ 1 := by
  unfold thetaMS
  constructor
  · positivity
  · rw [div_le_one (by positivity)]; norm_num

theorem safeLam_mem {k : MSKer K ι} (hk : GoodKer k) {l u : K} (h0 : 0 ≤ l) (h : l ≤ u) :
    l ≤ safeLam k l u ∧ safeLam k l u ≤ u := by
  obtain ⟨t0, t1⟩ := theta_bounds (K := K)
  obtain ⟨s0, s1⟩ := hk.sq (l * u) (mul_nonneg h0 (h0.trans h))
  unfold safeLam
  constructor
  · exact le_max_of_le_right (by nlinarith)
  · refine max_le ?_ (by nlinarith)
    by_contra hc
    have hc := not_le.1 hc
    have : u * u < l * u := by
      rw [← s1]
      exact mul_lt_mul'' hc hc (h0.trans h) (h0.trans h)
    nlinarith

theorem msStart_inv {k : MSKer K ι} (hk : GoodKer k) (g : ι → K) (H : Matrix ι ι K) (Δ : K) :
    MSInv (msStart k g H Δ) := by
  have hb := hk.hb H
  have h1 : (0 : K) ≤ max 0 (k.nrm g / Δ - k.hb H) := le_max_left _ _
  have h2 : max 0 (k.nrm g / Δ - k.hb H) ≤ max 0 (k.nrm g / Δ + k.hb H) :=
    max_le_max le_rfl (by linarith)
  unfold msStart
  simp only
  split_ifs with h
  · exact ⟨h1, h.le, h1.trans h2⟩
  · have := safeLam_mem hk h1 h2
    exact ⟨h1, this.1, this.2⟩

theorem msNewton_inv {k : MSKer K ι} (hk : GoodKer k) (Δ εD : K) (R : Matrix ι ι K)
    (S : MSState K ι) (hS : MSInv S) : MSInv (msNewton k Δ εD R S) := by
  obtain ⟨t0, t1⟩ := theta_bounds (K := K)
  obtain ⟨h0, h1, h2⟩ := hS
  unfold msNewton
  simp only
  have hl : 0 ≤ (if S.norms > (1 + εD) * Δ then S.lam else S.lower) := by
    split_ifs
    · exact h0.trans h1
    · exact h0
  have hlu : (if S.norms > (1 + εD) * Δ then S.lam else S.lower) ≤
      (if S.norms > (1 + εD) * Δ then S.upper else S.lam) := by
    split_ifs
    · exact h2
    · exact h1
  generalize (if S.norms > (1 + εD) * Δ then S.lam else S.lower) = l at *
  generalize (if S.norms > (1 + εD) * Δ then S.upper else S.lam) = u at *
  have hr : 0 ≤ thetaMS * (u - l) := mul_nonneg t0 (by linarith)
  split_ifs with h
  · exact ⟨hl, (by linarith [h.1] : l ≤ _), (by linarith [h.2] : _ ≤ u)⟩
  · have := safeLam_mem hk hl hlu
    exact ⟨hl, this.1, this.2⟩

theorem msBisect_inv (S : MSState K ι) (hS : MSInv S) : MSInv (msBisect S) := by
  obtain ⟨h0, h1, h2⟩ := hS
  refine ⟨h0.trans h1, ?_, ?_⟩
  · change S.lam ≤ (1 - 1 / 2) * S.lam + 1 / 2 * S.upper; linarith
  · change (1 - 1 / 2) * S.lam + 1 / 2 * S.upper ≤ S.upper; linarith

/-- What holds at an exit with an accepted step. -/
structure Spec.Accepted (k : MSKer K ι) (g : ι → K) (H : Matrix ι ι K) (Δ εD : K) (o : MSOut K ι) :
    Prop where
  lam : 0 ≤ o.lam
  stat : (H + o.lam • (1 : Matrix ι ι K)) *ᵥ o.s = -g
  psd : ∀ v, 0 ≤ v ⬝ᵥ (H + o.lam • (1 : Matrix ι ι K)) *ᵥ v
  radius : k.nrm o.s ≤ (1 + εD) * Δ
  sphere : o.lam ≤ 1 / 10 ^ 12 ∨ (1 - εD) * Δ ≤ k.nrm o.s
  norms : o.norms = k.nrm o.s
  value : o.value = g ⬝ᵥ o.s + 1 / 2 * (o.s ⬝ᵥ H *ᵥ o.s)
  gplus : o.gplus = g + H *ᵥ o.s
  msg : o.msg = .interior ∧ k.nrm o.s < (1 - εD) * Δ ∨
    o.msg = .boundary ∧ (1 - εD) * Δ ≤ k.nrm o.s
  hard : o.hard = false
  neigd : o.neigd = 0

theorem msSolve_stat {k : MSKer K ι} (hk : GoodKer k) (g : ι → K) (M R : Matrix ι ι K)
    (hM : ∀ i j, M i j = M j i) (h : k.chol M = .ok R) :
    M *ᵥ k.solve (-R) (k.solve Rᵀ g) = -g ∧ ∀ v, 0 ≤ v ⬝ᵥ M *ᵥ v := by
  obtain ⟨h1, h2⟩ := hk.chol M R hM h
  have e1 := hk.solve (-R) (k.solve Rᵀ g) h2.neg
  have e2 := hk.solve Rᵀ g ((isUnit_transpose R).2 h2)
  constructor
  · rw [← h1, ← mulVec_mulVec]
    rw [neg_mulVec] at e1
    rw [neg_eq_iff_eq_neg.1 e1, mulVec_neg, e2]
  · intro v
    rw [← h1, ← mulVec_mulVec, dotProduct_mulVec, vecMul_transpose]
    exact ms_dot_self_nonneg _

theorem sym_shift {H : Matrix ι ι K} (hH : ∀ i j, H i j = H j i) (l : K) :
    ∀ i j, (H + l • (1 : Matrix ι ι K)) i j = (H + l • (1 : Matrix ι ι K)) j i := by
  intro i j
  rw [Matrix.add_apply, Matrix.add_apply, Matrix.smul_apply, Matrix.smul_apply, hH i j,
    Matrix.one_apply, Matrix.one_apply]
  simp only [eq_comm]

/-- The loop: the exits, and the number of factorisations. -/
theorem msLoop_spec {k : MSKer K ι} (hk : GoodKer k) (g : ι → K) (H : Matrix ι ι K) (Δ εD : K)
    (hH : ∀ i j, H i j = H j i) (r : ℕ) : ∀ S : MSState K ι, MSInv S →
    (∀ o, msLoop k g H Δ εD r S = .inl o → Accepted k g H Δ εD o ∧ o.nfact ≤ S.nfact + r) ∧
    (∀ T, msLoop k g H Δ εD r S = .inr T → MSInv T ∧ T.nfact ≤ S.nfact + r) := by
  induction r with
  | zero =>
    intro S hS
    refine ⟨fun o h => (by cases h), fun T h => ?_⟩
    cases h
    exact ⟨hS, le_rfl⟩
  | succ r ih =>
    intro S hS
    unfold msLoop
    cases hc : k.chol (H + S.lam • (1 : Matrix ι ι K)) with
    | nan => exact absurd hc (hk.noNan _)
    | fail =>
      simp only
      have hB := msBisect_inv S hS
      have hn : (msBisect S).nfact = S.nfact + 1 := rfl
      split_ifs with h1
      · refine ⟨fun o h => (by cases h), fun T h => ?_⟩
        cases h
        exact ⟨hB, by rw [hn]; omega⟩
      · obtain ⟨i1, i2⟩ := ih _ hB
        refine ⟨fun o h => ?_, fun T h => ?_⟩
        · obtain ⟨j1, j2⟩ := i1 o h
          exact ⟨j1, by rw [hn] at j2; omega⟩
        · obtain ⟨j1, j2⟩ := i2 T h
          exact ⟨j1, by rw [hn] at j2; omega⟩
    | ok R =>
      simp only
      have hst := msSolve_stat hk g _ R (sym_shift hH S.lam) hc
      have hS' : MSInv (msSolve k g R S) := ⟨hS.low, hS.lam, hS.upp⟩
      split_ifs with h1 h2
      · refine ⟨fun o h => ?_, fun T h => (by cases h)⟩
        cases h
        have hn : (msSolve k g R S).norms = k.nrm (msSolve k g R S).s := rfl
        refine ⟨⟨hS.low.trans hS.lam, hst.1, hst.2, ?_, ?_, rfl, rfl, rfl, ?_, rfl, rfl⟩, ?_⟩
        · rcases h1 with h1 | h1
          · exact h1.2
          · exact h1.2
        · rcases h1 with h1 | h1
          · exact Or.inl h1.1
          · exact Or.inr h1.1
        · unfold msAccept
          simp only
          rw [hn]
          split_ifs with h3
          · exact Or.inl ⟨rfl, h3⟩
          · exact Or.inr ⟨rfl, not_lt.1 h3⟩
        · change S.nfact + 1 ≤ _; omega
      · refine ⟨fun o h => (by cases h), fun T h => ?_⟩
        cases h
        exact ⟨msNewton_inv hk Δ εD R _ hS', by change S.nfact + 1 ≤ _; omega⟩
      · obtain ⟨i1, i2⟩ := ih _ (msNewton_inv hk Δ εD R _ hS')
        have hn : (msNewton k Δ εD R (msSolve k g R S)).nfact = S.nfact + 1 := rfl
        refine ⟨fun o h => ?_, fun T h => ?_⟩
        · obtain ⟨j1, j2⟩ := i1 o h
          exact ⟨j1, by rw [hn] at j2; omega⟩
        · obtain ⟨j1, j2⟩ := i2 T h
          exact ⟨j1, by rw [hn] at j2; omega⟩

theorem add_smul_dot (u v : ι → K) (t : K) :
    (u + t • v) ⬝ᵥ (u + t • v) = u ⬝ᵥ u + 2 * t * (v ⬝ᵥ u) + t ^ 2 * (v ⬝ᵥ v) := by
  simp only [add_dotProduct, dotProduct_add, smul_dotProduct, dotProduct_smul, smul_eq_mul]
  rw [dotProduct_comm u v]; ring

/-- The step of the pseudo-hard case lies on the sphere. -/
theorem msHardStep_norm {k : MSKer K ι} (hk : GoodKer k) (g : ι → K) (H : Matrix ι ι K) (Δ : K)
    (hΔ : 0 ≤ Δ) : k.nrm (msHardStep k g H Δ) = Δ := by
  refine GoodKer.nrm_eq hk _ Δ hΔ ?_
  unfold msHardStep
  simp only
  have hv := hk.eig H
  generalize (fun i => (k.eig H).1 i (k.eig H).2.2) = v at *
  generalize msScri (k.eig H).1 (k.eig H).2.1 ((k.eig H).2.1 (k.eig H).2.2) g = u
  have hvv := ms_dot_self_pos v hv
  have hns := GoodKer.nrm_sq hk u
  have hn0 := GoodKer.nrm_nonneg hk u
  have hnv := GoodKer.nrm_sq hk v
  split_ifs with h
  · have hD : 0 ≤ (v ⬝ᵥ u) ^ 2 - k.nrm v ^ 2 * (k.nrm u ^ 2 - Δ ^ 2) := by
      have : k.nrm u ^ 2 ≤ Δ ^ 2 := by nlinarith
      have := mul_nonneg (sq_nonneg (k.nrm v)) (sub_nonneg.2 this)
      nlinarith [sq_nonneg (v ⬝ᵥ u)]
    obtain ⟨-, hr⟩ := hk.sq _ hD
    rw [add_smul_dot]
    unfold bigRoot
    generalize k.sq ((v ⬝ᵥ u) ^ 2 - k.nrm v ^ 2 * (k.nrm u ^ 2 - Δ ^ 2)) = q at *
    have e : k.nrm v ^ 2 = v ⬝ᵥ v := by rw [← hnv]; ring
    rw [e] at hr ⊢
    have e' : u ⬝ᵥ u = k.nrm u ^ 2 := by rw [← hns]; ring
    rw [e']
    field_simp
    nlinarith [hr]
  · have hu : 0 < k.nrm u := lt_of_le_of_lt hΔ (not_le.1 h)
    rw [smul_dotProduct, dotProduct_smul, ← hns, smul_eq_mul, smul_eq_mul]
    field_simp

/-- C42, all parts.  The norm of the step is at most `(1 + eps_D)*Delta`; the step is zero for zero
radius and for a gradient below `1e-6`; at most 300 factorisations and one eigenvalue decomposition are
computed. -/
theorem C42_step_in_region {k : MSKer K ι} (hk : GoodKer k) (g : ι → K) (H : Matrix ι ι K)
    (Δ εD : K) (hH : ∀ i j, H i j = H j i) (hΔ : 0 ≤ Δ) (hε : 0 ≤ εD) :
    k.nrm (trms k g H Δ εD).s ≤ (1 + εD) * Δ ∧
      (Δ = 0 ∨ g ⬝ᵥ g < 1 / 10 ^ 12 → (trms k g H Δ εD).s = 0) ∧
      (trms k g H Δ εD).nfact ≤ 300 ∧ (trms k g H Δ εD).neigd ≤ 1 := by
  have hprod : 0 ≤ (1 + εD) * Δ := mul_nonneg (by linarith) hΔ
  have hsq : k.nrm g ^ 2 = g ⬝ᵥ g := by rw [← GoodKer.nrm_sq hk]; ring
  unfold trms
  split_ifs with h1 h2
  · refine ⟨?_, fun _ => rfl, by change 0 ≤ 300; omega, by change 0 ≤ 1; omega⟩
    change k.nrm (0 : ι → K) ≤ _
    rw [GoodKer.nrm_zero hk]; exact hprod
  · refine ⟨?_, fun _ => rfl, by change 0 ≤ 300; omega, by change 0 ≤ 1; omega⟩
    change k.nrm (0 : ι → K) ≤ _
    rw [GoodKer.nrm_zero hk]; exact hprod
  · obtain ⟨i1, i2⟩ := msLoop_spec hk g H Δ εD hH 300 _ (msStart_inv hk g H Δ)
    have hn : (msStart k g H Δ).nfact = 0 := rfl
    have hz : ¬ (Δ = 0 ∨ g ⬝ᵥ g < 1 / 10 ^ 12) := by
      rintro (h | h)
      · exact h1 h
      · rw [hsq] at h2; exact h2 h
    cases hr : msLoop k g H Δ εD 300 (msStart k g H Δ) with
    | inl o =>
      obtain ⟨j1, j2⟩ := i1 o hr
      simp only
      exact ⟨j1.radius, fun h => absurd h hz, by omega, by rw [j1.neigd]; omega⟩
    | inr S =>
      obtain ⟨j1, j2⟩ := i2 S hr
      simp only
      refine ⟨?_, fun h => absurd h hz, by change S.nfact ≤ 300; omega, by change 1 ≤ 1; omega⟩
      unfold msHard
      simp only
      split_ifs
      · rw [GoodKer.nrm_zero hk]; exact hprod
      · rw [msHardStep_norm hk g H Δ hΔ]; nlinarith

/-- The quadratic model. -/
def Spec.quadVal (g : ι → K) (H : Matrix ι ι K) (s : ι → K) : K := g ⬝ᵥ s + 1 / 2 * (s ⬝ᵥ H *ᵥ s)

/-- The identity behind the optimality of the step. -/
theorem model_identity (g : ι → K) (H : Matrix ι ι K) (hH : ∀ i j, H i j = H j i) (l : K)
    (s d : ι → K) (hs : (H + l • (1 : Matrix ι ι K)) *ᵥ s = -g) :
    quadVal g H d = quadVal g H s +
      1 / 2 * ((d - s) ⬝ᵥ (H + l • (1 : Matrix ι ι K)) *ᵥ (d - s)) +
      l / 2 * (s ⬝ᵥ s - d ⬝ᵥ d) := by
  have hsym : ∀ a b : ι → K, a ⬝ᵥ H *ᵥ b = b ⬝ᵥ H *ᵥ a := by
    intro a b
    have : Hᵀ = H := by
      ext i j; exact hH j i
    rw [dotProduct_mulVec, ← mulVec_transpose, this, dotProduct_comm]
  have hg : g = -((H + l • (1 : Matrix ι ι K)) *ᵥ s) := by rw [hs, neg_neg]
  unfold quadVal
  rw [hg]
  simp only [add_mulVec, smul_mulVec, one_mulVec, neg_dotProduct, add_dotProduct, smul_dotProduct,
    dotProduct_add, dotProduct_smul, sub_dotProduct, mulVec_sub, dotProduct_sub, smul_eq_mul]
  have e1 := hsym s d
  have e2 : (H *ᵥ s) ⬝ᵥ d = d ⬝ᵥ H *ᵥ s := dotProduct_comm _ _
  have e3 : (H *ᵥ s) ⬝ᵥ s = s ⬝ᵥ H *ᵥ s := dotProduct_comm _ _
  have e4 : s ⬝ᵥ d = d ⬝ᵥ s := dotProduct_comm _ _
  rw [e1, e2, e3, e4]
  ring

/-- C61.  If the solver accepts a step in its loop (not the pseudo-hard case), the
step is a global minimiser of the model in the ball of radius `Delta` up to
`Delta^2 * max(1e-12/2, eps_D*lambda)`, does not increase the model, and the reported norm, value
and gradient are those of the step. -/
theorem C61_global_minimiser {k : MSKer K ι} (hk : GoodKer k) (g : ι → K) (H : Matrix ι ι K)
    (Δ εD : K) (hH : ∀ i j, H i j = H j i) (hΔ : 0 < Δ) (hε : 0 ≤ εD) (hε1 : εD ≤ 1)
    (hg : 1 / 10 ^ 12 ≤ g ⬝ᵥ g) (hard : (trms k g H Δ εD).hard = false) :
    (∀ d, d ⬝ᵥ d ≤ Δ ^ 2 → quadVal g H (trms k g H Δ εD).s ≤ quadVal g H d +
      Δ ^ 2 * max (1 / 10 ^ 12 / 2) (εD * (trms k g H Δ εD).lam)) ∧
    quadVal g H (trms k g H Δ εD).s ≤ 0 ∧
    Accepted k g H Δ εD (trms k g H Δ εD) := by
  have hsq : k.nrm g ^ 2 = g ⬝ᵥ g := by rw [← GoodKer.nrm_sq hk]; ring
  have hacc : Accepted k g H Δ εD (trms k g H Δ εD) := by
    unfold trms at *
    rw [if_neg hΔ.ne', if_neg (by rw [hsq]; exact not_lt.2 hg)] at *
    obtain ⟨i1, i2⟩ := msLoop_spec hk g H Δ εD hH 300 _ (msStart_inv hk g H Δ)
    cases hr : msLoop k g H Δ εD 300 (msStart k g H Δ) with
    | inl o => exact (i1 o hr).1
    | inr S => rw [hr] at hard; cases hard
  refine ⟨fun d hd => ?_, ?_, hacc⟩
  · have hid := model_identity g H hH _ _ d hacc.stat
    have hp := hacc.psd (d - (trms k g H Δ εD).s)
    have hns := GoodKer.nrm_sq hk (trms k g H Δ εD).s
    have hn0 := GoodKer.nrm_nonneg hk (trms k g H Δ εD).s
    have hl := hacc.lam
    have hss := ms_dot_self_nonneg (trms k g H Δ εD).s
    have hsph := hacc.sphere
    generalize (trms k g H Δ εD).s = s at *
    have key : (trms k g H Δ εD).lam / 2 * (d ⬝ᵥ d - s ⬝ᵥ s) ≤
        Δ ^ 2 * max (1 / 10 ^ 12 / 2) (εD * (trms k g H Δ εD).lam) := by
      have hΔ2 : 0 ≤ Δ ^ 2 := sq_nonneg Δ
      rcases hsph with h | h
      · calc _ ≤ (trms k g H Δ εD).lam / 2 * Δ ^ 2 :=
              mul_le_mul_of_nonneg_left (by linarith) (by linarith)
          _ ≤ 1 / 10 ^ 12 / 2 * Δ ^ 2 := mul_le_mul_of_nonneg_right (by linarith) hΔ2
          _ ≤ _ := by rw [mul_comm]; exact mul_le_mul_of_nonneg_left (le_max_left _ _) hΔ2
      · have h1 : (1 - 2 * εD) * Δ ^ 2 ≤ s ⬝ᵥ s := by
          rw [← hns]
          have : (1 - εD) * Δ * ((1 - εD) * Δ) ≤ k.nrm s * k.nrm s :=
            mul_self_le_mul_self (mul_nonneg (by linarith) hΔ.le) h
          nlinarith [sq_nonneg (εD * Δ)]
        calc _ ≤ (trms k g H Δ εD).lam / 2 * (2 * εD * Δ ^ 2) :=
              mul_le_mul_of_nonneg_left (by linarith) (by linarith)
          _ = Δ ^ 2 * (εD * (trms k g H Δ εD).lam) := by ring
          _ ≤ _ := mul_le_mul_of_nonneg_left (le_max_right _ _) hΔ2
    linarith
  · have hid := model_identity g H hH _ _ 0 hacc.stat
    have hp := hacc.psd (0 - (trms k g H Δ εD).s)
    have hss := ms_dot_self_nonneg (trms k g H Δ εD).s
    have h0 : quadVal g H 0 = 0 := by unfold quadVal; simp
    rw [h0, dotProduct_zero] at hid
    have := mul_nonneg hacc.lam hss
    linarith

/-! ### The assumptions can be met -/

section Real
variable [Nonempty ι]

open Classical in
/-- Exact kernels over the reals. -/
noncomputable def Ex.realKer : MSKer ℝ ι where
  sq := Real.sqrt
  hb := fun H => √(∑ i, ∑ j, H i j ^ 2)
  chol := fun M => if h : ∃ R : Matrix ι ι ℝ, Rᵀ * R = M ∧ IsUnit R then .ok h.choose else .fail
  solve := fun M b => M⁻¹ *ᵥ b
  eig := fun H =>
    if h : ∀ i j, H i j = H j i then
      ((exists_spectral H h).choose, (exists_spectral H h).choose_spec.choose,
        (Finite.exists_min (exists_spectral H h).choose_spec.choose).choose)
    else (1, 0, Classical.arbitrary ι)

theorem Ex.realKer_good : GoodKer (Ex.realKer (ι := ι)) where
  sq := fun a ha => ⟨Real.sqrt_nonneg a, Real.mul_self_sqrt ha⟩
  hb := fun H => Real.sqrt_nonneg _
  chol := by
    intro M R _ h
    simp only [Ex.realKer] at h
    split_ifs at h with h1
    cases h
    exact h1.choose_spec
  noNan := by
    intro M h
    simp only [Ex.realKer] at h
    split_ifs at h
  solve := by
    intro M b h
    change M *ᵥ (M⁻¹ *ᵥ b) = b
    rw [mulVec_mulVec, mul_nonsing_inv M ((isUnit_iff_isUnit_det M).1 h), one_mulVec]
  eig := by
    intro H h
    simp only [Ex.realKer] at h
    split_ifs at h with h1
    · exact col_ne_zero (exists_spectral H h1).choose_spec.choose_spec.1 _ h
    · have := congrFun h (Classical.arbitrary ι)
      simp at this

/-- The factorisation succeeds for positive definite matrices. -/
theorem Ex.realKer_chol (M : Matrix ι ι ℝ) (hM : ∀ i j, M i j = M j i)
    (hp : ∀ v : ι → ℝ, v ≠ 0 → 0 < v ⬝ᵥ M *ᵥ v) : ∃ R, Ex.realKer.chol M = .ok R := by
  have h := exists_chol M hM hp
  refine ⟨h.choose, ?_⟩
  simp only [Ex.realKer]
  rw [dif_pos h]

end Real

/-- C42 for the exact kernels over the reals. -/
theorem C42_real [Nonempty ι] (g : ι → ℝ) (H : Matrix ι ι ℝ) (Δ εD : ℝ)
    (hH : ∀ i j, H i j = H j i) (hΔ : 0 ≤ Δ) (hε : 0 ≤ εD) :
    √((trms Ex.realKer g H Δ εD).s ⬝ᵥ (trms Ex.realKer g H Δ εD).s) ≤ (1 + εD) * Δ :=
  (C42_step_in_region Ex.realKer_good g H Δ εD hH hΔ hε).1

theorem msLoop_accept {k : MSKer K ι} {g : ι → K} {H R : Matrix ι ι K} {Δ εD : K} (r : ℕ)
    {S : MSState K ι} (hR : k.chol (H + S.lam • (1 : Matrix ι ι K)) = .ok R)
    (h : (msSolve k g R S).lam ≤ epsMS ∧ (msSolve k g R S).norms ≤ (1 + εD) * Δ) :
    msLoop k g H Δ εD (r + 1) S = .inl (msAccept g H Δ εD (msSolve k g R S)) := by
  simp only [msLoop, hR]
  rw [if_pos (Or.inl h)]

/-- The matrix `(2)`. -/
def Ex.two : Matrix (Fin 1) (Fin 1) ℝ := Matrix.of fun _ _ => 2

/-- A regular case: `2*s^2/2 - 2*s` in a ball of radius 5; the first factorisation (`lambda = 0`) gives
the step 1. -/
example : (trms (Ex.realKer (ι := Fin 1)) (fun _ => -2) Ex.two 5 (1 / 1000)).s = (fun _ => 1) ∧
    (trms (Ex.realKer (ι := Fin 1)) (fun _ => -2) Ex.two 5 (1 / 1000)).hard = false := by
  have hg : Ex.realKer.nrm (fun _ : Fin 1 => (-2 : ℝ)) = 2 :=
    GoodKer.nrm_eq Ex.realKer_good _ 2 (by norm_num) (by simp [dotProduct])
  have hb : Ex.realKer.hb Ex.two = 2 := by
    change √(∑ i : Fin 1, ∑ j : Fin 1, (2 : ℝ) ^ 2) = 2
    rw [Real.sqrt_eq_iff_mul_self_eq (by simp) (by norm_num)]
    simp; norm_num
  have hl : (msStart Ex.realKer (fun _ : Fin 1 => (-2 : ℝ)) Ex.two 5).lam = 0 := by
    unfold msStart
    simp only
    rw [hg, hb, if_pos (by norm_num)]
  obtain ⟨R, hR⟩ := Ex.realKer_chol (ι := Fin 1) (Ex.two +
    (0 : ℝ) • (1 : Matrix (Fin 1) (Fin 1) ℝ)) (by
      intro i j
      simp [Ex.two, Matrix.add_apply]) (by
      intro v hv
      have h0 : v 0 ≠ 0 := by
        intro h
        apply hv
        funext i
        rw [Subsingleton.elim i 0]; exact h
      simp only [Ex.two, Matrix.of_apply, zero_smul, add_zero, dotProduct, mulVec, Finset.univ_unique, Fin.default_eq_zero,
        Finset.sum_singleton]
      nlinarith [mul_self_pos.2 h0])
  have hst := msSolve_stat Ex.realKer_good (fun _ : Fin 1 => (-2 : ℝ)) _ R (by
      intro i j
      simp [Ex.two, Matrix.add_apply]) hR
  have hs : Ex.realKer.solve (-R) (Ex.realKer.solve Rᵀ (fun _ : Fin 1 => (-2 : ℝ))) = fun _ => 1 := by
    funext i
    have := congrFun hst.1 0
    simp only [Ex.two, Matrix.of_apply, zero_smul, add_zero, mulVec, dotProduct, Finset.univ_unique, Fin.default_eq_zero,
        Finset.sum_singleton, Pi.neg_apply] at this
    rw [Subsingleton.elim i 0]
    linarith
  have hn : Ex.realKer.nrm (fun _ : Fin 1 => (1 : ℝ)) = 1 :=
    GoodKer.nrm_eq Ex.realKer_good _ 1 (by norm_num) (by simp [dotProduct])
  unfold trms
  rw [if_neg (by norm_num), hg, if_neg (by unfold epsMS; norm_num)]
  rw [msLoop_accept 299 (by rw [hl]; exact hR) (by
    simp only [msSolve, hs, hn, hl]
    exact ⟨by unfold epsMS; positivity, by norm_num⟩)]
  simp only [msAccept, msSolve, hs]
  exact ⟨trivial, trivial⟩

/-! ### NaN entries in a factor -/

/-- A kernel whose second factorisation contains NaN entries. -/
def Ex.nanKer : MSKer ℚ (Fin 2) where
  sq := fun a => (Nat.sqrt a.num.natAbs : ℚ) / Nat.sqrt a.den
  hb := fun _ => 100
  chol := fun M => if M = !![1, 0; 0, 100] then .ok !![1, 0; 0, 10] else .nan
  solve := fun M b => ![b 0 / M 0 0, b 1 / M 1 1]
  eig := fun _ => (1, ![1, 100], 0)

/-- If a factor contains NaN entries (excluded by `GoodKer.noNan`), the step of the previous round is
returned; its norm was too large: here 10 for the radius 1. -/
theorem C42_nan_exit : (trms Ex.nanKer ![10, 0] !![1, 0; 0, 100] 1 (1 / 1000)).s = ![-10, 0] ∧
    (trms Ex.nanKer ![10, 0] !![1, 0; 0, 100] 1 (1 / 1000)).msg = .error4 := by
  decide +kernel

#print axioms C42_step_in_region
#print axioms C42_real
#print axioms C42_nan_exit
#print axioms C61_global_minimiser

end Sqpdfo
