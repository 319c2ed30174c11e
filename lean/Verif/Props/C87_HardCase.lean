import Verif.Props.C42_C61_TRMS
import Mathlib.Algebra.Order.BigOperators.Ring.Finset
import Mathlib.Tactic.Positivity

/-! # C87: the hard case of the Moré-Sorensen solver -/

namespace Sqpdfo
open Matrix
variable {K : Type} [Field K] [LinearOrder K] [IsStrictOrderedRing K]
variable {ι : Type} [Fintype ι] [DecidableEq ι]

/-- `V`, `D`, `m`: eigenvectors (columns), eigenvalues, position of the smallest one. -/
structure Spec.EigOf (H : Matrix ι ι K) (V : Matrix ι ι K) (D : ι → K) (m : ι) : Prop where
  left : Vᵀ * V = 1
  right : V * Vᵀ = 1
  dec : H = V * diagonal D * Vᵀ
  min : ∀ i, D m ≤ D i

/-- The eigenvalue `i` is taken for the smallest one: the distance is less than `1e-10` times the spread. -/
def Spec.NearMin (D : ι → K) (m i : ι) : Prop := ∃ j, D i - D m < 1 / 10 ^ 10 * (D j - D m)

open Spec

instance (D : ι → K) (m : ι) : DecidablePred (NearMin D m) := fun i => by
  unfold NearMin; infer_instance

theorem tinyDiag_iff {D : ι → K} {m : ι} (h : ∀ i, D m ≤ D i) (i : ι) :
    tinyDiag D (D m) i ↔ NearMin D m i := by
  unfold tinyDiag NearMin maxShift
  rw [dif_pos ⟨m, Finset.mem_univ m⟩, abs_of_nonneg (sub_nonneg.2 (h i))]
  have hp : (0 : K) < 1 / 10 ^ 10 := by positivity
  constructor
  · intro hi
    obtain ⟨j, -, hj⟩ := Finset.exists_mem_eq_sup' (⟨m, Finset.mem_univ m⟩ : (Finset.univ : Finset ι).Nonempty)
      (fun i => D i - D m)
    exact ⟨j, by rw [← hj]; exact hi⟩
  · rintro ⟨j, hj⟩
    refine hj.trans_le (mul_le_mul_of_nonneg_left ?_ hp.le)
    exact Finset.le_sup' (fun i => D i - D m) (Finset.mem_univ j)

theorem nearMin_self {D : ι → K} {m : ι} (h : ∀ i, D m ≤ D i) (hne : ∃ i, D i ≠ D m) : NearMin D m m := by
  obtain ⟨i, hi⟩ := hne
  refine ⟨i, ?_⟩
  have : 0 < D i - D m := sub_pos.2 (lt_of_le_of_ne (h i) (Ne.symm hi))
  rw [sub_self]
  positivity

theorem exists_not_nearMin {D : ι → K} {m : ι} (h : ∀ i, D m ≤ D i) : ∃ i, ¬ NearMin D m i := by
  obtain ⟨j, -, hj⟩ := Finset.exists_max_image (Finset.univ : Finset ι) D ⟨m, Finset.mem_univ m⟩
  refine ⟨j, ?_⟩
  rintro ⟨i, hi⟩
  have h1 := hj i (Finset.mem_univ i)
  have h2 := h j
  have : 1 / 10 ^ 10 * (D i - D m) ≤ D i - D m := by
    have h3 : 0 ≤ D i - D m := sub_nonneg.2 (h i)
    have : (1 : K) / 10 ^ 10 ≤ 1 := by rw [div_le_one (by positivity)]; norm_num
    nlinarith
  linarith

theorem not_nearMin_pos {D : ι → K} {m : ι} (h : ∀ i, D m ≤ D i) (hne : ∃ i, D i ≠ D m) {i : ι}
    (hi : ¬ NearMin D m i) : 0 < D i - D m := by
  refine sub_pos.2 (lt_of_le_of_ne (h i) fun he => hi ?_)
  obtain ⟨j, hj⟩ := nearMin_self h hne
  refine ⟨j, ?_⟩
  rw [← he]; exact hj

/-! ### Coordinates with respect to the eigenvectors -/

theorem Spec.EigOf.dot {H V : Matrix ι ι K} {D : ι → K} {m : ι} (he : EigOf H V D m) (a b : ι → K) :
    a ⬝ᵥ b = (Vᵀ *ᵥ a) ⬝ᵥ (Vᵀ *ᵥ b) := by
  rw [dotProduct_mulVec, vecMul_transpose, mulVec_mulVec, he.right, one_mulVec]

theorem Spec.EigOf.apply {H V : Matrix ι ι K} {D : ι → K} {m : ι} (he : EigOf H V D m) (s : ι → K) (i : ι) :
    (Vᵀ *ᵥ (H *ᵥ s)) i = D i * (Vᵀ *ᵥ s) i := by
  rw [he.dec, mulVec_mulVec, ← Matrix.mul_assoc, ← Matrix.mul_assoc, he.left, Matrix.one_mul, ← mulVec_mulVec,
    mulVec_diagonal]

theorem Spec.EigOf.quad {H V : Matrix ι ι K} {D : ι → K} {m : ι} (he : EigOf H V D m) (g s : ι → K) :
    quadVal g H s = ∑ i, ((Vᵀ *ᵥ g) i * (Vᵀ *ᵥ s) i + 1 / 2 * (D i * (Vᵀ *ᵥ s) i ^ 2)) := by
  unfold quadVal
  rw [he.dot g s, he.dot s (H *ᵥ s), Finset.sum_add_distrib, ← Finset.mul_sum]
  unfold dotProduct
  congr 2
  refine Finset.sum_congr rfl fun i _ => ?_
  rw [he.apply]; ring

theorem Spec.EigOf.symm {H V : Matrix ι ι K} {D : ι → K} {m : ι} (he : EigOf H V D m) (i j : ι) :
    H i j = H j i := by
  have : Hᵀ = H := by
    rw [he.dec]
    simp [transpose_mul, Matrix.mul_assoc]
  exact congrFun (congrFun this j) i

theorem Spec.EigOf.back {H V : Matrix ι ι K} {D : ι → K} {m : ι} (he : EigOf H V D m) (y : ι → K) :
    Vᵀ *ᵥ (V *ᵥ y) = y := by
  rw [mulVec_mulVec, he.left, one_mulVec]

theorem Spec.EigOf.col {H V : Matrix ι ι K} {D : ι → K} {m : ι} (he : EigOf H V D m) (j : ι) :
    Vᵀ *ᵥ (fun i => V i j) = Pi.single j 1 := by
  funext i
  have := congrFun (congrFun he.left i) j
  rw [Matrix.mul_apply] at this
  unfold mulVec dotProduct
  rw [this, Matrix.one_apply, Pi.single_apply]

/-- The step that minimises over the other eigenvectors. -/
def Spec.othStep (V : Matrix ι ι K) (D : ι → K) (m : ι) (g : ι → K) (i : ι) : K :=
  if NearMin D m i then 0 else (Vᵀ *ᵥ g) i / (D i - D m)

theorem scri_coord {H V : Matrix ι ι K} {D : ι → K} {m : ι} (he : EigOf H V D m) (hne : ∃ i, D i ≠ D m) (g : ι → K) :
    Vᵀ *ᵥ msScri V D (D m) g = - othStep V D m g := by
  unfold msScri
  obtain ⟨i, hi⟩ := exists_not_nearMin he.min
  rw [if_pos ⟨⟨i, fun h => hi ((tinyDiag_iff he.min i).1 h)⟩,
    ⟨m, (tinyDiag_iff he.min m).2 (nearMin_self he.min hne)⟩⟩, mulVec_neg, he.back]
  congr 1
  funext i
  unfold othStep
  by_cases h : NearMin D m i
  · rw [if_pos h, if_pos ((tinyDiag_iff he.min i).2 h), zero_mul]
  · rw [if_neg h, if_neg (fun h' => h ((tinyDiag_iff he.min i).1 h')), div_eq_inv_mul]

/-- Coordinates of the step of the hard case. -/
theorem hardStep_coord {k : MSKer K ι} (hk : GoodKer k) {H V : Matrix ι ι K} {D : ι → K} {m : ι} (he : EigOf H V D m)
    (hker : k.eig H = (V, D, m)) (hne : ∃ i, D i ≠ D m) (g : ι → K) (Δ : K) (hΔ : 0 ≤ Δ)
    (hin : othStep V D m g ⬝ᵥ othStep V D m g ≤ Δ ^ 2) :
    ∃ τ, 0 ≤ τ ∧ τ ^ 2 = Δ ^ 2 - othStep V D m g ⬝ᵥ othStep V D m g ∧
      Vᵀ *ᵥ msHardStep k g H Δ = - othStep V D m g + τ • Pi.single m 1 := by
  have hsc := scri_coord he hne g
  have hn : msScri V D (D m) g ⬝ᵥ msScri V D (D m) g = othStep V D m g ⬝ᵥ othStep V D m g := by
    rw [he.dot, hsc, neg_dotProduct_neg]
  have hn2 : k.nrm (msScri V D (D m) g) ^ 2 = othStep V D m g ⬝ᵥ othStep V D m g := by
    rw [← hn, ← GoodKer.nrm_sq hk]; ring
  have hle : k.nrm (msScri V D (D m) g) ≤ Δ := by
    refine abs_le_of_sq_le_sq' ?_ hΔ |>.2
    rw [hn2]; exact hin
  have hv : k.nrm (fun i => V i m) = 1 := by
    refine GoodKer.nrm_eq hk _ 1 zero_le_one ?_
    rw [he.dot, he.col]
    simp
  have hb : (fun i => V i m) ⬝ᵥ msScri V D (D m) g = 0 := by
    rw [he.dot, he.col, hsc]
    simp [othStep, nearMin_self he.min hne]
  obtain ⟨q0, q1⟩ := hk.sq (Δ ^ 2 - othStep V D m g ⬝ᵥ othStep V D m g) (sub_nonneg.2 hin)
  refine ⟨_, q0, by rw [pow_two]; exact q1, ?_⟩
  unfold msHardStep
  rw [hker]
  dsimp only
  rw [if_pos hle, hv, hb, mulVec_add, mulVec_smul, he.col, hsc, hn2]
  congr 2
  unfold bigRoot
  simp

theorem hardStep_min {k : MSKer K ι} (hk : GoodKer k) {H V : Matrix ι ι K} {D : ι → K} {m : ι} (he : EigOf H V D m)
    (hker : k.eig H = (V, D, m)) (hne : ∃ i, D i ≠ D m) (hμ : D m ≤ 0) (g : ι → K) (Δ : K) (hΔ : 0 ≤ Δ)
    (hin : othStep V D m g ⬝ᵥ othStep V D m g ≤ Δ ^ 2) :
    msHardStep k g H Δ ⬝ᵥ msHardStep k g H Δ = Δ ^ 2 ∧
    ∀ d, d ⬝ᵥ d ≤ Δ ^ 2 → quadVal g H (msHardStep k g H Δ) ≤ quadVal g H d +
      2 * Δ * k.sq (∑ i with NearMin D m i, (Vᵀ *ᵥ g) i ^ 2) := by
  obtain ⟨τ, τ0, τ2, hc⟩ := hardStep_coord hk he hker hne g Δ hΔ hin
  have hcm : othStep V D m g m = 0 := by simp [othStep, nearMin_self he.min hne]
  have hss : msHardStep k g H Δ ⬝ᵥ msHardStep k g H Δ = Δ ^ 2 := by
    rw [he.dot, hc]
    simp only [add_dotProduct, dotProduct_add, neg_dotProduct_neg, neg_dotProduct, dotProduct_neg,
      smul_dotProduct, dotProduct_smul, single_dotProduct, dotProduct_single, Pi.single_eq_same, smul_eq_mul,
      Pi.add_apply, Pi.neg_apply, Pi.smul_apply, hcm]
    linear_combination τ2
  refine ⟨hss, fun d hd => ?_⟩
  have hss' := hss
  rw [he.dot] at hss' hd
  rw [he.quad, he.quad]
  generalize hy : Vᵀ *ᵥ msHardStep k g H Δ = y at *
  generalize hz : Vᵀ *ᵥ d = z at *
  generalize hγ : Vᵀ *ᵥ g = γ at *
  have hyi : ∀ i, ¬ NearMin D m i → γ i = - ((D i - D m) * y i) := by
    intro i hi
    have hp := not_nearMin_pos he.min hne hi
    have him : i ≠ m := fun h => hi (by rw [h]; exact nearMin_self he.min hne)
    rw [hc]
    simp only [Pi.add_apply, Pi.neg_apply, Pi.smul_apply, Pi.single_eq_of_ne him, smul_zero, add_zero, othStep, if_neg hi,
      hγ]
    field_simp
  have hyt : ∀ i, NearMin D m i → (D i - D m) * y i = 0 := by
    intro i hi
    by_cases him : i = m
    · rw [him, sub_self, zero_mul]
    · rw [hc]
      simp [Pi.single_eq_of_ne him, othStep, if_pos hi]
  -- coordinatewise
  have key : ∑ i with NearMin D m i, γ i * (z i - y i) ≤
      ∑ i, (γ i * z i + 1 / 2 * (D i * z i ^ 2)) - ∑ i, (γ i * y i + 1 / 2 * (D i * y i ^ 2)) := by
    have h1 : ∑ i with NearMin D m i, γ i * (z i - y i) =
        ∑ i, if NearMin D m i then γ i * (z i - y i) else 0 := by rw [Finset.sum_filter]
    have h2 : 0 ≤ 1 / 2 * (D m * (z ⬝ᵥ z - y ⬝ᵥ y)) := by
      have : z ⬝ᵥ z - y ⬝ᵥ y ≤ 0 := by rw [hss']; linarith
      have := mul_nonneg_of_nonpos_of_nonpos hμ this
      linarith
    have h3 : 1 / 2 * (D m * (z ⬝ᵥ z - y ⬝ᵥ y)) = ∑ i, 1 / 2 * (D m * (z i ^ 2 - y i ^ 2)) := by
      unfold dotProduct
      rw [← Finset.sum_sub_distrib, Finset.mul_sum, Finset.mul_sum]
      exact Finset.sum_congr rfl fun i _ => by ring
    rw [h1, ← Finset.sum_sub_distrib]
    refine le_trans (le_add_of_nonneg_right h2) ?_
    rw [h3, ← Finset.sum_add_distrib]
    refine Finset.sum_le_sum fun i _ => ?_
    have hDi : 0 ≤ D i - D m := sub_nonneg.2 (he.min i)
    by_cases hi : NearMin D m i
    · rw [if_pos hi]
      have e := hyt i hi
      have e2 : (D i - D m) * y i ^ 2 = 0 := by rw [pow_two, ← mul_assoc, e, zero_mul]
      have := mul_nonneg hDi (sq_nonneg (z i))
      linarith
    · rw [if_neg hi, hyi i hi]
      have := mul_nonneg hDi (sq_nonneg (z i - y i))
      nlinarith
  -- Cauchy-Schwarz
  obtain ⟨q0, q1⟩ := hk.sq (∑ i with NearMin D m i, γ i ^ 2) (Finset.sum_nonneg fun _ _ => sq_nonneg _)
  have cs := Finset.sum_mul_sq_le_sq_mul_sq (Finset.univ.filter (NearMin D m)) γ (fun i => z i - y i)
  have hw : ∑ i with NearMin D m i, (z i - y i) ^ 2 ≤ (2 * Δ) ^ 2 := by
    calc ∑ i with NearMin D m i, (z i - y i) ^ 2 ≤ ∑ i, (z i - y i) ^ 2 :=
          Finset.sum_le_sum_of_subset_of_nonneg (Finset.filter_subset _ _) fun _ _ _ => sq_nonneg _
      _ ≤ ∑ i, (2 * (z i * z i) + 2 * (y i * y i)) :=
          Finset.sum_le_sum fun i _ => by nlinarith [sq_nonneg (z i + y i)]
      _ = 2 * (z ⬝ᵥ z) + 2 * (y ⬝ᵥ y) := by
          rw [Finset.sum_add_distrib, ← Finset.mul_sum, ← Finset.mul_sum]; rfl
      _ ≤ (2 * Δ) ^ 2 := by rw [hss']; linarith
  have hab : (∑ i with NearMin D m i, γ i * (z i - y i)) ^ 2 ≤
      (2 * Δ * k.sq (∑ i with NearMin D m i, γ i ^ 2)) ^ 2 := by
    refine cs.trans ?_
    rw [mul_pow, pow_two (k.sq _), q1, mul_comm]
    exact mul_le_mul_of_nonneg_right hw (Finset.sum_nonneg fun _ _ => sq_nonneg _)
  have := (abs_le_of_sq_le_sq' hab (by positivity)).1
  linarith

/-! ### The loop -/

theorem msLoop_never {k : MSKer K ι} (hk : GoodKer k) (g : ι → K) (H : Matrix ι ι K) (Δ εD : K)
    (hno : ∀ (S : MSState K ι) (R : Matrix ι ι K), k.chol (H + S.lam • (1 : Matrix ι ι K)) = .ok R →
      1 / 10 ^ 12 < S.lam ∧ k.nrm (k.solve (-R) (k.solve Rᵀ g)) < (1 - εD) * Δ) (r : ℕ) :
    ∀ S : MSState K ι, ∃ T, msLoop k g H Δ εD r S = .inr T := by
  induction r with
  | zero => exact fun S => ⟨S, rfl⟩
  | succ r ih =>
    intro S
    unfold msLoop
    cases hc : k.chol (H + S.lam • (1 : Matrix ι ι K)) with
    | nan => exact absurd hc (hk.noNan _)
    | fail =>
      dsimp only
      split_ifs
      · exact ⟨_, rfl⟩
      · exact ih _
    | ok R =>
      dsimp only
      obtain ⟨h1, h2⟩ := hno S R hc
      rw [if_neg]
      · split_ifs
        · exact ⟨_, rfl⟩
        · exact ih _
      · rintro (⟨h, -⟩ | ⟨h, -⟩)
        · exact absurd h (not_le.2 h1)
        · exact absurd h (not_le.2 h2)

/-- **C87, detection.** Let the smallest eigenvalue be below `-1e-12`, `g` orthogonal to the eigenvectors for the smallest
eigenvalues, and the step over the other eigenvectors well within the region (the hard case).  Then the solver
takes the branch for the hard case. -/
theorem C87_detected {k : MSKer K ι} (hk : GoodKer k) (g : ι → K) (H : Matrix ι ι K) (Δ εD : K) (V : Matrix ι ι K)
    (D : ι → K) (m : ι) (he : EigOf H V D m) (hΔ : 0 < Δ) (hε : εD ≤ 1)
    (hg : 1 / 10 ^ 12 ≤ g ⬝ᵥ g) (hne : ∃ i, D i ≠ D m) (hμ : D m < - (1 / 10 ^ 12))
    (hort : ∀ i, NearMin D m i → (Vᵀ *ᵥ g) i = 0)
    (hin : othStep V D m g ⬝ᵥ othStep V D m g < ((1 - εD) * Δ) ^ 2) :
    (trms k g H Δ εD).hard = true := by
  have hsq : k.nrm g ^ 2 = g ⬝ᵥ g := by rw [← GoodKer.nrm_sq hk]; ring
  have hno : ∀ (S : MSState K ι) (R : Matrix ι ι K), k.chol (H + S.lam • (1 : Matrix ι ι K)) = .ok R →
      1 / 10 ^ 12 < S.lam ∧ k.nrm (k.solve (-R) (k.solve Rᵀ g)) < (1 - εD) * Δ := by
    intro S R hR
    have hsym := sym_shift he.symm S.lam
    obtain ⟨hs, hp⟩ := msSolve_stat hk g _ R hsym hR
    have hlam : 0 < D m + S.lam := by
      obtain ⟨c1, c2⟩ := hk.chol _ R hsym hR
      -- the eigenvector is not in the kernel of the factor
      set v : ι → K := fun i => V i m with hv
      have hvv : v ⬝ᵥ v = 1 := by rw [he.dot, he.col]; simp
      have h1 : v ⬝ᵥ (H + S.lam • (1 : Matrix ι ι K)) *ᵥ v = D m + S.lam := by
        rw [add_mulVec, smul_mulVec, one_mulVec, dotProduct_add, dotProduct_smul, hvv, smul_eq_mul, mul_one]
        congr 1
        rw [he.dot, he.col m, single_dotProduct, he.apply, he.col m]
        simp
      have h2 : v ⬝ᵥ (H + S.lam • (1 : Matrix ι ι K)) *ᵥ v = (R *ᵥ v) ⬝ᵥ (R *ᵥ v) := by
        rw [← c1, ← mulVec_mulVec, dotProduct_mulVec, vecMul_transpose]
      have h3 : R *ᵥ v ≠ 0 := by
        intro h0
        obtain ⟨u, rfl⟩ := c2
        have : (↑u⁻¹ : Matrix ι ι K) *ᵥ ((u : Matrix ι ι K) *ᵥ v) = v := by
          rw [mulVec_mulVec, Units.inv_mul, one_mulVec]
        rw [h0, mulVec_zero] at this
        rw [← this] at hvv
        simp at hvv
      rw [← h1, h2]
      exact ms_dot_self_pos _ h3
    refine ⟨by linarith, ?_⟩
    generalize k.solve (-R) (k.solve Rᵀ g) = s at *
    have hco : ∀ i, (D i + S.lam) * (Vᵀ *ᵥ s) i = - (Vᵀ *ᵥ g) i := by
      intro i
      have := congrFun (congrArg (fun w => Vᵀ *ᵥ w) hs) i
      simp only [add_mulVec, smul_mulVec, one_mulVec, mulVec_add, mulVec_smul, Pi.add_apply, Pi.smul_apply,
        he.apply, mulVec_neg, Pi.neg_apply, smul_eq_mul] at this
      linarith
    have hle : s ⬝ᵥ s ≤ othStep V D m g ⬝ᵥ othStep V D m g := by
      rw [he.dot]
      refine Finset.sum_le_sum fun i _ => ?_
      have hDi := he.min i
      have hpi : 0 < D i + S.lam := by linarith
      by_cases hi : NearMin D m i
      · have h0 : (Vᵀ *ᵥ s) i = 0 := by
          have := hco i
          rw [hort i hi, neg_zero] at this
          exact (mul_eq_zero.1 this).resolve_left hpi.ne'
        rw [h0, zero_mul]
        exact mul_self_nonneg _
      · have hd := not_nearMin_pos he.min hne hi
        have e : othStep V D m g i = - ((D i + S.lam) * (Vᵀ *ᵥ s) i) / (D i - D m) := by
          unfold othStep
          rw [if_neg hi, hco i, neg_neg]
        rw [e, ← abs_mul_abs_self, ← abs_mul_abs_self (_ / _)]
        have : |(Vᵀ *ᵥ s) i| ≤ |(- ((D i + S.lam) * (Vᵀ *ᵥ s) i)) / (D i - D m)| := by
          rw [abs_div, abs_neg, abs_mul, abs_of_pos hpi, abs_of_pos hd, le_div_iff₀ hd, mul_comm]
          exact mul_le_mul_of_nonneg_right (by linarith) (abs_nonneg _)
        exact mul_self_le_mul_self (abs_nonneg _) this
    refine abs_lt_of_sq_lt_sq' ?_ (mul_nonneg (by linarith) hΔ.le) |>.2
    have : k.nrm s ^ 2 = s ⬝ᵥ s := by rw [← GoodKer.nrm_sq hk]; ring
    rw [this]
    exact hle.trans_lt hin
  unfold trms
  rw [if_neg hΔ.ne', if_neg (by rw [hsq]; exact not_lt.2 hg)]
  obtain ⟨T, hT⟩ := msLoop_never hk g H Δ εD hno 300 (msStart k g H Δ)
  rw [hT]
  rfl

/-- **C87, step.** In the branch for the hard case (eigenvalues exact, smallest eigenvalue not positive, matrix not a multiple of
the identity, step over the other eigenvectors within the region) the computed step `s` is on the sphere,
and its value exceeds the minimum over the region by at most twice the radius times the norm of the part of `g` that was
ignored.  Multiplier, norm, value, gradient and message are those of `s`.  The returned
step is `s`, or zero if the value is at most `1e-15`. -/
theorem C87_hard_step {k : MSKer K ι} (hk : GoodKer k) (g : ι → K) (H : Matrix ι ι K) (Δ εD : K) (V : Matrix ι ι K)
    (D : ι → K) (m : ι) (he : EigOf H V D m) (hker : k.eig H = (V, D, m)) (hΔ : 0 < Δ) (hε : 0 ≤ εD)
    (hne : ∃ i, D i ≠ D m) (hμ : D m ≤ 0)
    (hin : othStep V D m g ⬝ᵥ othStep V D m g ≤ Δ ^ 2) (hard : (trms k g H Δ εD).hard = true) :
    ∃ s, s ⬝ᵥ s = Δ ^ 2 ∧
      (∀ d, d ⬝ᵥ d ≤ Δ ^ 2 → quadVal g H s ≤ quadVal g H d +
        2 * Δ * k.sq (∑ i with NearMin D m i, (Vᵀ *ᵥ g) i ^ 2)) ∧
      ((trms k g H Δ εD).s = s ∨ (trms k g H Δ εD).s = 0 ∧ |quadVal g H s| ≤ 1 / 10 ^ 15) ∧
      (trms k g H Δ εD).lam = - D m ∧ (trms k g H Δ εD).norms = Δ ∧
      (trms k g H Δ εD).value = quadVal g H s ∧ (trms k g H Δ εD).gplus = g + H *ᵥ s ∧
      (trms k g H Δ εD).msg = .boundary := by
  obtain ⟨S, hS⟩ : ∃ S, trms k g H Δ εD = msHard k g H Δ εD S := by
    unfold trms at hard ⊢
    rw [if_neg hΔ.ne'] at hard ⊢
    split_ifs at hard ⊢ with h2
    · cases hard
    · cases hr : msLoop k g H Δ εD 300 (msStart k g H Δ) with
      | inl o =>
        rw [hr] at hard
        obtain ⟨i1, -⟩ := msLoop_spec hk g H Δ εD he.symm 300 _ (msStart_inv hk g H Δ)
        have := (i1 o hr).1.hard
        dsimp only at hard
        rw [this] at hard
        cases hard
      | inr S => exact ⟨S, rfl⟩
  obtain ⟨h1, h2⟩ := hardStep_min hk he hker hne hμ g Δ hΔ.le hin
  have hn : k.nrm (msHardStep k g H Δ) = Δ := GoodKer.nrm_eq hk _ Δ hΔ.le (by rw [h1]; ring)
  refine ⟨msHardStep k g H Δ, h1, h2, ?_⟩
  rw [hS]
  unfold msHard
  rw [hker]
  dsimp only
  refine ⟨?_, rfl, hn, rfl, rfl, ?_⟩
  · split_ifs with h
    · exact Or.inr ⟨rfl, h⟩
    · exact Or.inl rfl
  · rw [hn, if_neg]
    have := mul_nonneg hε hΔ.le
    intro h
    linarith

/-- **C87.** In the hard case the solver returns a global minimiser of the model in the region, up to `1e-15`. -/
theorem C87_hard_case {k : MSKer K ι} (hk : GoodKer k) (g : ι → K) (H : Matrix ι ι K) (Δ εD : K) (V : Matrix ι ι K)
    (D : ι → K) (m : ι) (he : EigOf H V D m) (hker : k.eig H = (V, D, m)) (hΔ : 0 < Δ) (hε0 : 0 ≤ εD) (hε : εD ≤ 1)
    (hg : 1 / 10 ^ 12 ≤ g ⬝ᵥ g) (hne : ∃ i, D i ≠ D m) (hμ : D m < - (1 / 10 ^ 12))
    (hort : ∀ i, NearMin D m i → (Vᵀ *ᵥ g) i = 0)
    (hin : othStep V D m g ⬝ᵥ othStep V D m g < ((1 - εD) * Δ) ^ 2) :
    (trms k g H Δ εD).s ⬝ᵥ (trms k g H Δ εD).s ≤ Δ ^ 2 ∧
    ∀ d, d ⬝ᵥ d ≤ Δ ^ 2 → quadVal g H (trms k g H Δ εD).s ≤ quadVal g H d + 1 / 10 ^ 15 := by
  have hard := C87_detected hk g H Δ εD V D m he hΔ hε hg hne hμ hort hin
  have hp : (0 : K) < 1 / 10 ^ 12 := by positivity
  have hin' : othStep V D m g ⬝ᵥ othStep V D m g ≤ Δ ^ 2 := by
    refine hin.le.trans (pow_le_pow_left₀ (mul_nonneg (by linarith) hΔ.le) ?_ 2)
    have := mul_nonneg hε0 hΔ.le
    linarith
  obtain ⟨s, h1, h2, h3, -⟩ := C87_hard_step hk g H Δ εD V D m he hker hΔ hε0 hne (by linarith) hin' hard
  have hz : ∑ i with NearMin D m i, (Vᵀ *ᵥ g) i ^ 2 = 0 :=
    Finset.sum_eq_zero fun i hi => by rw [hort i (Finset.mem_filter.1 hi).2]; ring
  have hs0 : k.sq 0 = 0 := by
    have := (hk.sq 0 le_rfl).2
    exact mul_self_eq_zero.1 this
  rw [hz, hs0, mul_zero] at h2
  have hq : (0 : K) ≤ 1 / 10 ^ 15 := by positivity
  rcases h3 with h3 | ⟨h3, h4⟩
  · rw [h3]
    exact ⟨h1.le, fun d hd => by linarith [h2 d hd]⟩
  · rw [h3]
    refine ⟨by rw [zero_dotProduct]; positivity, fun d hd => ?_⟩
    have h5 := (abs_le.1 h4).1
    have h6 : quadVal g H 0 = 0 := by unfold quadVal; simp
    linarith [h2 d hd]

/-! ### A concrete case -/

open Classical in
/-- Exact kernels; the eigenvectors of diagonal matrices of order 2 with `H 0 0 ≤ H 1 1` are the unit vectors. -/
noncomputable def Ex.hardKer : MSKer ℝ (Fin 2) :=
  { Ex.realKer with eig := fun H => if ∀ i j, H i j = H j i then (1, fun i => H i i, 0) else (1, 0, 0) }

theorem Ex.hardKer_good : GoodKer Ex.hardKer where
  sq := (Ex.realKer_good (ι := Fin 2)).sq
  hb := (Ex.realKer_good (ι := Fin 2)).hb
  chol := (Ex.realKer_good (ι := Fin 2)).chol
  noNan := (Ex.realKer_good (ι := Fin 2)).noNan
  solve := (Ex.realKer_good (ι := Fin 2)).solve
  eig := by
    intro H h
    have := congrFun h 0
    simp only [Ex.hardKer] at this
    split_ifs at this <;> simp at this

/-- The model `-x^2/2 + y^2/2 + y` in the unit disc: hard case, minimum `-3/4` at `(±√3/2, -1/2)`. -/
example : ∀ d : Fin 2 → ℝ, d ⬝ᵥ d ≤ 1 ^ 2 →
    quadVal ![0, 1] !![-1, 0; 0, 1] (trms Ex.hardKer ![0, 1] !![-1, 0; 0, 1] 1 (1 / 1000)).s ≤
      quadVal ![0, 1] !![-1, 0; 0, 1] d + 1 / 10 ^ 15 := by
  have hker : Ex.hardKer.eig !![-1, 0; 0, 1] = (1, ![-1, 1], 0) := by
    simp only [Ex.hardKer]
    rw [if_pos (by intro i j; fin_cases i <;> fin_cases j <;> rfl)]
    refine Prod.ext rfl (Prod.ext ?_ rfl)
    funext i
    fin_cases i <;> rfl
  have n0 : NearMin (![-1, 1] : Fin 2 → ℝ) 0 0 := ⟨1, by norm_num⟩
  have n1 : ¬ NearMin (![-1, 1] : Fin 2 → ℝ) 0 1 := by
    rintro ⟨j, hj⟩
    fin_cases j <;> norm_num at hj
  refine (C87_hard_case Ex.hardKer_good _ _ 1 (1 / 1000) 1 ![-1, 1] 0 ⟨by simp, by simp, ?_, ?_⟩ hker one_pos
    (by norm_num) (by norm_num) ?_ ⟨1, by norm_num⟩ (by norm_num) ?_ ?_).2
  · ext i j
    fin_cases i <;> fin_cases j <;> simp
  · intro i
    fin_cases i <;> norm_num
  · simp [dotProduct, Fin.sum_univ_two]; norm_num
  · intro i hi
    fin_cases i
    · simp
    · exact absurd hi n1
  · simp [dotProduct, Fin.sum_univ_two, othStep, n0, n1]; norm_num

#print axioms C87_detected
#print axioms C87_hard_step
#print axioms C87_hard_case

end Sqpdfo
