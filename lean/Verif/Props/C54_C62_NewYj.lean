import Verif.Model.NewYj
import Verif.Props.C36_C37_Interp
import Verif.Props.C42_C61_TRMS

/-! # C54, C62: improvement points and poisedness -/

set_option linter.unusedSectionVars false

namespace Sqpdfo
open Matrix Finset Spec
variable {n p q : ℕ}

/-- The reported value of the trust-region solver is the model value of its step, or both are
negligible. -/
theorem trms_value {k : MSKer ℝ (Fin n)} (hk : GoodKer k) (g : Fin n → ℝ)
    (H : Matrix (Fin n) (Fin n) ℝ) (Δ εD : ℝ) (hH : ∀ i j, H i j = H j i) :
    |(trms k g H Δ εD).value - (g ⬝ᵥ (trms k g H Δ εD).s +
      1 / 2 * ((trms k g H Δ εD).s ⬝ᵥ H *ᵥ (trms k g H Δ εD).s))| ≤ 1 / 10 ^ 15 := by
  have h0 : ∀ m, |(msZero k g m).value - (g ⬝ᵥ (msZero k g m).s +
      1 / 2 * ((msZero k g m).s ⬝ᵥ H *ᵥ (msZero k g m).s))| ≤ 1 / 10 ^ 15 := by
    intro m
    simp [msZero]
  unfold trms
  split_ifs with h1 h2
  · exact h0 _
  · exact h0 _
  · obtain ⟨i1, i2⟩ := msLoop_spec hk g H Δ εD hH 300 _ (msStart_inv hk g H Δ)
    cases hr : msLoop k g H Δ εD 300 (msStart k g H Δ) with
    | inl o =>
      simp only
      rw [(i1 o hr).1.value]
      simp
    | inr S =>
      simp only [msHard]
      split_ifs with h
      · simpa using h
      · simp [modelVal]

/-- Both solves in the scaled space, in terms of the polynomial in the original variables. -/
theorem scaled_model (L scale : Fin q → ℝ) (xbase y0 : Fin n → ℝ) (shift : Bool) (σ : ℝ)
    (h1 : n + 1 ≤ q) (h2 : q ≤ (n + 1) * (n + 2) / 2) (hn : 1 ≤ n) (hσ : 0 < σ)
    (hs : shift = true → ScaleOf n σ scale ∧ xbase = y0) (t : Fin n → ℝ) :
    evalP L (y0 + (1 / (if shift then ext scale 1 else 1 : ℝ)) • t) xbase scale shift =
      evalP L y0 xbase scale shift +
      (gradP L (if shift then 0 else y0) xbase scale false ⬝ᵥ t +
        1 / 2 * (t ⬝ᵥ hessP n L scale false *ᵥ t)) := by
  cases shift with
  | false =>
    have := C34_taylor L scale y0 t xbase false σ (by omega) h2 (by simp)
    simp only [Bool.false_eq_true, if_false, div_one, one_smul]
    rw [this]; ring
  | true =>
    obtain ⟨hs, hb⟩ := hs rfl
    have hσ1 : ext scale 1 = σ := by
      unfold ext
      rw [dif_pos (by omega), hs]
      simp; omega
    have e1 := (C53_chain_rule L scale (y0 + (1 / σ) • t) xbase σ hs (by omega) hn).1
    have e2 := (C53_chain_rule L scale y0 xbase σ hs (by omega) hn).1
    have v1 : (fun i => ((y0 + (1 / σ) • t) i - xbase i) * σ) = 0 + t := by
      funext i
      rw [hb]
      simp only [Pi.add_apply, Pi.smul_apply, smul_eq_mul, Pi.zero_apply]
      field_simp
      ring
    have v2 : (fun i => (y0 i - xbase i) * σ) = 0 := by
      funext i
      rw [hb]; simp
    have e3 := C34_taylor L scale 0 t 0 false σ (by omega) h2 (by simp)
    have e4 : gradP L 0 0 scale false = gradP L 0 xbase scale false := by
      unfold gradP; simp
    simp only [if_true]
    rw [hσ1, e1, e2, v1, v2, e3, e4]
    ring

theorem neg_symm {H : Matrix (Fin n) (Fin n) ℝ} (hH : ∀ i j, H i j = H j i) :
    ∀ a b, (-H) a b = (-H) b a := by
  intro a b
  rw [Matrix.neg_apply, Matrix.neg_apply, hH]

/-- The model of the opposite polynomial. -/
theorem neg_model (g s : Fin n → ℝ) (H : Matrix (Fin n) (Fin n) ℝ) :
    (-g) ⬝ᵥ s + 1 / 2 * (s ⬝ᵥ (-H) *ᵥ s) = -(g ⬝ᵥ s + 1 / 2 * (s ⬝ᵥ H *ᵥ s)) := by
  rw [neg_dotProduct, neg_mulVec, dotProduct_neg]; ring

/-- Length of a step in the scaled space. -/
theorem scaled_length {k : MSKer ℝ (Fin n)} (hk : GoodKer k) (g : Fin n → ℝ)
    (H : Matrix (Fin n) (Fin n) ℝ) (hH : ∀ i j, H i j = H j i) (y0 : Fin n → ℝ) {σ Δ εL : ℝ}
    (hσ : 0 < σ) (hΔ : 0 ≤ Δ) (hε : 0 ≤ εL) :
    enorm2 (y0 + (1 / σ) • (trms k g H (Δ * σ) εL).s - y0) ≤ (1 + εL) * Δ := by
  have h := (C42_step_in_region hk g H (Δ * σ) εL hH (mul_nonneg hΔ hσ.le) hε).1
  have h2 : k.nrm (trms k g H (Δ * σ) εL).s = enorm2 (trms k g H (Δ * σ) εL).s :=
    GoodKer.nrm_eq hk _ _ (enorm2_nonneg _) (by
      unfold enorm2
      rw [Real.mul_self_sqrt (ms_dot_self_nonneg _)])
  rw [add_sub_cancel_left, enorm2_smul _ (by positivity), ← h2]
  rw [div_mul_eq_mul_div, one_mul, div_le_iff₀ hσ]
  linarith

/-- What is needed of the frame. -/
structure Spec.FrameOk (L scale : Fin q → ℝ) (xbase y0 : Fin n → ℝ) (shift : Bool) (σ : ℝ) : Prop where
  hn : 1 ≤ n
  h1 : n + 1 ≤ q
  h2 : q ≤ (n + 1) * (n + 2) / 2
  hσ : 0 < σ
  hc : (if shift then ext scale 1 else 1 : ℝ) = σ
  hs : shift = true → ScaleOf n σ scale ∧ xbase = y0
  zero : evalP L y0 xbase scale shift = 0

theorem newPoint_spec {k : MSKer ℝ (Fin n)} (hk : GoodKer k) {L scale : Fin q → ℝ}
    {xbase y0 : Fin n → ℝ} {shift : Bool} {σ : ℝ} (F : FrameOk L scale xbase y0 shift σ) {Δ εL : ℝ}
    (hΔ : 0 ≤ Δ) (hε : 0 ≤ εL) :
    enorm2 ((newPoint k L y0 Δ εL xbase scale shift).y - y0) ≤ (1 + εL) * Δ ∧
    abs ((newPoint k L y0 Δ εL xbase scale shift).imp -
      |evalP L (newPoint k L y0 Δ εL xbase scale shift).y xbase scale shift|) ≤ 1 / 10 ^ 15 := by
  have hmod := scaled_model L scale xbase y0 shift σ F.h1 F.h2 F.hn F.hσ F.hs
  have hH := (C35_shapes L scale false y0).2.1
  have hH' := neg_symm hH
  unfold newPoint
  simp only [F.zero, zero_add, F.hc] at hmod ⊢
  generalize gradP L (if shift then 0 else y0) xbase scale false = g at hmod ⊢
  split_ifs with h
  · refine ⟨scaled_length hk _ _ hH' y0 F.hσ hΔ hε, ?_⟩
    have hv := trms_value hk (-g) _ (Δ * σ) εL hH'
    rw [neg_model, ← hmod] at hv
    simp only
    refine le_trans ?_ hv
    rw [← abs_neg (evalP _ _ _ _ _)]
    exact abs_abs_sub_abs_le _ _
  · refine ⟨scaled_length hk _ _ hH y0 F.hσ hΔ hε, ?_⟩
    have hv := trms_value hk g _ (Δ * σ) εL hH
    rw [← hmod] at hv
    simp only
    exact le_trans (abs_abs_sub_abs_le _ _) hv

/-- C62 for one polynomial.  Unless the gradient is below `1e-6` or a pseudo-hard case occurs, no point
of the ball gives a larger absolute value of the polynomial, up to the tolerance of the solver. -/
theorem newPoint_max {k : MSKer ℝ (Fin n)} (hk : GoodKer k) {L scale : Fin q → ℝ}
    {xbase y0 : Fin n → ℝ} {shift : Bool} {σ : ℝ} (F : FrameOk L scale xbase y0 shift σ) {Δ εL : ℝ}
    (hΔ : 0 < Δ) (hε : 0 ≤ εL) (hε1 : εL ≤ 1) {g : Fin n → ℝ} {H : Matrix (Fin n) (Fin n) ℝ}
    (hg : gradP L (if shift then 0 else y0) xbase scale false = g) (hH : hessP n L scale false = H)
    (hgn : 1 / 10 ^ 12 ≤ g ⬝ᵥ g) (hp : (trms k g H (Δ * σ) εL).hard = false)
    (hm : (trms k (-g) (-H) (Δ * σ) εL).hard = false) (y : Fin n → ℝ) (hy : enorm2 (y - y0) ≤ Δ) :
    |evalP L y xbase scale shift| ≤ (newPoint k L y0 Δ εL xbase scale shift).imp +
      (Δ * σ) ^ 2 * max (1 / 10 ^ 12 / 2) (εL * max (trms k g H (Δ * σ) εL).lam
        (trms k (-g) (-H) (Δ * σ) εL).lam) := by
  have hmod := scaled_model L scale xbase y0 shift σ F.h1 F.h2 F.hn F.hσ F.hs (σ • (y - y0))
  have hs := (C35_shapes L scale false y0).2.1
  have hΔσ : 0 < Δ * σ := mul_pos hΔ F.hσ
  rw [hH] at hs
  have hs' := neg_symm hs
  rw [F.zero, zero_add, F.hc, smul_smul, one_div, inv_mul_cancel₀ F.hσ.ne', one_smul,
    add_sub_cancel, hg, hH] at hmod
  have hd : (σ • (y - y0)) ⬝ᵥ (σ • (y - y0)) ≤ (Δ * σ) ^ 2 := by
    rw [smul_dotProduct, dotProduct_smul, smul_eq_mul, smul_eq_mul]
    have h1 : (y - y0) ⬝ᵥ (y - y0) ≤ Δ ^ 2 := by
      have h2 : enorm2 (y - y0) ^ 2 = (y - y0) ⬝ᵥ (y - y0) := by
        unfold enorm2
        rw [Real.sq_sqrt (ms_dot_self_nonneg _)]
      rw [← h2]
      exact pow_le_pow_left₀ (enorm2_nonneg _) hy 2
    nlinarith [mul_self_nonneg σ]
  obtain ⟨p1, p2, p3⟩ := C61_global_minimiser hk g H (Δ * σ) εL hs hΔσ hε hε1 hgn hp
  obtain ⟨m1, m2, m3⟩ := C61_global_minimiser hk (-g) (-H) (Δ * σ) εL hs' hΔσ hε hε1
    (by rw [neg_dotProduct, dotProduct_neg, neg_neg]; exact hgn) hm
  have p1 := p1 _ hd
  have m1 := m1 _ hd
  have pv := p3.value
  have mv := m3.value
  unfold quadVal at p1 p2 m1 m2
  rw [← pv] at p1 p2
  rw [← mv] at m1 m2
  rw [neg_model, ← hmod] at m1
  rw [← hmod] at p1
  have himp : -(trms k g H (Δ * σ) εL).value ≤ (newPoint k L y0 Δ εL xbase scale shift).imp ∧
      -(trms k (-g) (-H) (Δ * σ) εL).value ≤ (newPoint k L y0 Δ εL xbase scale shift).imp := by
    unfold newPoint
    simp only [F.hc, hg, hH]
    split_ifs with h
    · simp only
      rw [abs_of_nonpos m2]
      exact ⟨by linarith, le_refl _⟩
    · simp only
      rw [abs_of_nonpos p2]
      exact ⟨le_refl _, by linarith⟩
  have hsq : 0 ≤ (Δ * σ) ^ 2 := sq_nonneg _
  have t1 : (Δ * σ) ^ 2 * max (1 / 10 ^ 12 / 2) (εL * (trms k g H (Δ * σ) εL).lam) ≤
      (Δ * σ) ^ 2 * max (1 / 10 ^ 12 / 2) (εL * max (trms k g H (Δ * σ) εL).lam
        (trms k (-g) (-H) (Δ * σ) εL).lam) :=
    mul_le_mul_of_nonneg_left (max_le_max_left _ (mul_le_mul_of_nonneg_left (le_max_left _ _) hε)) hsq
  have t2 : (Δ * σ) ^ 2 * max (1 / 10 ^ 12 / 2) (εL * (trms k (-g) (-H) (Δ * σ) εL).lam) ≤
      (Δ * σ) ^ 2 * max (1 / 10 ^ 12 / 2) (εL * max (trms k g H (Δ * σ) εL).lam
        (trms k (-g) (-H) (Δ * σ) εL).lam) :=
    mul_le_mul_of_nonneg_left (max_le_max_left _ (mul_le_mul_of_nonneg_left (le_max_right _ _) hε)) hsq
  rw [abs_le]
  constructor <;> linarith [himp.1, himp.2]

variable (Y : Fin (p + 1) → Fin n → ℝ) (shift : Bool)
  (Q : Matrix (Fin q) (Fin (p + 1)) ℝ) (R : Matrix (Fin (p + 1)) (Fin (p + 1)) ℝ)

/-- Two points of a poised set differ. -/
theorem exists_ne_of_poised (hp : Poised (zMat q (buildFrame q Y shift).pts)) (j : Fin (p + 1))
    (hj : j ≠ 0) : Y j ≠ Y 0 := by
  intro h
  have hpt : (buildFrame q Y shift).pts j = (buildFrame q Y shift).pts 0 := by
    unfold buildFrame
    split_ifs
    · funext i; simp [h]
    · exact h
  have := hp (Pi.single j 1 - Pi.single 0 1) (by
    rw [mulVec_sub, mulVec_single_one, mulVec_single_one]
    funext r
    simp [zMat, hpt])
  have := congrFun this j
  simp [hj] at this

/-- The scale factor and the frame for a poised set with at least two points. -/
theorem frame_facts (hn : 1 ≤ n) (hq : n + 1 ≤ q)
    (hp : Poised (zMat q (buildFrame q Y shift).pts)) (j : Fin (p + 1)) (hj : j ≠ 0) :
    ∃ σ : ℝ, 0 < σ ∧ (if shift then ext (buildFrame q Y shift).scale 1 else 1 : ℝ) = σ ∧
      (shift = true → ScaleOf n σ (buildFrame q Y shift).scale ∧
        (buildFrame q Y shift).xbase = Y 0) := by
  cases shift with
  | false => exact ⟨1, one_pos, by simp, by simp⟩
  | true =>
    obtain ⟨-, -, -, ⟨σ, h1, h2, -⟩, h3⟩ :=
      C53_shift Y ⟨j, exists_ne_of_poised Y true hp j hj⟩ hq hn
    refine ⟨σ, h1, ?_, fun _ => ⟨h2, h3⟩⟩
    simp only [if_true]
    unfold ext
    rw [dif_pos (by omega), h2]
    simp; omega

/-- C54.  Nothing is proposed for the base point.  For every other point of a poised set the
proposal lies within `(1 + eps_L)*Delta` of the base point, and the reported improvement is the
absolute value of the Lagrange polynomial of the point at the proposal, up to `1e-15`. -/
theorem C54_new_point {k : MSKer ℝ (Fin n)} (hk : GoodKer k) (hn : 1 ≤ n) (hq : n + 1 ≤ q)
    (hq2 : q ≤ (n + 1) * (n + 2) / 2) (hQR : IsQR Q R (zMat q (buildFrame q Y shift).pts))
    (hp : Poised (zMat q (buildFrame q Y shift).pts)) (Δ εL : ℝ) (hΔ : 0 ≤ Δ) (hε : 0 ≤ εL) :
    findNewYj k Q R Y 0 Δ εL (buildFrame q Y shift).xbase (buildFrame q Y shift).scale shift =
      some ⟨0, 0⟩ ∧
    ∀ j ≠ 0, ∃ L y imp, computeLj Q R j = some L ∧
      findNewYj k Q R Y j Δ εL (buildFrame q Y shift).xbase (buildFrame q Y shift).scale shift =
        some ⟨y, imp⟩ ∧
      enorm2 (y - Y 0) ≤ (1 + εL) * Δ ∧
      abs (imp - |evalP L y (buildFrame q Y shift).xbase (buildFrame q Y shift).scale shift|) ≤
        1 / 10 ^ 15 := by
  refine ⟨by unfold findNewYj; simp, fun j hj => ?_⟩
  obtain ⟨L, hL, hcard, -⟩ := C37_lagrange Y shift Q R hn hq hq2 hQR hp
  obtain ⟨σ, hσ, hc, hs⟩ := frame_facts Y shift hn hq hp j hj
  have hj1 : ¬ (j : ℕ) < 1 := by
    intro h
    exact hj (Fin.ext (by simpa using h))
  have h0 : evalP (L j) (Y 0) (buildFrame q Y shift).xbase (buildFrame q Y shift).scale shift = 0 := by
    rw [hcard 0 j, if_neg (fun h => hj h.symm)]
  refine ⟨L j, _, _, hL j, ?_, newPoint_spec hk ⟨hn, hq, hq2, hσ, hc, hs, h0⟩ hΔ hε⟩
  unfold findNewYj
  rw [if_neg hj1, hL j]
  rfl

/-- A QR factorisation exists for every poised set. -/
theorem exists_qr (Z : Matrix (Fin q) (Fin p) ℝ) (hp : Poised Z) : ∃ Q R, IsQR Q R Z := by
  obtain ⟨R, hR, hu⟩ := exists_chol (Zᵀ * Z) (fun i j => by
      rw [Matrix.mul_apply, Matrix.mul_apply]
      exact sum_congr rfl fun r _ => by rw [transpose_apply, transpose_apply, mul_comm])
    (fun v hv => by
      rw [← mulVec_mulVec, dotProduct_mulVec, ← mulVec_transpose, transpose_transpose]
      exact ms_dot_self_pos _ fun h => hv (hp v h))
  have hd := (isUnit_iff_isUnit_det R).1 hu
  refine ⟨Z * R⁻¹, R, ?_, ?_⟩
  · rw [transpose_mul, Matrix.mul_assoc, ← Matrix.mul_assoc Zᵀ, ← hR, Matrix.mul_assoc Rᵀ,
      mul_nonsing_inv R hd, Matrix.mul_one, ← transpose_mul, mul_nonsing_inv R hd, transpose_one]
  · rw [Matrix.mul_assoc, nonsing_inv_mul R hd, Matrix.mul_one]

/-! ### Poisedness -/

theorem foldlM_max {ι : Type} (f : ι → Option ℝ) : ∀ (l : List ι) (a : ℝ),
    (∀ i ∈ l, ∃ v, f i = some v) →
    ∃ m, l.foldlM (fun s i => (f i).map fun v => max v s) a = some m ∧ a ≤ m ∧
      (∀ i ∈ l, ∀ v, f i = some v → v ≤ m) ∧ (m = a ∨ ∃ i ∈ l, f i = some m) := by
  intro l
  induction l with
  | nil => intro a _; exact ⟨a, rfl, le_refl _, by simp, Or.inl rfl⟩
  | cons b l ih =>
    intro a h
    obtain ⟨v, hv⟩ := h b (by simp)
    obtain ⟨m, h1, h2, h3, h4⟩ := ih (max v a) (fun i hi => h i (by simp [hi]))
    refine ⟨m, ?_, le_trans (le_max_right _ _) h2, ?_, ?_⟩
    · rw [List.foldlM_cons, hv]; exact h1
    · intro i hi w hw
      rcases List.mem_cons.1 hi with rfl | hi
      · rw [hv] at hw
        cases hw
        exact le_trans (le_max_left _ _) h2
      · exact h3 i hi w hw
    · rcases h4 with h4 | ⟨i, hi, h4⟩
      · rcases max_choice v a with h | h
        · exact Or.inr ⟨b, by simp, by rw [hv, h4, h]⟩
        · exact Or.inl (h4.trans h)
      · exact Or.inr ⟨i, by simp [hi], h4⟩

theorem mem_tail_finRange (j : Fin (p + 1)) : j ∈ (List.finRange (p + 1)).tail ↔ j ≠ 0 := by
  rw [List.finRange_succ, List.tail_cons, List.mem_map]
  constructor
  · rintro ⟨i, -, rfl⟩
    exact Fin.succ_ne_zero i
  · intro h
    obtain ⟨i, rfl⟩ := Fin.exists_succ_eq_of_ne_zero h
    exact ⟨i, List.mem_finRange i, rfl⟩

/-- The radius is the largest distance to the base point. -/
theorem yRadius_spec : 0 ≤ yRadius Y ∧ (∀ j, enorm2 (Y j - Y 0) ≤ yRadius Y) ∧
    ∃ j, yRadius Y = enorm2 (Y j - Y 0) := by
  obtain ⟨h1, h2, h3⟩ := foldl_max_spec (fun i => enorm2 (Y i - Y 0)) (List.finRange (p + 1)).tail 0
  have hz : enorm2 (Y 0 - Y 0) = 0 := by simp [enorm2]
  refine ⟨h1, fun j => ?_, ?_⟩
  · by_cases h : j = 0
    · subst h; rw [hz]; exact h1
    · exact h2 j ((mem_tail_finRange j).2 h)
  · rcases h3 with h3 | ⟨i, _, h3⟩
    · exact ⟨0, by rw [hz]; exact h3⟩
    · exact ⟨i, h3⟩

/-- C62.  The radius is the largest distance to the base point.  The poisedness value does not exceed
the largest absolute value of a Lagrange polynomial in the ball (of radius `1 + eps_L` times larger) by
more than `1e-15`, and it is at least the absolute value in the ball of every Lagrange polynomial, up to
the tolerance of the solver, whose gradient at the base point is at least `1e-6` in the scaled space and
for which the pseudo-hard case does not occur.  What is missing: polynomials with a small
gradient at the base point (for which the claim is false, `C62_zero_gradient`) and the pseudo-hard case. -/
theorem C62_poisedness_partial {k : MSKer ℝ (Fin n)} (hk : GoodKer k) (hn : 1 ≤ n) (hq : n + 1 ≤ q)
    (hq2 : q ≤ (n + 1) * (n + 2) / 2) (hQR : IsQR Q R (zMat q (buildFrame q Y shift).pts))
    (hp : Poised (zMat q (buildFrame q Y shift).pts)) (εL : ℝ) (hε : 0 ≤ εL) (hε1 : εL ≤ 1) :
    ∃ (lam r : ℝ) (L : Fin (p + 1) → Fin q → ℝ), (∀ j, computeLj Q R j = some (L j)) ∧
      poisednessY k Q R Y εL (buildFrame q Y shift).xbase (buildFrame q Y shift).scale shift =
        some (lam, r) ∧
      (∀ j, enorm2 (Y j - Y 0) ≤ r) ∧ (∃ j, r = enorm2 (Y j - Y 0)) ∧
      (lam = 0 ∨ ∃ j ≠ 0, ∃ y, enorm2 (y - Y 0) ≤ (1 + εL) * r ∧
        (∃ N, findNewYj k Q R Y j r εL (buildFrame q Y shift).xbase (buildFrame q Y shift).scale
          shift = some N ∧ N.imp = lam) ∧
        lam ≤ |evalP (L j) y (buildFrame q Y shift).xbase (buildFrame q Y shift).scale shift| +
          1 / 10 ^ 15) ∧
      ∀ j ≠ 0, ∀ σ g H, (if shift then ext (buildFrame q Y shift).scale 1 else 1 : ℝ) = σ →
        gradP (L j) (if shift then 0 else Y 0) (buildFrame q Y shift).xbase
          (buildFrame q Y shift).scale false = g →
        hessP n (L j) (buildFrame q Y shift).scale false = H →
        1 / 10 ^ 12 ≤ g ⬝ᵥ g → (trms k g H (r * σ) εL).hard = false →
        (trms k (-g) (-H) (r * σ) εL).hard = false →
        ∀ y, enorm2 (y - Y 0) ≤ r →
          |evalP (L j) y (buildFrame q Y shift).xbase (buildFrame q Y shift).scale shift| ≤
            lam + (r * σ) ^ 2 * max (1 / 10 ^ 12 / 2) (εL * max (trms k g H (r * σ) εL).lam
              (trms k (-g) (-H) (r * σ) εL).lam) := by
  obtain ⟨L, hL, hcard, -⟩ := C37_lagrange Y shift Q R hn hq hq2 hQR hp
  obtain ⟨r0, r1, r2⟩ := yRadius_spec Y
  have hnew : ∀ j ≠ 0, findNewYj k Q R Y j (yRadius Y) εL (buildFrame q Y shift).xbase
      (buildFrame q Y shift).scale shift = some (newPoint k (L j) (Y 0) (yRadius Y) εL
        (buildFrame q Y shift).xbase (buildFrame q Y shift).scale shift) := by
    intro j hj
    have hj1 : ¬ (j : ℕ) < 1 := by
      intro h
      exact hj (Fin.ext (by simpa using h))
    unfold findNewYj
    rw [if_neg hj1, hL j]
    rfl
  obtain ⟨m, m1, m2, m3, m4⟩ := foldlM_max
    (fun j => (findNewYj k Q R Y j (yRadius Y) εL (buildFrame q Y shift).xbase
      (buildFrame q Y shift).scale shift).map fun N => N.imp) (List.finRange (p + 1)).tail 0 (by
      intro j hj
      rw [hnew j ((mem_tail_finRange j).1 hj)]
      exact ⟨_, rfl⟩)
  have hframe : ∀ j ≠ 0, ∃ σ, FrameOk (L j) (buildFrame q Y shift).scale
      (buildFrame q Y shift).xbase (Y 0) shift σ := by
    intro j hj
    obtain ⟨σ, hσ, hc, hs⟩ := frame_facts Y shift hn hq hp j hj
    exact ⟨σ, hn, hq, hq2, hσ, hc, hs, by rw [hcard 0 j, if_neg (fun h => hj h.symm)]⟩
  refine ⟨m, yRadius Y, L, hL, ?_, r1, r2, ?_, ?_⟩
  · unfold poisednessY
    simp only [Option.map_map] at m1
    have : (fun (l : ℝ) (j : Fin (p + 1)) => (findNewYj k Q R Y j (yRadius Y) εL
        (buildFrame q Y shift).xbase (buildFrame q Y shift).scale shift).map fun N => max N.imp l) =
        fun s i => Option.map ((fun v => max v s) ∘ fun N => N.imp)
          (findNewYj k Q R Y i (yRadius Y) εL (buildFrame q Y shift).xbase
            (buildFrame q Y shift).scale shift) := rfl
    rw [this, m1]
    rfl
  · rcases m4 with h | ⟨j, hj, h⟩
    · exact Or.inl h
    · have hj := (mem_tail_finRange j).1 hj
      rw [hnew j hj] at h
      obtain ⟨σ, F⟩ := hframe j hj
      obtain ⟨s1, s2⟩ := newPoint_spec hk F r0 hε
      refine Or.inr ⟨j, hj, _, s1, ?_⟩
      have h : (newPoint k (L j) (Y 0) (yRadius Y) εL (buildFrame q Y shift).xbase
        (buildFrame q Y shift).scale shift).imp = m := Option.some.inj h
      rw [h, abs_le] at s2
      refine ⟨⟨_, hnew j hj, h⟩, ?_⟩
      linarith [s2.2]
  · intro j hj σ g H hσ hg hH hgn hph hmh y hy
    obtain ⟨σ', F⟩ := hframe j hj
    have : σ' = σ := by rw [← F.hc, hσ]
    subst this
    have hpos : 0 < yRadius Y := by
      refine lt_of_lt_of_le ?_ (r1 j)
      refine lt_of_le_of_ne (enorm2_nonneg _) fun h => ?_
      exact exists_ne_of_poised Y shift hp j hj (sub_eq_zero.1 (enorm2_eq_zero h.symm))
    have h1 := newPoint_max hk F hpos hε hε1 hg hH hgn hph hmh y hy
    have h2 := m3 j ((mem_tail_finRange j).2 hj) _ (by rw [hnew j hj]; rfl)
    linarith

/-- If the gradient of the Lagrange polynomial at the base point is below `1e-6` (in the scaled space),
the base point itself is proposed, with improvement 0. -/
theorem newPoint_small (k : MSKer ℝ (Fin n)) (hk : GoodKer k) {L scale : Fin q → ℝ}
    {xbase y0 : Fin n → ℝ} {shift : Bool} {Δ εL : ℝ}
    (hg : gradP L (if shift then 0 else y0) xbase scale false ⬝ᵥ
      gradP L (if shift then 0 else y0) xbase scale false < 1 / 10 ^ 12) :
    newPoint k L y0 Δ εL xbase scale shift = ⟨y0, 0⟩ := by
  have key : ∀ (g : Fin n → ℝ) (H : Matrix (Fin n) (Fin n) ℝ) (D : ℝ), g ⬝ᵥ g < 1 / 10 ^ 12 →
      (trms k g H D εL).s = 0 ∧ (trms k g H D εL).value = 0 := by
    intro g H D h
    unfold trms
    by_cases h0 : D = 0
    · rw [if_pos h0]; exact ⟨rfl, rfl⟩
    · rw [if_neg h0, if_pos (by
        have := GoodKer.nrm_sq hk g
        rw [pow_two, this]; exact h)]
      exact ⟨rfl, rfl⟩
  unfold newPoint
  simp only
  rw [(key _ _ _ hg).2, (key (-_) _ _ (by rw [neg_dotProduct, dotProduct_neg, neg_neg]; exact hg)).2,
    if_neg (lt_irrefl _), (key _ _ _ hg).1]
  simp

namespace Ex

/-- Five points in the plane. -/
noncomputable def flat : Fin 5 → Fin 2 → ℝ :=
  ![![0, 0], ![1 / 10, 0], ![3 / 5, 4 / 5], ![-3 / 5, 4 / 5], ![3 / 5, -4 / 5]]

theorem flat_norm (i : Fin 5) : enorm2 (flat i - flat 0) = ![0, 1 / 10, 1, 1, 1] i := by
  have h1 : enorm2 (flat i - flat 0) = Real.sqrt ((![0, 1 / 10, 1, 1, 1] i) ^ 2) := by
    unfold enorm2
    congr 1
    fin_cases i <;> norm_num [flat, dotProduct, Fin.sum_univ_two]
  rw [h1, Real.sqrt_sq]
  fin_cases i <;> norm_num

theorem flat_scale : scaleY flat = 1 := by
  unfold scaleY
  simp only [flat_norm]
  simp [List.finRange_succ]
  norm_num

theorem flat_frame : buildFrame 5 flat true =
    { xbase := 0, scale := fun _ => 1, pts := flat } := by
  have h0 : flat 0 = 0 := by funext i; fin_cases i <;> rfl
  unfold buildFrame
  rw [if_pos ⟨rfl, by norm_num⟩, flat_scale, h0]
  congr 1
  · funext r; unfold scaleVec; simp
  · funext j i; simp

theorem flat_eval (P : Fin 5 → ℝ) (y : Fin 2 → ℝ) :
    evalP P y 0 (fun _ => 1) true = P 0 + P 1 * y 0 + P 2 * y 1 + P 3 * (1 / 2 * y 0 ^ 2) +
      P 4 * (1 / 2 * y 1 ^ 2) := by
  unfold evalP evalZ
  simp [dotFrom, ext, List.range_succ]
  ring

theorem flat_col (y : Fin 2 → ℝ) : zCol 5 y =
    ![1, y 0, y 1, 1 / 2 * y 0 ^ 2, 1 / 2 * y 1 ^ 2] := by
  funext r
  unfold zCol evalZ
  fin_cases r <;> simp [ext, List.range_succ]

theorem flat_poised : Poised (zMat 5 (buildFrame 5 flat true).pts) := by
  rw [flat_frame]
  intro v hv
  have h : ∀ r, ∑ j, zCol 5 (flat j) r * v j = 0 := fun r => congrFun hv r
  simp only [flat_col] at h
  have h0 := h 0
  have h1 := h 1
  have h2 := h 2
  have h3 := h 3
  have h4 := h 4
  simp [Fin.sum_univ_five, flat] at h0 h1 h2 h3 h4
  funext i
  fin_cases i <;> simp <;> linarith

/-- Coefficients of the Lagrange polynomials of the last four points. -/
noncomputable def flatL : Fin 5 → Fin 5 → ℝ :=
  ![![0, 0, 0, 0, 0], ![0, 0, 0, 200, -225 / 2], ![0, 5 / 6, 5 / 8, -50 / 3, 75 / 8],
    ![0, -5 / 6, 0, 50 / 3, -125 / 16], ![0, 0, -5 / 8, 0, 25 / 16]]

theorem flat_lagrange {Q R : Matrix (Fin 5) (Fin 5) ℝ}
    (hQR : IsQR Q R (zMat 5 (buildFrame 5 flat true).pts)) (j : Fin 5) (hj : j ≠ 0) :
    computeLj Q R j = some (flatL j) := by
  refine C36_unique flat true (Pi.single j 1) Q R (by norm_num) (by norm_num) (by norm_num) hQR
    flat_poised (flatL j) ?_
  intro i
  rw [flat_frame, flat_eval]
  fin_cases j
  · exact absurd rfl hj
  all_goals fin_cases i <;> simp [flat, flatL] <;> norm_num

end Ex

/-- C62 is false for Lagrange polynomials with a small gradient at the base point: here the five
points are poised and every exact factorisation and every good kernel give a poisedness value below 90
for the ball of radius 1 (the largest distance), although the second Lagrange polynomial has the value
100 at `(1,0)`. -/
theorem C62_zero_gradient {k : MSKer ℝ (Fin 2)} (hk : GoodKer k) {Q R : Matrix (Fin 5) (Fin 5) ℝ}
    (hQR : IsQR Q R (zMat 5 (buildFrame 5 Ex.flat true).pts)) (εL : ℝ) (hε : 0 ≤ εL) (hε1 : εL ≤ 1) :
    ∃ lam L, poisednessY k Q R Ex.flat εL (buildFrame 5 Ex.flat true).xbase
        (buildFrame 5 Ex.flat true).scale true = some (lam, 1) ∧ lam ≤ 90 ∧
      computeLj Q R 1 = some L ∧ enorm2 (![1, 0] - Ex.flat 0) = 1 ∧
      |evalP L ![1, 0] (buildFrame 5 Ex.flat true).xbase (buildFrame 5 Ex.flat true).scale true| =
        100 := by
  obtain ⟨lam, r, L, hL, h1, h2, ⟨j0, h3⟩, h4, -⟩ := C62_poisedness_partial Ex.flat true Q R hk
    (by norm_num) (by norm_num) (by norm_num) hQR Ex.flat_poised εL hε hε1
  have hr : r = 1 := by
    have a := h2 2
    rw [Ex.flat_norm] at a h3
    have b : r ≤ 1 := by rw [h3]; fin_cases j0 <;> norm_num
    exact le_antisymm b a
  subst hr
  have hLf : ∀ j ≠ 0, L j = Ex.flatL j := fun j hj =>
    Option.some.inj ((hL j).symm.trans (Ex.flat_lagrange hQR j hj))
  refine ⟨lam, L 1, h1, ?_, hL 1, ?_, ?_⟩
  · rcases h4 with h4 | ⟨j, hj, y, hy, ⟨N, hN, hNl⟩, h4⟩
    · rw [h4]; norm_num
    · by_cases hj1 : j = 1
      · subst hj1
        have : N.imp = 0 := by
          unfold findNewYj at hN
          rw [if_neg (by norm_num), Ex.flat_lagrange hQR 1 hj, Option.map_some] at hN
          rw [newPoint_small k hk (by
            rw [if_pos rfl]
            have : gradP (Ex.flatL 1) 0 (buildFrame 5 Ex.flat true).xbase
                (buildFrame 5 Ex.flat true).scale false = (0 : Fin 2 → ℝ) := by
              funext i
              unfold gradP gradRaw addSlice
              fin_cases i <;> simp [ext, Ex.flatL]
            rw [this, dotProduct_zero]
            norm_num)] at hN
          rw [← Option.some.inj hN]
        rw [← hNl, this]; norm_num
      · have hy2 : (y - Ex.flat 0) ⬝ᵥ (y - Ex.flat 0) ≤ 4 := by
          have h0 := ms_dot_self_nonneg (y - Ex.flat 0)
          have e : enorm2 (y - Ex.flat 0) ≤ 2 := by linarith
          unfold enorm2 at e
          rw [Real.sqrt_le_left (by norm_num)] at e
          linarith
        have hy3 : y 0 ^ 2 + y 1 ^ 2 ≤ 4 := by
          simp [dotProduct, Fin.sum_univ_two, Ex.flat] at hy2
          nlinarith
        have a0 : y 0 ^ 2 ≤ 4 := by nlinarith [sq_nonneg (y 1)]
        have a1 : y 1 ^ 2 ≤ 4 := by nlinarith [sq_nonneg (y 0)]
        have b0 := abs_le_of_sq_le_sq' (show y 0 ^ 2 ≤ 2 ^ 2 by linarith) (by norm_num)
        have b1 := abs_le_of_sq_le_sq' (show y 1 ^ 2 ≤ 2 ^ 2 by linarith) (by norm_num)
        have c0 := sq_nonneg (y 0)
        have c1 := sq_nonneg (y 1)
        refine le_trans h4 ?_
        rw [hLf j hj, Ex.flat_frame, Ex.flat_eval]
        have : |Ex.flatL j 0 + Ex.flatL j 1 * y 0 + Ex.flatL j 2 * y 1 + Ex.flatL j 3 *
            (1 / 2 * y 0 ^ 2) + Ex.flatL j 4 * (1 / 2 * y 1 ^ 2)| ≤ 89 := by
          rw [abs_le]
          fin_cases j
          · exact absurd rfl hj
          · exact absurd rfl hj1
          all_goals
            constructor <;> simp [Ex.flatL] <;> linarith [b0.1, b0.2, b1.1, b1.2]
        have h15 : (1 : ℝ) / 10 ^ 15 ≤ 1 := by norm_num
        linarith
  · have : enorm2 (![1, 0] - Ex.flat 0) = Real.sqrt 1 := by
      unfold enorm2
      congr 1
      simp [dotProduct, Fin.sum_univ_two, Ex.flat]
    rw [this, Real.sqrt_one]
  · rw [hLf 1 (by norm_num), Ex.flat_frame, Ex.flat_eval]
    simp [Ex.flatL]
    norm_num

/-- The hypotheses of `C54_new_point`, `C62_poisedness_partial` and `C62_zero_gradient` can be met. -/
example : ∃ k : MSKer ℝ (Fin 2), GoodKer k ∧ ∃ Q R, IsQR Q R (zMat 5 (buildFrame 5 Ex.flat true).pts) ∧
    Poised (zMat 5 (buildFrame 5 Ex.flat true).pts) :=
  ⟨Ex.realKer, Ex.realKer_good, by
    obtain ⟨Q, R, h⟩ := exists_qr _ Ex.flat_poised
    exact ⟨Q, R, h, Ex.flat_poised⟩⟩

#print axioms C54_new_point
#print axioms newPoint_max
#print axioms C62_poisedness_partial
#print axioms C62_zero_gradient

end Sqpdfo
