import Mathlib.LinearAlgebra.Matrix.ToLinearEquiv
import Verif.Props.C43_C66_TRMSbc

/-! # C127: the interval of the unconstrained solver contains the multiplier -/

set_option linter.unusedSectionVars false

namespace Sqpdfo
open Matrix Spec
variable {K : Type} [Field K] [LinearOrder K] [IsStrictOrderedRing K] {ι : Type} [Fintype ι] [DecidableEq ι]

/-- `s` is a solution of the trust-region problem on the sphere, `lam` its multiplier (the conditions of Moré and Sorensen). -/
structure Spec.OnSphere (g : ι → K) (H : Matrix ι ι K) (Δ lam : K) (s : ι → K) : Prop where
  nn : 0 ≤ lam
  stat : (H + lam • (1 : Matrix ι ι K)) *ᵥ s = -g
  psd : ∀ v, 0 ≤ v ⬝ᵥ (H + lam • (1 : Matrix ι ι K)) *ᵥ v
  sphere : s ⬝ᵥ s = Δ ^ 2

/-- Steps get shorter for larger parameters. -/
theorem step_antitone {g s t : ι → K} {H : Matrix ι ι K} {a b : K} (hab : a < b)
    (hs : (H + a • (1 : Matrix ι ι K)) *ᵥ s = -g) (ht : (H + b • (1 : Matrix ι ι K)) *ᵥ t = -g)
    (hp : ∀ v, 0 ≤ v ⬝ᵥ (H + a • (1 : Matrix ι ι K)) *ᵥ v) : t ⬝ᵥ t ≤ s ⬝ᵥ s := by
  have e : (H + a • (1 : Matrix ι ι K)) *ᵥ (s - t) = (b - a) • t := by
    rw [mulVec_sub, hs, ← ht]
    simp only [add_mulVec, smul_mulVec, one_mulVec, sub_smul]
    abel
  have h1 := hp (s - t)
  rw [e, dotProduct_smul, smul_eq_mul] at h1
  have h2 := nonneg_of_mul_nonneg_right h1 (sub_pos.2 hab)
  have h3 := ms_dot_self_nonneg (s - t)
  simp only [sub_dotProduct, dotProduct_sub] at h2 h3
  rw [dotProduct_comm t s] at h3
  linarith

theorem GoodKer.cs {k : MSKer K ι} (hk : GoodKer k) (u v : ι → K) : -(u ⬝ᵥ v) ≤ k.nrm u * k.nrm v := by
  have a1 := GoodKer.nrm_sq hk u
  have b1 := GoodKer.nrm_sq hk v
  have cs := dot_cs u v
  rw [← a1, ← b1] at cs
  refine abs_le_of_sq_le_sq' ?_ (mul_nonneg (GoodKer.nrm_nonneg hk u) (GoodKer.nrm_nonneg hk v)) |>.2
  calc _ = (u ⬝ᵥ v) ^ 2 := by ring
    _ ≤ _ := cs
    _ = _ := by ring

/-- C127, the first interval contains the multiplier if `hb` bounds the norm of the matrix. -/
theorem C127_start {k : MSKer K ι} (hk : GoodKer k) (g : ι → K) (H : Matrix ι ι K) (Δ lam : K) (s : ι → K) (hΔ : 0 < Δ)
    (hhb : ∀ v, k.nrm (H *ᵥ v) ≤ k.hb H * k.nrm v) (h : OnSphere g H Δ lam s) :
    (msStart k g H Δ).lower ≤ lam ∧ lam ≤ (msStart k g H Δ).upper := by
  have hn : k.nrm s = Δ := GoodKer.nrm_eq hk s Δ hΔ.le (by rw [h.sphere]; ring)
  have hb0 := hk.hb H
  have g0 := GoodKer.nrm_nonneg hk g
  have gg := GoodKer.nrm_sq hk g
  have hH := hhb s
  rw [hn] at hH
  have st := h.stat
  rw [add_mulVec, smul_mulVec, one_mulVec] at st
  have c1 := GoodKer.cs hk g (H *ᵥ s)
  have c2 := GoodKer.cs hk g s
  have c3 := GoodKer.cs hk s g
  have c4 := GoodKer.cs hk s (H *ᵥ s)
  rw [hn] at c2 c3 c4
  have d1 := congrArg (fun v => g ⬝ᵥ v) st
  have d2 := congrArg (fun v => s ⬝ᵥ v) st
  simp only [dotProduct_add, dotProduct_smul, smul_eq_mul, dotProduct_neg] at d1 d2
  rw [h.sphere] at d2
  have m1 := mul_le_mul_of_nonneg_left hH g0
  have m2 := mul_le_mul_of_nonneg_left c2 h.nn
  have m3 := mul_le_mul_of_nonneg_left hH hΔ.le
  have key1 : k.nrm g ≤ (k.hb H + lam) * Δ := by
    by_contra hc
    have hc := not_le.1 hc
    have hp : 0 ≤ (k.hb H + lam) * Δ := mul_nonneg (add_nonneg hb0 h.nn) hΔ.le
    have := mul_lt_mul_of_pos_left hc (lt_of_le_of_lt hp hc)
    nlinarith
  have key2 : lam * Δ ≤ k.nrm g + k.hb H * Δ := by
    refine le_of_mul_le_mul_left ?_ hΔ
    nlinarith
  unfold msStart
  dsimp only
  constructor
  · refine max_le h.nn ?_
    rw [sub_le_iff_le_add, div_le_iff₀ hΔ]
    linarith
  · refine le_max_of_le_right ?_
    rw [← sub_le_iff_le_add, le_div_iff₀ hΔ]
    linarith

/-- Positive definite matrices are factorised. -/
def Spec.CholPD (k : MSKer K ι) : Prop :=
  ∀ M : Matrix ι ι K, (∀ i j, M i j = M j i) → (∀ v, v ≠ 0 → 0 < v ⬝ᵥ M *ᵥ v) → ∃ R, k.chol M = .ok R

theorem msLoop_multiplier {k : MSKer K ι} (hk : GoodKer k) (hpd : CholPD k) (g : ι → K) (H : Matrix ι ι K) (Δ εD lam : K)
    (s : ι → K) (hH : ∀ i j, H i j = H j i) (hΔ : 0 < Δ) (hε : 0 ≤ εD) (h : OnSphere g H Δ lam s) (r : ℕ) :
    ∀ S T : MSState K ι, S.lower ≤ lam ∧ lam ≤ S.upper → msLoop k g H Δ εD r S = .inr T →
      T.lower ≤ lam ∧ lam ≤ T.upper := by
  have hn : k.nrm s = Δ := GoodKer.nrm_eq hk s Δ hΔ.le (by rw [h.sphere]; ring)
  induction r with
  | zero => intro S T hS hT; cases hT; exact hS
  | succ r ih =>
    intro S T hS hT
    unfold msLoop at hT
    cases hc : k.chol (H + S.lam • (1 : Matrix ι ι K)) with
    | nan => exact absurd hc (hk.noNan _)
    | fail =>
      have hle : S.lam ≤ lam := by
        by_contra hlt
        have hlt := not_le.1 hlt
        obtain ⟨R, hR⟩ := hpd (H + S.lam • (1 : Matrix ι ι K)) (sym_shift hH S.lam) (by
          intro v hv
          have := h.psd v
          have hvv := ms_dot_self_pos v hv
          simp only [add_mulVec, smul_mulVec, one_mulVec, dotProduct_add, dotProduct_smul, smul_eq_mul] at this ⊢
          have := mul_lt_mul_of_pos_right hlt hvv
          linarith)
        rw [hc] at hR
        cases hR
      have hB : (msBisect S).lower ≤ lam ∧ lam ≤ (msBisect S).upper := ⟨hle, hS.2⟩
      rw [hc] at hT
      simp only at hT
      split_ifs at hT with h1
      · cases hT; exact hB
      · exact ih _ _ hB hT
    | ok R =>
      have hst := msSolve_stat hk g _ R (sym_shift hH S.lam) hc
      rw [hc] at hT
      simp only at hT
      have hN : ¬ ((msSolve k g R S).lam ≤ epsMS ∧ (msSolve k g R S).norms ≤ (1 + εD) * Δ ∨
          (msSolve k g R S).norms ≥ (1 - εD) * Δ ∧ (msSolve k g R S).norms ≤ (1 + εD) * Δ) →
          (msNewton k Δ εD R (msSolve k g R S)).lower ≤ lam ∧ lam ≤ (msNewton k Δ εD R (msSolve k g R S)).upper := by
        intro hna
        have hεΔ := mul_nonneg hε hΔ.le
        have en : (msSolve k g R S).norms = k.nrm (k.solve (-R) (k.solve Rᵀ g)) := rfl
        have el : (msSolve k g R S).lam = S.lam := rfl
        have q1 := GoodKer.nrm_sq hk (k.solve (-R) (k.solve Rᵀ g))
        have q0 := GoodKer.nrm_nonneg hk (k.solve (-R) (k.solve Rᵀ g))
        rw [en, el] at hna
        unfold msNewton
        dsimp only
        rw [en, el]
        change (if k.nrm (k.solve (-R) (k.solve Rᵀ g)) > (1 + εD) * Δ then S.lam else S.lower) ≤ lam ∧
          lam ≤ (if k.nrm (k.solve (-R) (k.solve Rᵀ g)) > (1 + εD) * Δ then S.upper else S.lam)
        split_ifs with hbig
        · refine ⟨?_, hS.2⟩
          by_contra hlt
          have := step_antitone (not_le.1 hlt) h.stat hst.1 h.psd
          rw [← q1, h.sphere] at this
          nlinarith
        · refine ⟨hS.1, ?_⟩
          by_contra hlt
          have := step_antitone (not_le.1 hlt) hst.1 h.stat hst.2
          rw [← q1, h.sphere] at this
          have hb := not_lt.1 hbig
          have hsm : k.nrm (k.solve (-R) (k.solve Rᵀ g)) < (1 - εD) * Δ := by
            by_contra hc
            exact hna (Or.inr ⟨not_lt.1 hc, hb⟩)
          nlinarith
      split_ifs at hT with h1 h2
      · cases hT; exact hN h1
      · exact ih _ _ (hN h1) hT

/-- C127, the interval.  For kernels that meet their specification, a symmetric matrix, and a solution of the trust-region
problem on the sphere: after any number `r` of rounds without an accepted step, the interval `[lower, upper]` contains the multiplier of the solution, and the
current `lambda`. -/
theorem C127_interval {k : MSKer K ι} (hk : GoodKer k) (hpd : CholPD k) (g : ι → K) (H : Matrix ι ι K) (Δ εD lam : K)
    (s : ι → K) (hH : ∀ i j, H i j = H j i) (hhb : ∀ v, k.nrm (H *ᵥ v) ≤ k.hb H * k.nrm v) (hΔ : 0 < Δ) (hε : 0 ≤ εD)
    (h : OnSphere g H Δ lam s) (r : ℕ) (T : MSState K ι) (hT : msLoop k g H Δ εD r (msStart k g H Δ) = .inr T) :
    T.lower ≤ lam ∧ lam ≤ T.upper ∧ |T.lam - lam| ≤ T.upper - T.lower := by
  obtain ⟨a, b⟩ := msLoop_multiplier hk hpd g H Δ εD lam s hH hΔ hε h r _ T (C127_start hk g H Δ lam s hΔ hhb h) hT
  have inv := ((msLoop_spec hk g H Δ εD hH r _ (msStart_inv hk g H Δ)).2 T hT).1
  refine ⟨a, b, abs_le.2 ⟨?_, ?_⟩⟩
  · linarith [inv.lam]
  · linarith [inv.upp]

/-- C127, the end without an accepted step: all rounds were used, or the interval is short. -/
theorem C127_short (k : MSKer K ι) (g : ι → K) (H : Matrix ι ι K) (Δ εD : K) (r : ℕ) : ∀ S T : MSState K ι,
    msLoop k g H Δ εD r S = .inr T → T.nfact = S.nfact + r ∨ T.upper - T.lower < 1 / 10 ^ 13 * max 1 T.upper := by
  induction r with
  | zero => intro S T hT; cases hT; exact Or.inl rfl
  | succ r ih =>
    intro S T hT
    have next : ∀ U : MSState K ι, U.nfact = S.nfact + 1 → msLoop k g H Δ εD r U = .inr T →
        T.nfact = S.nfact + (r + 1) ∨ T.upper - T.lower < 1 / 10 ^ 13 * max 1 T.upper := by
      intro U hU hT
      rcases ih U T hT with h | h
      · left; omega
      · exact Or.inr h
    unfold msLoop at hT
    cases hc : k.chol (H + S.lam • (1 : Matrix ι ι K)) with
    | nan => rw [hc] at hT; cases hT
    | fail =>
      rw [hc] at hT
      simp only at hT
      split_ifs at hT with h1
      · cases hT; exact Or.inr h1
      · exact next _ rfl hT
    | ok R =>
      rw [hc] at hT
      simp only at hT
      split_ifs at hT with h1 h2
      · cases hT; exact Or.inr h2
      · exact next _ rfl hT

/-- C127, Newton's method.  For a multiple `h*I` of the identity and an exact factorisation, the next `lambda` after a step that is
too long or too short is the one for which the step has the length `Delta`, if it is well within the interval. -/
theorem C127_newton {k : MSKer K ι} (hk : GoodKer k) (R : Matrix ι ι K) (g : ι → K) (h Δ εD lo up : K) (S : MSState K ι)
    (hR : Rᵀ * R = (h + S.lam) • (1 : Matrix ι ι K)) (hpos : 0 < h + S.lam) (hΔ : 0 < Δ) (hg : g ≠ 0)
    (hs : S.s = -((h + S.lam)⁻¹ • g)) (hn : S.norms = k.nrm S.s)
    (hlo : lo = if S.norms > (1 + εD) * Δ then S.lam else S.lower)
    (hup : up = if S.norms > (1 + εD) * Δ then S.upper else S.lam)
    (hsafe : lo + thetaMS * (up - lo) < k.nrm g / Δ - h ∧ k.nrm g / Δ - h < up - thetaMS * (up - lo)) :
    (msNewton k Δ εD R S).lam = k.nrm g / Δ - h := by
  have hne := hpos.ne'
  have hdet : Rᵀ.det ≠ 0 := by
    intro h0
    have := congrArg Matrix.det hR
    rw [det_mul, h0, zero_mul, det_smul, det_one, mul_one] at this
    exact (pow_ne_zero _ hne) this.symm
  have hsol := hk.solve Rᵀ S.s ((isUnit_iff_isUnit_det _).2 (Ne.isUnit hdet))
  have hw : k.solve Rᵀ S.s = R *ᵥ ((h + S.lam)⁻¹ • S.s) := by
    rw [← sub_eq_zero]
    refine eq_zero_of_mulVec_eq_zero hdet ?_
    rw [mulVec_sub, hsol, mulVec_mulVec, hR, smul_mulVec, one_mulVec, smul_smul, mul_inv_cancel₀ hne, one_smul, sub_self]
  have hww : (k.solve Rᵀ S.s) ⬝ᵥ (k.solve Rᵀ S.s) = (h + S.lam)⁻¹ * (S.s ⬝ᵥ S.s) := by
    conv_lhs => rw [hw]
    rw [dotProduct_mulVec, ← mulVec_transpose, mulVec_mulVec, hR, smul_mulVec, one_mulVec, smul_smul, mul_inv_cancel₀ hne,
      one_smul, dotProduct_smul, smul_eq_mul]
  have hns : S.norms = (h + S.lam)⁻¹ * k.nrm g := by
    rw [hn]
    refine GoodKer.nrm_eq hk _ _ (mul_nonneg (inv_nonneg.2 hpos.le) (GoodKer.nrm_nonneg hk g)) ?_
    rw [hs, neg_dotProduct, dotProduct_neg, neg_neg, smul_dotProduct, dotProduct_smul, ← GoodKer.nrm_sq hk g]
    simp only [smul_eq_mul]
    ring
  have hss : S.s ⬝ᵥ S.s = S.norms ^ 2 := by rw [hn, ← GoodKer.nrm_sq hk S.s]; ring
  have hg0 : k.nrm g ≠ 0 := by
    intro hc
    have := GoodKer.nrm_sq hk g
    rw [hc, zero_mul] at this
    exact (ms_dot_self_pos g hg).ne this
  have hnew : S.lam + (S.norms - Δ) / Δ * (S.norms ^ 2 / ((k.solve Rᵀ S.s) ⬝ᵥ (k.solve Rᵀ S.s))) = k.nrm g / Δ - h := by
    rw [hww, hss, hns]
    have := hΔ.ne'
    field_simp
    ring
  unfold msNewton
  dsimp only
  rw [hnew, ← hlo, ← hup, if_pos hsafe]

/-- The Frobenius norm bounds the norm of the matrix. -/
theorem Ex.realKer_hb [Nonempty ι] (H : Matrix ι ι ℝ) (v : ι → ℝ) :
    Ex.realKer.nrm (H *ᵥ v) ≤ Ex.realKer.hb H * Ex.realKer.nrm v := by
  change √((H *ᵥ v) ⬝ᵥ (H *ᵥ v)) ≤ √(∑ i, ∑ j, H i j ^ 2) * √(v ⬝ᵥ v)
  have hF : 0 ≤ ∑ i, ∑ j, H i j ^ 2 := Finset.sum_nonneg fun i _ => Finset.sum_nonneg fun j _ => sq_nonneg _
  refine le_of_le_of_eq (Real.sqrt_le_sqrt ?_) (Real.sqrt_mul hF _)
  simp only [dotProduct, mulVec, ← pow_two]
  rw [Finset.sum_mul]
  exact Finset.sum_le_sum fun i _ => Finset.sum_mul_sq_le_sq_mul_sq _ _ _

/-- C127 with exact arithmetic: if the solver uses up its 300 rounds or ends with a short interval, the interval contains the
multiplier of every solution on the sphere. -/
theorem C127_real [Nonempty ι] (g : ι → ℝ) (H : Matrix ι ι ℝ) (Δ εD lam : ℝ) (s : ι → ℝ) (hH : ∀ i j, H i j = H j i)
    (hΔ : 0 < Δ) (hε : 0 ≤ εD) (h : OnSphere g H Δ lam s) (r : ℕ) (T : MSState ℝ ι)
    (hT : msLoop Ex.realKer g H Δ εD r (msStart Ex.realKer g H Δ) = .inr T) :
    T.lower ≤ lam ∧ lam ≤ T.upper ∧ |T.lam - lam| ≤ T.upper - T.lower :=
  C127_interval Ex.realKer_good (fun M hM hp => Ex.realKer_chol M hM hp) g H Δ εD lam s hH (Ex.realKer_hb H) hΔ hε h r T hT

/-- `x^2/2 - 3*x` with `|x| ≤ 1`: the solution 1 has the multiplier 2; the first interval is `[2, 4]`. -/
example : OnSphere (fun _ : Fin 1 => (-3 : ℝ)) 1 1 2 (fun _ => 1) ∧
    (msStart Ex.realKer (fun _ : Fin 1 => (-3 : ℝ)) 1 1).lower = 2 ∧
    (msStart Ex.realKer (fun _ : Fin 1 => (-3 : ℝ)) 1 1).upper = 4 ∧
    msLoop Ex.realKer (fun _ : Fin 1 => (-3 : ℝ)) 1 1 (1 / 10) 0 (msStart Ex.realKer (fun _ : Fin 1 => (-3 : ℝ)) 1 1) =
      .inr (msStart Ex.realKer (fun _ : Fin 1 => (-3 : ℝ)) 1 1) := by
  have hg : Ex.realKer.nrm (fun _ : Fin 1 => (-3 : ℝ)) = 3 :=
    GoodKer.nrm_eq Ex.realKer_good _ 3 (by norm_num) (by simp [dotProduct])
  have hb : Ex.realKer.hb (1 : Matrix (Fin 1) (Fin 1) ℝ) = 1 := by
    change √(∑ i : Fin 1, ∑ j : Fin 1, (1 : Matrix (Fin 1) (Fin 1) ℝ) i j ^ 2) = 1
    simp
  refine ⟨⟨by norm_num, ?_, fun v => ?_, by simp [dotProduct]⟩, ?_, ?_, rfl⟩
  · rw [add_mulVec, smul_mulVec, one_mulVec]
    funext i
    simp only [Pi.add_apply, Pi.smul_apply, Pi.neg_apply, smul_eq_mul]
    norm_num
  · rw [add_mulVec, smul_mulVec, one_mulVec, dotProduct_add, dotProduct_smul, smul_eq_mul]
    linarith [ms_dot_self_nonneg v]
  · unfold msStart
    dsimp only
    rw [hg, hb]
    norm_num
  · unfold msStart
    dsimp only
    rw [hg, hb]
    norm_num

/-- `C127_newton` for `x^2/2 - 3*x` with `|x| ≤ 1`: from `lambda = 0` and the step 3 to `lambda = 2`. -/
example : (msNewton Ex.realKer 1 (1 / 10) (1 : Matrix (Fin 1) (Fin 1) ℝ)
    { lower := 0, upper := 15, lam := 0, s := fun _ => 3, norms := 3, nfact := 1 }).lam = 2 := by
  have hg : Ex.realKer.nrm (fun _ : Fin 1 => (-3 : ℝ)) = 3 :=
    GoodKer.nrm_eq Ex.realKer_good _ 3 (by norm_num) (by simp [dotProduct])
  have h3 : Ex.realKer.nrm (fun _ : Fin 1 => (3 : ℝ)) = 3 :=
    GoodKer.nrm_eq Ex.realKer_good _ 3 (by norm_num) (by simp [dotProduct])
  have e := C127_newton Ex.realKer_good (1 : Matrix (Fin 1) (Fin 1) ℝ) (fun _ => -3) 1 1 (1 / 10) 0 15
    { lower := 0, upper := 15, lam := 0, s := fun _ => 3, norms := 3, nfact := 1 } (by simp) (by norm_num) one_pos
    (fun hc => by have := congrFun hc 0; norm_num at this) (by funext i; simp) h3.symm (by norm_num) (by norm_num)
    (by rw [hg]; unfold thetaMS; norm_num)
  rw [e, hg]
  norm_num

#print axioms C127_short
#print axioms C127_real
#print axioms C127_start
#print axioms C127_interval
#print axioms C127_newton

end Sqpdfo
