import Verif.Props.C28_C30_TruncCG
import Verif.Props.C42_C61_TRMS
import Verif.Props.C87_HardCase
import Verif.Props.C89_C91_BoundedStep
import Verif.Props.C96_Tangent
import Verif.Model.SolveTR
import Mathlib.Tactic.Linarith
import Mathlib.Tactic.Ring
import Mathlib.Tactic.Positivity
import Mathlib.Tactic.FieldSimp

/-! # C112: the steps decrease the model at least as much as steepest descent does

The decrease of a step is compared with the one that is possible along the gradient (the Cauchy decrease): for a gradient of length `a`, a
radius `r` and a bound `β` of the curvature along the gradient it is at least `1/2 · a · min(r, a/β)`.  Convergence results for
trust-region methods rest on this bound. -/

namespace Sqpdfo
open Matrix Spec

section Field
variable {K : Type} [Field K] [LinearOrder K] [IsStrictOrderedRing K]

/-- The decrease that steepest descent guarantees: gradient of length `a`, radius `r`, curvature at most `β`. -/
def Spec.cauchyDec (a r β : K) : K := 1 / 2 * a * min r (a / β)

theorem cauchyDec_mono {a a' r r' β : K} (ha : 0 ≤ a) (haa : a ≤ a') (hr : 0 ≤ r) (hrr : r ≤ r') (hβ : 0 < β) :
    cauchyDec a r β ≤ cauchyDec a' r' β := by
  unfold cauchyDec
  have h1 : min r (a / β) ≤ min r' (a' / β) := min_le_min hrr (div_le_div_of_nonneg_right haa hβ.le)
  have h2 : 0 ≤ min r (a / β) := le_min hr (div_nonneg ha hβ.le)
  calc 1 / 2 * a * min r (a / β) ≤ 1 / 2 * a' * min r (a / β) := by
        apply mul_le_mul_of_nonneg_right _ h2; linarith
    _ ≤ 1 / 2 * a' * min r' (a' / β) := by
        apply mul_le_mul_of_nonneg_left h1; linarith

variable {ι : Type} [Fintype ι] [DecidableEq ι]

omit [DecidableEq ι] in
/-- A point on the ray against the gradient with at least that decrease. -/
theorem cauchy_point (g : ι → K) (H : Matrix ι ι K) {a r β : K} (ha : 0 < a) (ha2 : a * a = g ⬝ᵥ g) (hr : 0 ≤ r) (hβ : 0 < β)
    (hH : g ⬝ᵥ H *ᵥ g ≤ β * (g ⬝ᵥ g)) :
    ∃ d : ι → K, d ⬝ᵥ d ≤ r ^ 2 ∧ d ⬝ᵥ d ≤ (a / β) ^ 2 ∧ quadVal g H d ≤ - cauchyDec a r β := by
  set τ := min r (a / β) / a with hτ
  have hm : 0 ≤ min r (a / β) := le_min hr (div_pos ha hβ).le
  have hτ0 : 0 ≤ τ := div_nonneg hm ha.le
  have hτa : τ * a = min r (a / β) := div_mul_cancel₀ _ ha.ne'
  have hτβ : τ * β ≤ 1 := by
    have h1 : τ ≤ a / β / a := div_le_div_of_nonneg_right (min_le_right _ _) ha.le
    have h2 : a / β / a * β = 1 := by field_simp
    calc τ * β ≤ a / β / a * β := mul_le_mul_of_nonneg_right h1 hβ.le
      _ = 1 := h2
  have hdd : (-(τ • g)) ⬝ᵥ (-(τ • g)) = (min r (a / β)) ^ 2 := by
    rw [neg_dotProduct, dotProduct_neg, neg_neg, smul_dotProduct, dotProduct_smul, ← ha2, ← hτa]
    simp only [smul_eq_mul]; ring
  refine ⟨-(τ • g), ?_, ?_, ?_⟩
  · rw [hdd]; exact pow_le_pow_left₀ hm (min_le_left _ _) 2
  · rw [hdd]; exact pow_le_pow_left₀ hm (min_le_right _ _) 2
  · have e : quadVal g H (-(τ • g)) = - τ * (a * a) + 1 / 2 * (τ * τ) * (g ⬝ᵥ H *ᵥ g) := by
      unfold quadVal
      simp only [mulVec_neg, mulVec_smul, neg_dotProduct, dotProduct_neg, smul_dotProduct, dotProduct_smul, ha2,
        smul_eq_mul]
      ring
    have h1 : 1 / 2 * (τ * τ) * (g ⬝ᵥ H *ᵥ g) ≤ 1 / 2 * (τ * τ) * (β * (a * a)) := by
      apply mul_le_mul_of_nonneg_left _ (by positivity)
      rw [ha2]; exact hH
    have h2 : cauchyDec a r β = 1 / 2 * (τ * (a * a)) := by
      unfold cauchyDec; rw [← hτa]; ring
    have h3 : τ * (a * a) * (τ * β) ≤ τ * (a * a) * 1 := mul_le_mul_of_nonneg_left hτβ (by positivity)
    rw [e, h2]
    nlinarith

/-- An accepted step of the Moré-Sorensen solver. -/
theorem accepted_cauchy {k : MSKer K ι} (hk : GoodKer k) {g : ι → K} {H : Matrix ι ι K} {Δ εD : K} {o : MSOut K ι}
    (hH : ∀ i j, H i j = H j i) (hΔ : 0 < Δ) (hε1 : εD ≤ 1) (hA : Accepted k g H Δ εD o) {β : K} (hβ : 0 ≤ β)
    (hβH : g ⬝ᵥ H *ᵥ g ≤ β * (g ⬝ᵥ g)) (ha : 0 < k.nrm g) :
    quadVal g H o.s ≤ - cauchyDec (k.nrm g) ((1 - εD) * Δ) (β + 1 / 10 ^ 12) := by
  have hp : (0 : K) < 1 / 10 ^ 12 := by positivity
  have hβ' : 0 < β + 1 / 10 ^ 12 := by linarith
  have hr : 0 ≤ (1 - εD) * Δ := mul_nonneg (by linarith) hΔ.le
  have hgg := ms_dot_self_nonneg g
  have hns := GoodKer.nrm_sq hk g
  rcases hA.sphere with h | h
  · -- no constraint active: compare with the Cauchy point of `H + lam I`
    have hq : ∀ d, quadVal g (H + o.lam • (1 : Matrix ι ι K)) d = quadVal g H d + o.lam / 2 * (d ⬝ᵥ d) := by
      intro d
      unfold quadVal
      rw [add_mulVec, smul_mulVec, one_mulVec, dotProduct_add, dotProduct_smul, smul_eq_mul]; ring
    have hcurv : g ⬝ᵥ (H + o.lam • (1 : Matrix ι ι K)) *ᵥ g ≤ (β + 1 / 10 ^ 12) * (g ⬝ᵥ g) := by
      rw [add_mulVec, smul_mulVec, one_mulVec, dotProduct_add, dotProduct_smul, smul_eq_mul]
      have := mul_le_mul_of_nonneg_right h hgg
      linarith
    obtain ⟨d, -, -, hd⟩ := cauchy_point g _ ha hns hr hβ' hcurv
    have hid := model_identity g H hH _ _ d hA.stat
    have hpsd := hA.psd (d - o.s)
    have hss := mul_nonneg hA.lam (ms_dot_self_nonneg o.s)
    rw [hq] at hd
    linarith
  · have hcurv : g ⬝ᵥ H *ᵥ g ≤ (β + 1 / 10 ^ 12) * (g ⬝ᵥ g) := by
      have := mul_nonneg hp.le hgg
      linarith
    obtain ⟨d, h1, -, hd⟩ := cauchy_point g _ ha hns hr hβ' hcurv
    have hid := model_identity g H hH _ _ d hA.stat
    have hpsd := hA.psd (d - o.s)
    have h2 : ((1 - εD) * Δ) ^ 2 ≤ o.s ⬝ᵥ o.s := by
      rw [← GoodKer.nrm_sq hk, ← sq]
      exact pow_le_pow_left₀ hr h 2
    have h3 : 0 ≤ o.lam / 2 * (o.s ⬝ᵥ o.s - d ⬝ᵥ d) := mul_nonneg (by linarith [hA.lam]) (by linarith)
    linarith

/-- **C112** (Moré-Sorensen solver).  For a gradient of length at least `1e-6` a step outside the hard case decreases the model by at
least the Cauchy decrease for the radius `(1 - εD)Δ` and the curvature bound `β + 1e-12`. -/
theorem C112_more_sorensen {k : MSKer K ι} (hk : GoodKer k) (g : ι → K) (H : Matrix ι ι K) (Δ εD : K) (hH : ∀ i j, H i j = H j i)
    (hΔ : 0 < Δ) (hε : 0 ≤ εD) (hε1 : εD ≤ 1) (hg : 1 / 10 ^ 12 ≤ g ⬝ᵥ g) (hard : (trms k g H Δ εD).hard = false) (β : K) (hβ : 0 ≤ β)
    (hβH : g ⬝ᵥ H *ᵥ g ≤ β * (g ⬝ᵥ g)) :
    quadVal g H (trms k g H Δ εD).s ≤ - cauchyDec (k.nrm g) ((1 - εD) * Δ) (β + 1 / 10 ^ 12) := by
  have hA := (C61_global_minimiser hk g H Δ εD hH hΔ hε hε1 hg hard).2.2
  refine accepted_cauchy hk hH hΔ hε1 hA hβ hβH ?_
  have h0 := GoodKer.nrm_nonneg hk g
  have h2 := GoodKer.nrm_sq hk g
  rcases h0.lt_or_eq with h | h
  · exact h
  · rw [← h, mul_zero] at h2
    have : (0 : K) < 1 / 10 ^ 12 := by positivity
    linarith

/-- **C112** (hard case).  In the hard case the decrease is the Cauchy decrease for the whole radius, up to `1e-15`. -/
theorem C112_hard {k : MSKer K ι} (hk : GoodKer k) (g : ι → K) (H : Matrix ι ι K) (Δ εD : K) (V : Matrix ι ι K)
    (D : ι → K) (m : ι) (he : EigOf H V D m) (hker : k.eig H = (V, D, m)) (hΔ : 0 < Δ) (hε0 : 0 ≤ εD) (hε : εD ≤ 1)
    (hg : 1 / 10 ^ 12 ≤ g ⬝ᵥ g) (hne : ∃ i, D i ≠ D m) (hμ : D m < - (1 / 10 ^ 12))
    (hort : ∀ i, NearMin D m i → (Vᵀ *ᵥ g) i = 0)
    (hin : othStep V D m g ⬝ᵥ othStep V D m g < ((1 - εD) * Δ) ^ 2) (β : K) (hβ : 0 < β) (hβH : g ⬝ᵥ H *ᵥ g ≤ β * (g ⬝ᵥ g)) :
    quadVal g H (trms k g H Δ εD).s ≤ - cauchyDec (k.nrm g) Δ β + 1 / 10 ^ 15 := by
  have h2 := GoodKer.nrm_sq hk g
  have ha : 0 < k.nrm g := by
    rcases (GoodKer.nrm_nonneg hk g).lt_or_eq with h | h
    · exact h
    · rw [← h, mul_zero] at h2
      have : (0 : K) < 1 / 10 ^ 12 := by positivity
      linarith
  obtain ⟨d, h1, -, hd⟩ := cauchy_point g H ha h2 hΔ.le hβ hβH
  have := (C87_hard_case hk g H Δ εD V D m he hker hΔ hε0 hε hg hne hμ hort hin).2 d h1
  linarith

/-- **C112** (short gradients).  For a gradient shorter than `1e-6` there is no step at all: the bound does not extend to it. -/
theorem C112_short {k : MSKer K ι} (hk : GoodKer k) (g : ι → K) (H : Matrix ι ι K) (Δ εD : K) (hg : g ⬝ᵥ g < 1 / 10 ^ 12) :
    (trms k g H Δ εD).s = 0 ∧ (∀ r β, 0 < r → 0 < β → 0 < g ⬝ᵥ g →
      - cauchyDec (k.nrm g) r β < quadVal g H (trms k g H Δ εD).s) := by
  have hsq : k.nrm g ^ 2 = g ⬝ᵥ g := by rw [← GoodKer.nrm_sq hk]; ring
  have hs : (trms k g H Δ εD).s = 0 := by
    unfold trms
    split_ifs with h1 h2
    · rfl
    · rfl
    · rw [hsq] at h2; exact absurd hg h2
  refine ⟨hs, fun r β hr hβ hpos => ?_⟩
  have hn : 0 < k.nrm g := by
    rcases (GoodKer.nrm_nonneg hk g).lt_or_eq with h | h
    · exact h
    · rw [← h] at hsq; simp at hsq; linarith
  rw [hs]
  have e : quadVal g H 0 = 0 := by unfold quadVal; simp
  rw [e]
  unfold cauchyDec
  have : 0 < min r (k.nrm g / β) := lt_min hr (div_pos hn hβ)
  have : 0 < 1 / 2 * k.nrm g * min r (k.nrm g / β) := by positivity
  linarith

end Field

section CG
variable {n : ℕ}

/-- After any further iterations the model value is at most the value at the current point. -/
theorem cgLoop_below {A : Matrix (Fin n) (Fin n) ℝ} {b : Fin n → ℝ} {δ tol : ℝ} {maxIter iter : ℕ} {s : CGState n} {curv : Option ℝ}
    {trace : List (Fin n → ℝ)} (hA : ∀ i j, A i j = A j i) (hle : iter ≤ maxIter + 1) (h : CGInv A b δ iter s)
    (hl : trace.getLast? = some s.x) : quadModel A b (cgLoop A δ tol maxIter iter s curv trace).x ≤ quadModel A b s.x := by
  obtain ⟨-, -, -, -, -, -, -, h8, h9⟩ := cgLoop_spec (tol := tol) (maxIter := maxIter) _ iter s curv trace rfl hle h hl
  obtain ⟨ext, he, hc⟩ := h9 hA
  rw [he] at h8
  generalize (cgLoop A δ tol maxIter iter s curv trace).x = y at h8 hc
  have hlast : (s.x :: ext).getLast? = some y := by
    rw [List.getLast?_append] at h8
    rw [List.getLast?_cons]
    rw [hl] at h8
    cases hx : ext.getLast? with
    | none => rw [hx] at h8; simpa using h8
    | some z => rw [hx] at h8; simpa using h8
  clear h8 he
  have key : ∀ (l : List (Fin n → ℝ)) (u : Fin n → ℝ), List.IsChain (fun u v => quadModel A b v < quadModel A b u ∨
      (v = y ∧ quadModel A b v ≤ quadModel A b u)) (u :: l) → (u :: l).getLast? = some y → quadModel A b y ≤ quadModel A b u := by
    intro l
    induction l with
    | nil => intro u _ hu; simp at hu; rw [hu]
    | cons v l ih =>
      intro u hch hu
      rw [List.isChain_cons_cons] at hch
      have := ih v hch.2 (by simpa using hu)
      rcases hch.1 with h | h
      · linarith
      · linarith [h.2]
  exact key ext s.x hc hlast

/-- **C112** (truncated conjugate gradients).  If the right-hand side is longer than the tolerance and at least one iteration is allowed,
the model decreases by at least the Cauchy decrease. -/
theorem C112_truncated_cg (A : Matrix (Fin n) (Fin n) ℝ) (hA : ∀ i j, A i j = A j i) (b : Fin n → ℝ) (δ tol : ℝ) (hδ : 0 < δ)
    (maxIter : ℕ) (hmax : 1 ≤ maxIter) (hb : tol ^ 2 < b ⬝ᵥ b) (β : ℝ) (hβ : 0 < β) (hβA : b ⬝ᵥ A *ᵥ b ≤ β * (b ⬝ᵥ b)) :
    quadModel A b (truncCG A b δ tol maxIter).x ≤ - cauchyDec (Real.sqrt (b ⬝ᵥ b)) δ β := by
  have hbb : 0 < b ⬝ᵥ b := lt_of_le_of_lt (sq_nonneg tol) hb
  set a := Real.sqrt (b ⬝ᵥ b) with ha
  have ha2 : a * a = b ⬝ᵥ b := Real.mul_self_sqrt hbb.le
  have ha0 : 0 < a := Real.sqrt_pos.2 hbb
  have hbne : b ≠ 0 := by intro h; rw [h] at hbb; simp at hbb
  have hinv := truncCG_inv A b δ
  unfold truncCG cgLoop
  have h0 : ¬ ((-b) ⬝ᵥ (-b) ≤ tol * tol) := by
    rw [neg_dotProduct, dotProduct_neg, neg_neg, ← sq]; exact not_le.2 hb
  have hdir : cgDir 1 { x := 0, g := -b, g2 := (-b) ⬝ᵥ (-b), g2p := 0, d := 0 } = b := by simp [cgDir]
  simp only [if_neg h0, if_neg (show ¬ 1 > maxIter by omega), hdir]
  have hq : ∀ t : ℝ, quadModel A b (0 + t • b) = - t * (b ⬝ᵥ b) + t ^ 2 / 2 * (b ⬝ᵥ A *ᵥ b) := by
    intro t
    rw [quadModel_step hA, mulVec_zero, zero_sub, neg_dotProduct]
    simp [quadModel]
  have hball : (0 : Fin n → ℝ) ⬝ᵥ 0 ≤ δ ^ 2 := by rw [zero_dotProduct]; positivity
  -- a point of the sphere along `b` whose step is not beyond the minimiser along `b`
  have sphere : ∀ t : ℝ, 0 ≤ t → (0 + t • b) ⬝ᵥ (0 + t • b) = δ ^ 2 → t * (b ⬝ᵥ A *ᵥ b) ≤ b ⬝ᵥ b →
      quadModel A b (0 + t • b) ≤ - cauchyDec a δ β := by
    intro t ht hs hc
    have hta : t * a = δ := by
      have : (t * a) ^ 2 = δ ^ 2 := by
        rw [← hs, zero_add, smul_dotProduct, dotProduct_smul, ← ha2]; simp only [smul_eq_mul]; ring
      exact (pow_left_inj₀ (mul_nonneg ht ha0.le) hδ.le two_ne_zero).1 this
    have h1 : cauchyDec a δ β ≤ 1 / 2 * a * δ := by
      unfold cauchyDec
      exact mul_le_mul_of_nonneg_left (min_le_left _ _) (by positivity)
    have h2 := mul_le_mul_of_nonneg_left hc ht
    rw [hq]
    have h3 : 1 / 2 * a * δ = 1 / 2 * t * (b ⬝ᵥ b) := by rw [← hta, ← ha2]; ring
    nlinarith
  by_cases hneg : b ⬝ᵥ A *ᵥ b ≤ 0
  · simp only [if_pos hneg]
    have hne : (0 : Fin n → ℝ) + b ≠ 0 := by simpa using hbne
    obtain ⟨t, ht, hx, hs, -⟩ := compDir_spec (δ := δ) hball hne
    rw [hx] at hs ⊢
    rw [show (0 : Fin n → ℝ) + b - 0 = b by simp] at hs ⊢
    refine sphere t ht hs ?_
    have := mul_nonneg ht (neg_nonneg.2 hneg)
    linarith
  · have hpos := not_le.1 hneg
    simp only [if_neg hneg]
    set α := -(-b ⬝ᵥ b) / (b ⬝ᵥ A *ᵥ b) with hα
    have hα' : α = (b ⬝ᵥ b) / (b ⬝ᵥ A *ᵥ b) := by rw [hα, neg_dotProduct, neg_neg]
    have hαmul : α * (b ⬝ᵥ A *ᵥ b) = b ⬝ᵥ b := by rw [hα', div_mul_cancel₀ _ hpos.ne']
    have hα0 : 0 < α := by rw [hα']; exact div_pos hbb hpos
    by_cases hout : ((0 : Fin n → ℝ) + α • b) ⬝ᵥ (0 + α • b) > δ * δ
    · simp only [if_pos hout]
      have hne : (0 : Fin n → ℝ) + α • b ≠ 0 := by
        rw [zero_add]; exact smul_ne_zero hα0.ne' hbne
      obtain ⟨t, ht, hx, hs, ht1⟩ := compDir_spec (δ := δ) hball hne
      have ht1' := ht1 (by rw [sq]; exact hout.le)
      rw [hx] at hs ⊢
      rw [show (0 : Fin n → ℝ) + t • (0 + α • b - 0) = 0 + (t * α) • b by simp [smul_smul]] at hs ⊢
      refine sphere _ (mul_nonneg ht hα0.le) hs ?_
      rw [mul_assoc, hαmul]
      have := mul_le_mul_of_nonneg_right ht1' hbb.le
      linarith
    · simp only [if_neg hout]
      have hn := hinv.next (by rw [hdir]; exact hpos) (by rw [hdir]; exact hout)
      rw [hdir] at hn
      have hlow := cgLoop_below (tol := tol) (maxIter := maxIter) (curv := some (b ⬝ᵥ A *ᵥ b / (b ⬝ᵥ b)))
        (trace := [0] ++ [0 + α • b]) hA (by omega) hn List.getLast?_concat
      refine le_trans hlow ?_
      change quadModel A b (0 + α • b) ≤ _
      rw [hq]
      have h1 : cauchyDec a δ β ≤ 1 / 2 * a * (a / β) := by
        unfold cauchyDec
        exact mul_le_mul_of_nonneg_left (min_le_right _ _) (by positivity)
      have h2 : α ^ 2 / 2 * (b ⬝ᵥ A *ᵥ b) = α / 2 * (b ⬝ᵥ b) := by rw [← hαmul]; ring
      have h3 : 1 / β ≤ α := by
        rw [hα', div_le_div_iff₀ hβ hpos]; linarith
      have h4 : 1 / 2 * a * (a / β) = 1 / 2 * (b ⬝ᵥ b) * (1 / β) := by rw [← ha2]; ring
      have h5 := mul_le_mul_of_nonneg_left h3 hbb.le
      rw [h2]
      nlinarith
end CG

section Tangent
variable {n q : ℕ} {svd : List (VS n q → ℝ) → List ℝ × Matrix (Fin (n + q)) (VS n q) ℝ}

/-- **C112** (tangent step).  If the gradient component along a tangent direction `w` of length 1 exceeds the tolerance, the tangent step
decreases the model by at least the Cauchy decrease belonging to that component. -/
theorem C112_tangent (m : ℕ) (prec : ℝ) (hp : 0 ≤ prec) (rows : List (VS n q → ℝ)) (M : Matrix (VS n q) (VS n q) ℝ) (g : VS n q → ℝ)
    (δ : ℝ) (hδ : 0 < δ) (hM : Mᵀ = M) (h : IsSvd rows (svd rows).1 (svd rows).2) (hmn : m < n) (β : ℝ) (hβ : 0 < β)
    (hβM : ∀ v, v ⬝ᵥ M *ᵥ v ≤ β * (v ⬝ᵥ v)) (w : VS n q → ℝ) (hw : ∀ a ∈ rows, a ⬝ᵥ w = 0) (hw1 : w ⬝ᵥ w = 1)
    (hg : prec < |g ⬝ᵥ w|) :
    tangModel M g (cgTang (nullSvd svd) prec m rows M g δ).1 ≤ - cauchyDec |g ⬝ᵥ w| δ β := by
  set Z := (nullSvd svd rows).2 with hZ
  have hsym : ∀ i j, (Zᵀ * (M * Z)) i j = (Zᵀ * (M * Z)) j i := by
    intro i j
    have e : (Zᵀ * (M * Z))ᵀ = Zᵀ * (M * Z) := by
      rw [transpose_mul, transpose_mul, transpose_transpose, hM, Matrix.mul_assoc]
    conv_lhs => rw [← e]
    rfl
  obtain ⟨u, hu, hul⟩ := nullSvd_complete h w hw
  have e : g ⬝ᵥ w = (Zᵀ *ᵥ g) ⬝ᵥ u := by rw [hu, dotProduct_mulVec, mulVec_transpose]
  set y := -(Zᵀ *ᵥ g) with hy
  have hyy : y ⬝ᵥ y = (Zᵀ *ᵥ g) ⬝ᵥ (Zᵀ *ᵥ g) := by rw [hy, neg_dotProduct, dotProduct_neg, neg_neg]
  have hcs : (g ⬝ᵥ w) ^ 2 ≤ y ⬝ᵥ y := by
    have h1 : ((Zᵀ *ᵥ g) ⬝ᵥ u) ^ 2 ≤ ((Zᵀ *ᵥ g) ⬝ᵥ (Zᵀ *ᵥ g)) * (u ⬝ᵥ u) := by
      have := Finset.sum_mul_sq_le_sq_mul_sq Finset.univ (Zᵀ *ᵥ g) u
      simpa [dotProduct, pow_two] using this
    rw [hul, hw1, mul_one, ← e] at h1
    rw [hyy]; exact h1
  have hb : prec ^ 2 < y ⬝ᵥ y := by
    refine lt_of_lt_of_le ?_ hcs
    rw [← sq_abs (g ⬝ᵥ w)]
    exact pow_lt_pow_left₀ hg hp two_ne_zero
  have hcurv : y ⬝ᵥ (Zᵀ * (M * Z)) *ᵥ y ≤ β * (y ⬝ᵥ y) := by
    have e1 : y ⬝ᵥ (Zᵀ * (M * Z)) *ᵥ y = Z *ᵥ y ⬝ᵥ M *ᵥ (Z *ᵥ y) := by
      rw [← mulVec_mulVec, ← mulVec_mulVec, dotProduct_mulVec, vecMul_transpose]
    rw [e1, ← nullSvd_len h y]
    exact hβM _
  have := C112_truncated_cg _ hsym y δ prec hδ (20 * (n + q - (m + q))) (by omega) hb β hβ hcurv
  rw [hy, tang_reduced] at this
  refine le_trans this ?_
  rw [← hy]
  have h1 : |g ⬝ᵥ w| ≤ Real.sqrt (y ⬝ᵥ y) := Real.abs_le_sqrt hcs
  have := cauchyDec_mono (abs_nonneg (g ⬝ᵥ w)) h1 hδ.le le_rfl hβ
  linarith

end Tangent

section Bounds
variable {K : Type} [Field K] [LinearOrder K] [IsStrictOrderedRing K] {n : ℕ}

/-- **C112** (step of a problem without constraints).  If the bounds are further away than the radius and the solver does not meet the hard
case, the trial point decreases the model by at least the Cauchy decrease. -/
theorem C112_unconstrained {k : BCKer K n} (hk : GoodBC k) (x lb ub g : Fin n → K) (M : Matrix (Fin n) (Fin n) K) (δ : K)
    (hM : ∀ i j, M i j = M j i) (hn : 0 < n) (hδ : 0 < δ) (hg : 1 / 10 ^ 12 ≤ g ⬝ᵥ g)
    (hfar : ∀ i, (1 + 1 / 10 ^ 7) * δ + 1 / 10 ^ 5 < ub i - x i ∧ lb i - x i < - ((1 + 1 / 10 ^ 7) * δ + 1 / 10 ^ 5))
    (hard : ∀ h : (Finset.univ : Finset (Fin n)).Nonempty, (trms (k.ms Finset.univ h) (fun i => g i.1)
      (M.submatrix Subtype.val Subtype.val) δ (1 / 10 ^ 7)).hard = false)
    (β : K) (hβ : 0 ≤ β) (hβM : g ⬝ᵥ M *ᵥ g ≤ β * (g ⬝ᵥ g)) :
    ∃ xnew act, solveTR0 k x lb ub g M δ = some (xnew, act) ∧
      ∀ a, 0 ≤ a → a * a = g ⬝ᵥ g →
        quadVal g M (xnew - x) ≤ - cauchyDec a ((1 - 1 / 10 ^ 7) * δ) (β + 1 / 10 ^ 12) := by
  have hε : (0 : K) ≤ 1 / 10 ^ 7 := by positivity
  have hε1 : (1 : K) / 10 ^ 7 ≤ 1 := by rw [div_le_one (by positivity)]; exact one_le_pow₀ (by norm_num)
  obtain ⟨o, ho, -, -, h, hs⟩ := C90_distant hk ⟨g, M, fun i => lb i - x i, fun i => ub i - x i, δ, 1 / 10 ^ 7⟩ hM hn hδ.le hε hfar
  refine ⟨x + o.s, _, by unfold solveTR0; rw [ho], fun a ha ha2 => ?_⟩
  rw [add_sub_cancel_left]
  have e1 : ∀ u v : Fin n → K, (fun i : (Finset.univ : Finset (Fin n)) => u i.1) ⬝ᵥ (fun i => v i.1) = u ⬝ᵥ v :=
    fun u v => Finset.sum_coe_sort Finset.univ fun i => u i * v i
  have e2 : ∀ v : Fin n → K, (M.submatrix Subtype.val Subtype.val) *ᵥ (fun i : (Finset.univ : Finset (Fin n)) => v i.1) =
      fun i : (Finset.univ : Finset (Fin n)) => (M *ᵥ v) i.1 := fun v => funext fun i => Finset.sum_coe_sort Finset.univ fun j => M i.1 j * v j
  have hkn := GoodKer.nrm_sq (hk.ms Finset.univ h) (fun i => g i.1)
  rw [e1] at hkn
  have hna : (k.ms Finset.univ h).nrm (fun i => g i.1) = a :=
    (mul_self_inj (GoodKer.nrm_nonneg (hk.ms Finset.univ h) _) ha).1 (hkn.trans ha2.symm)
  have hms := C112_more_sorensen (hk.ms Finset.univ h) (fun i => g i.1) (M.submatrix Subtype.val Subtype.val) δ (1 / 10 ^ 7)
    (fun i j => hM _ _) hδ hε hε1 (by rw [e1]; exact hg) (hard h) β hβ (by rw [e2, e1, e1]; exact hβM)
  rw [hna] at hms
  have hs' : (trms (k.ms Finset.univ h) (fun i => g i.1) (M.submatrix Subtype.val Subtype.val) δ (1 / 10 ^ 7)).s =
      fun i => o.s i.1 := funext fun i => (hs i.1).symm
  have e3 : quadVal (fun i : (Finset.univ : Finset (Fin n)) => g i.1) (M.submatrix Subtype.val Subtype.val) (fun i => o.s i.1) =
      quadVal g M o.s := by
    unfold quadVal
    rw [e2, e1, e1]
  rw [hs', e3] at hms
  exact hms
end Bounds

/-! ### Concrete cases -/

/-- Conjugate gradients for `x^2/2 + 2*y^2 - 3*x - 4*y`: `(3, 4)` has length 5 and the curvature along it is at most 4, so in the unit disc
the model decreases by at least 5/2. -/
example : quadModel !![1, 0; 0, 4] ![3, 4] (truncCG !![1, 0; 0, 4] ![3, 4] 1 (1 / 10 ^ 6) 40).x ≤ - (5 / 2) := by
  have h25 : (![3, 4] : Fin 2 → ℝ) ⬝ᵥ ![3, 4] = 25 := by simp [dotProduct, Fin.sum_univ_two]; norm_num
  have h := C112_truncated_cg !![1, 0; 0, 4] (by intro i j; fin_cases i <;> fin_cases j <;> rfl) ![3, 4] 1 (1 / 10 ^ 6) one_pos 40
    (by norm_num) (by rw [h25]; norm_num) 4 (by norm_num) (by
      rw [h25]
      simp [dotProduct, mulVec, Fin.sum_univ_two]
      norm_num)
  have h5 : Real.sqrt 25 = 5 := by
    rw [show (25 : ℝ) = 5 ^ 2 by norm_num]; exact Real.sqrt_sq (by norm_num)
  rw [h25, h5] at h
  have e : cauchyDec (5 : ℝ) 1 4 = 5 / 2 := by unfold cauchyDec; norm_num
  rwa [e] at h

/-- The tangent step along the line orthogonal to `(3, 4)`, gradient `(-4, 3)` of length 5, radius 2: decrease at least 5. -/
example : tangModel 1 Ex.tGrad (cgTang (nullSvd Ex.tSvd) (1 / 10) 1 [Ex.tRow] 1 Ex.tGrad 2).1 ≤ - 5 := by
  have hw : ∀ a ∈ [Ex.tRow], a ⬝ᵥ ((1 / 5 : ℝ) • Ex.tGrad) = 0 := by
    simp [Ex.tGrad, Ex.tRow, dotProduct, Fintype.sum_sum_type, Fin.sum_univ_two]
    norm_num
  have h25 : Ex.tGrad ⬝ᵥ Ex.tGrad = 25 := by
    simp [Ex.tGrad, dotProduct, Fintype.sum_sum_type, Fin.sum_univ_two]
    norm_num
  have hg : |Ex.tGrad ⬝ᵥ ((1 / 5 : ℝ) • Ex.tGrad)| = 5 := by
    rw [dotProduct_smul, h25, smul_eq_mul, abs_of_pos] <;> norm_num
  have h := C112_tangent (svd := Ex.tSvd) 1 (1 / 10) (by norm_num) [Ex.tRow] 1 Ex.tGrad 2 (by norm_num) transpose_one Ex.tSvd_spec
    (by norm_num) 1 one_pos (fun v => by rw [one_mulVec, one_mul]) _ hw
    (by rw [smul_dotProduct, dotProduct_smul, h25]; norm_num) (by rw [hg]; norm_num)
  rw [hg] at h
  have e : cauchyDec (5 : ℝ) 2 1 = 5 := by unfold cauchyDec; norm_num
  rwa [e] at h

/-- The model `2*s^2/2 - 2*s` in one variable, radius 5: the first factorisation gives the step 1 and the hard case does not occur. -/
theorem Ex.one_step {ι : Type} [Fintype ι] [DecidableEq ι] [Nonempty ι] [Subsingleton ι] :
    (trms (Ex.realKer (ι := ι)) (fun _ => -2) (Matrix.of fun _ _ => 2) 5 (1 / 10 ^ 7)).hard = false ∧
    (trms (Ex.realKer (ι := ι)) (fun _ => -2) (Matrix.of fun _ _ => 2) 5 (1 / 10 ^ 7)).s = fun _ => 1 := by
  obtain ⟨i0⟩ := (inferInstance : Nonempty ι)
  have hsum : ∀ f : ι → ℝ, ∑ i, f i = f i0 := fun f => Fintype.sum_subsingleton f i0
  have hg : Ex.realKer.nrm (fun _ : ι => (-2 : ℝ)) = 2 :=
    GoodKer.nrm_eq Ex.realKer_good _ 2 (by norm_num) (by simp only [dotProduct, hsum]; norm_num)
  have hb : Ex.realKer.hb (Matrix.of fun _ _ : ι => (2 : ℝ)) = 2 := by
    change √(∑ i : ι, ∑ j : ι, (2 : ℝ) ^ 2) = 2
    rw [hsum, hsum]
    exact Real.sqrt_sq (by norm_num)
  have hl : (msStart Ex.realKer (fun _ : ι => (-2 : ℝ)) (Matrix.of fun _ _ => 2) 5).lam = 0 := by
    unfold msStart
    simp only
    rw [hg, hb, if_pos (by norm_num)]
  obtain ⟨R, hR⟩ := Ex.realKer_chol (ι := ι) ((Matrix.of fun _ _ => 2) + (0 : ℝ) • (1 : Matrix ι ι ℝ)) (by
      intro i j
      simp [Matrix.add_apply]) (by
      intro v hv
      have h0 : v i0 ≠ 0 := by
        intro h
        apply hv
        funext i
        rw [Subsingleton.elim i i0]; exact h
      simp only [Matrix.of_apply, zero_smul, add_zero, dotProduct, mulVec, hsum]
      nlinarith [mul_self_pos.2 h0])
  have hst := msSolve_stat Ex.realKer_good (fun _ : ι => (-2 : ℝ)) _ R (by
      intro i j
      simp [Matrix.add_apply]) hR
  have hs : Ex.realKer.solve (-R) (Ex.realKer.solve Rᵀ (fun _ : ι => (-2 : ℝ))) = fun _ => 1 := by
    funext i
    have := congrFun hst.1 i0
    simp only [Matrix.of_apply, zero_smul, add_zero, mulVec, dotProduct, hsum, Pi.neg_apply] at this
    rw [Subsingleton.elim i i0]
    linarith
  have hn : Ex.realKer.nrm (fun _ : ι => (1 : ℝ)) = 1 :=
    GoodKer.nrm_eq Ex.realKer_good _ 1 (by norm_num) (by simp only [dotProduct, hsum])
  unfold trms
  rw [if_neg (by norm_num), hg, if_neg (by unfold epsMS; norm_num)]
  rw [msLoop_accept 299 (by rw [hl]; exact hR) (by
    simp only [msSolve, hs, hn, hl]
    exact ⟨by unfold epsMS; positivity, by norm_num⟩)]
  simp only [msSolve, hs, msAccept, and_self]

theorem Ex.one_newton {ι : Type} [Fintype ι] [DecidableEq ι] [Nonempty ι] [Subsingleton ι] :
    (trms (Ex.realKer (ι := ι)) (fun _ => -2) (Matrix.of fun _ _ => 2) 5 (1 / 10 ^ 7)).hard = false := Ex.one_step.1

/-- The step of the program for that model with bounds `-20` and `20` from the point 1: the decrease is at least `1 - 1e-12`. -/
example : ∃ xnew act, solveTR0 Ex.realBC (fun _ => 1) (fun _ => -20) (fun _ => 20) (fun _ => -2) (Matrix.of fun _ _ => 2) 5 =
      some (xnew, act) ∧
    quadVal (fun _ : Fin 1 => (-2 : ℝ)) (Matrix.of fun _ _ => 2) (xnew - fun _ => 1) ≤ - (1 - 1 / 10 ^ 12) := by
  obtain ⟨xnew, act, h1, h2⟩ := C112_unconstrained (K := ℝ) (n := 1) Ex.realBC_good (fun _ => 1) (fun _ => -20) (fun _ => 20)
    (fun _ => -2) (Matrix.of fun _ _ => 2) 5 (fun _ _ => rfl) one_pos (by norm_num) (by simp [dotProduct]; norm_num)
    (fun i => by norm_num) (fun h => by
      have : Nonempty (Finset.univ : Finset (Fin 1)) := h.to_subtype
      exact Ex.one_newton) 2 (by norm_num) (by simp [dotProduct, mulVec])
  refine ⟨xnew, act, h1, le_trans (h2 2 (by norm_num) (by simp [dotProduct])) ?_⟩
  have e : cauchyDec (2 : ℝ) ((1 - 1 / 10 ^ 7) * 5) (2 + 1 / 10 ^ 12) = 2 / (2 + 1 / 10 ^ 12) := by
    unfold cauchyDec
    rw [min_eq_right (by norm_num)]
    norm_num
  rw [e]
  norm_num

/-- The hard case `-x^2/2 + y^2/2 + y` in the unit disc: the decrease is at least 1/2, up to `1e-15`. -/
example : quadVal ![0, 1] !![-1, 0; 0, 1] (trms Ex.hardKer ![0, 1] !![-1, 0; 0, 1] 1 (1 / 1000)).s ≤ - (1 / 2) + 1 / 10 ^ 15 := by
  have hker : Ex.hardKer.eig !![-1, 0; 0, 1] = (1, ![-1, 1], 0) := by
    simp only [Ex.hardKer]
    rw [if_pos (by intro i j; fin_cases i <;> fin_cases j <;> rfl)]
    refine Prod.ext rfl (Prod.ext ?_ rfl)
    funext i
    fin_cases i <;> rfl
  have n0 : NearMin (![-1, 1] : Fin 2 → ℝ) 0 0 := ⟨1, by norm_num⟩
  have n1 : ¬ NearMin (![-1, 1] : Fin 2 → ℝ) 0 1 := by
    rintro ⟨j, hj⟩
    fin_cases j <;> norm_num at hj
  have hn : Ex.hardKer.nrm ![0, 1] = 1 :=
    GoodKer.nrm_eq Ex.hardKer_good _ 1 (by norm_num) (by simp [dotProduct, Fin.sum_univ_two])
  have h := C112_hard Ex.hardKer_good ![0, 1] !![-1, 0; 0, 1] 1 (1 / 1000) 1 ![-1, 1] 0 ⟨by simp, by simp, by
      ext i j
      fin_cases i <;> fin_cases j <;> simp, by
      intro i
      fin_cases i <;> norm_num⟩ hker one_pos
    (by norm_num) (by norm_num) (by simp [dotProduct, Fin.sum_univ_two]; norm_num) ⟨1, by norm_num⟩ (by norm_num) (by
      intro i hi
      fin_cases i
      · simp
      · exact absurd hi n1) (by simp [dotProduct, Fin.sum_univ_two, othStep, n0, n1]; norm_num) 1 one_pos
    (by simp [dotProduct, mulVec, Fin.sum_univ_two])
  rw [hn] at h
  have e : cauchyDec (1 : ℝ) 1 1 = 1 / 2 := by unfold cauchyDec; norm_num
  rwa [e] at h

#print axioms C112_more_sorensen
#print axioms C112_hard
#print axioms C112_short
#print axioms C112_truncated_cg
#print axioms C112_tangent
#print axioms C112_unconstrained

end Sqpdfo
