import Verif.Props.C54_C62_NewYj
import Verif.Props.C43_C66_TRMSbc

/-! # C71: improvement points and poisedness with linear models -/

set_option linter.unusedSectionVars false

namespace Sqpdfo
open Matrix Finset Spec
variable {n p : ℕ}

/-- The kernels handle the zero Hessian: its norm bound is zero and positive multiples of the identity
are factorised. -/
structure Spec.LinKer {ι : Type} [Fintype ι] [DecidableEq ι] (k : MSKer ℝ ι) : Prop extends GoodKer k where
  hb0 : k.hb 0 = 0
  one : ∀ t : ℝ, 0 < t → ∃ R, k.chol (t • (1 : Matrix ι ι ℝ)) = .ok R

theorem scalar_symm (t : ℝ) (i j : Fin n) : (t • (1 : Matrix (Fin n) (Fin n) ℝ)) i j =
    (t • (1 : Matrix (Fin n) (Fin n) ℝ)) j i := by
  rw [Matrix.smul_apply, Matrix.smul_apply, Matrix.one_apply, Matrix.one_apply]
  simp only [eq_comm]

theorem msLoop_accept_boundary {k : MSKer ℝ (Fin n)} {g : Fin n → ℝ} {H R : Matrix (Fin n) (Fin n) ℝ} {Δ εD : ℝ}
    (r : ℕ) {S : MSState ℝ (Fin n)} (hR : k.chol (H + S.lam • (1 : Matrix (Fin n) (Fin n) ℝ)) = .ok R)
    (h : (msSolve k g R S).norms ≥ (1 - εD) * Δ ∧ (msSolve k g R S).norms ≤ (1 + εD) * Δ) :
    msLoop k g H Δ εD (r + 1) S = .inl (msAccept g H Δ εD (msSolve k g R S)) := by
  simp only [msLoop, hR]
  rw [if_pos (Or.inr h)]

theorem Ex.realKer_lin [NeZero n] : LinKer (Ex.realKer (ι := Fin n)) where
  toGoodKer := Ex.realKer_good
  hb0 := by simp [Ex.realKer]
  one := fun t ht => Ex.realKer_chol _ (scalar_symm t) (fun v hv => by
      rw [smul_mulVec, one_mulVec, dotProduct_smul, smul_eq_mul]
      exact mul_pos ht (ms_dot_self_pos v hv))

/-- For a linear model the first trial of the solver is the exact minimiser. -/
theorem trms_linear {k : MSKer ℝ (Fin n)} (hk : LinKer k) (g : Fin n → ℝ) (Δ εD : ℝ) (hΔ : 0 < Δ)
    (hε : 0 ≤ εD) (hg : 1 / 10 ^ 12 ≤ g ⬝ᵥ g) :
    (trms k g 0 Δ εD).s = -(Δ / k.nrm g) • g ∧ (trms k g 0 Δ εD).value = -(Δ * k.nrm g) ∧
      (trms k g 0 Δ εD).hard = false := by
  have hsq := GoodKer.nrm_sq hk.toGoodKer g
  have hn0 := GoodKer.nrm_nonneg hk.toGoodKer g
  have hpos : 0 < k.nrm g := by
    rcases hn0.lt_or_eq with h | h
    · exact h
    · rw [← h] at hsq
      rw [← hsq] at hg
      norm_num at hg
  generalize hN : k.nrm g = N at *
  have hl : 0 < N / Δ := div_pos hpos hΔ
  have h2 : k.sq (N / Δ * (N / Δ)) = N / Δ := by
    obtain ⟨a, b⟩ := hk.sq _ (mul_self_nonneg (N / Δ))
    exact (mul_self_inj a hl.le).1 b
  have hS : msStart k g 0 Δ = ⟨N / Δ, N / Δ, N / Δ, 0, 0, 0⟩ := by
    unfold msStart
    simp only [hN, hk.hb0, sub_zero, add_zero, max_eq_right hl.le, if_neg hl.ne', safeLam, h2, sub_self,
      mul_zero, max_self]
  obtain ⟨R, hR⟩ := hk.one _ hl
  have hst := (msSolve_stat hk.toGoodKer g _ R (scalar_symm _) hR).1
  rw [smul_mulVec, one_mulVec] at hst
  have hs : k.solve (-R) (k.solve Rᵀ g) = -(Δ / N) • g := by
    have h3 : (Δ / N) • ((N / Δ) • k.solve (-R) (k.solve Rᵀ g)) = (Δ / N) • -g := by rw [hst]
    rw [smul_smul, show Δ / N * (N / Δ) = 1 by field_simp, one_smul, smul_neg] at h3
    rw [h3, neg_smul]
  have hns : k.nrm (-(Δ / N) • g) = Δ := by
    refine GoodKer.nrm_eq hk.toGoodKer _ _ hΔ.le ?_
    rw [smul_dotProduct, dotProduct_smul, smul_eq_mul, smul_eq_mul, ← hsq]
    field_simp
  have hloop : msLoop k g 0 Δ εD 300 (msStart k g 0 Δ) =
      .inl (msAccept g 0 Δ εD (msSolve k g R (msStart k g 0 Δ))) := by
    rw [hS]
    refine msLoop_accept_boundary 299 (by rw [zero_add]; exact hR) ?_
    simp only [msSolve, hs, hns]
    constructor <;> nlinarith
  unfold trms
  rw [if_neg hΔ.ne', if_neg (by
    rw [hN, pow_two, hsq, not_lt]; exact hg), hloop]
  simp only [msAccept, msSolve, hs]
  refine ⟨trivial, ?_, trivial⟩
  unfold modelVal
  rw [zero_mulVec, dotProduct_zero, mul_zero, add_zero, dotProduct_smul, smul_eq_mul, ← hsq]
  field_simp

theorem hess_linear (L scale : Fin (n + 1) → ℝ) (shift : Bool) : hessP n L scale shift = 0 := by
  ext r s
  unfold hessP hessRaw
  simp

/-- The proposal for a linear polynomial whose gradient in the scaled space is not below `1e-6`. -/
theorem newPoint_linear {k : MSKer ℝ (Fin n)} (hk : LinKer k) {L scale : Fin (n + 1) → ℝ}
    {xbase y0 : Fin n → ℝ} {shift : Bool} {σ : ℝ} (F : FrameOk L scale xbase y0 shift σ) {Δ εL : ℝ}
    (hΔ : 0 < Δ) (hε : 0 ≤ εL) {g : Fin n → ℝ}
    (hg : gradP L (if shift then 0 else y0) xbase scale false = g) (hgn : 1 / 10 ^ 12 ≤ g ⬝ᵥ g) :
    newPoint k L y0 Δ εL xbase scale shift = ⟨y0 - (Δ / k.nrm g) • g, Δ * σ * k.nrm g⟩ ∧
      0 < k.nrm g := by
  have hΔσ : 0 < Δ * σ := mul_pos hΔ F.hσ
  have hn0 := GoodKer.nrm_nonneg hk.toGoodKer g
  have hsq := GoodKer.nrm_sq hk.toGoodKer g
  have hpos : 0 < k.nrm g := by
    rcases hn0.lt_or_eq with h | h
    · exact h
    · rw [← h] at hsq
      rw [← hsq] at hgn
      norm_num at hgn
  have hneg : k.nrm (-g) = k.nrm g := by
    unfold MSKer.nrm; rw [neg_dotProduct, dotProduct_neg, neg_neg]
  obtain ⟨p1, p2, -⟩ := trms_linear hk g (Δ * σ) εL hΔσ hε hgn
  obtain ⟨-, m2, -⟩ := trms_linear hk (-g) (Δ * σ) εL hΔσ hε
    (by rw [neg_dotProduct, dotProduct_neg, neg_neg]; exact hgn)
  rw [hneg] at m2
  refine ⟨?_, hpos⟩
  unfold newPoint
  simp only [F.hc, hg, hess_linear, neg_zero, p1, p2, m2, lt_irrefl, if_false]
  congr 1
  · rw [smul_smul, mul_neg, neg_smul, ← sub_eq_add_neg]
    have := F.hσ.ne'
    rw [show 1 / σ * (Δ * σ / k.nrm g) = Δ / k.nrm g by field_simp]
  · rw [abs_neg, abs_of_pos (mul_pos hΔσ hpos)]

variable (Y : Fin (p + 1) → Fin n → ℝ) (Q : Matrix (Fin (n + 1)) (Fin (p + 1)) ℝ)
  (R : Matrix (Fin (p + 1)) (Fin (p + 1)) ℝ)

/-- In the scaled space the gradient of the Lagrange polynomial of a point other than the base point has
length at least 1. -/
theorem lagrange_gradient (hn : 1 ≤ n) (hp : Poised (zMat (n + 1) (buildFrame (n + 1) Y true).pts))
    (j : Fin (p + 1)) (hj : j ≠ 0) (L : Fin (n + 1) → ℝ)
    (h0 : evalP L (Y 0) (buildFrame (n + 1) Y true).xbase (buildFrame (n + 1) Y true).scale true = 0)
    (h1 : evalP L (Y j) (buildFrame (n + 1) Y true).xbase (buildFrame (n + 1) Y true).scale true = 1) :
    ∃ σ, FrameOk L (buildFrame (n + 1) Y true).scale (buildFrame (n + 1) Y true).xbase (Y 0) true σ ∧
      1 ≤ gradP L 0 (buildFrame (n + 1) Y true).xbase (buildFrame (n + 1) Y true).scale false ⬝ᵥ
        gradP L 0 (buildFrame (n + 1) Y true).xbase (buildFrame (n + 1) Y true).scale false := by
  obtain ⟨-, a2, -, ⟨σ, b1, b2, b3⟩, b4⟩ :=
    C53_shift Y ⟨j, exists_ne_of_poised Y true hp j hj⟩ (le_refl (n + 1)) hn
  have hc : (if (true : Bool) then ext (buildFrame (n + 1) Y true).scale 1 else 1 : ℝ) = σ := by
    simp only [if_true]
    unfold ext
    rw [dif_pos (by omega), b2]
    simp; omega
  have F : FrameOk L (buildFrame (n + 1) Y true).scale (buildFrame (n + 1) Y true).xbase (Y 0) true σ :=
    ⟨hn, le_refl _, by
      have : 2 * (n + 1) ≤ (n + 1) * (n + 2) := by nlinarith
      omega, b1, hc, fun _ => ⟨b2, b4⟩, h0⟩
  refine ⟨σ, F, ?_⟩
  have hmod := scaled_model L _ _ (Y 0) true σ F.h1 F.h2 F.hn F.hσ F.hs (σ • (Y j - Y 0))
  rw [F.zero, zero_add, F.hc, smul_smul, one_div, inv_mul_cancel₀ F.hσ.ne', one_smul, add_sub_cancel,
    h1, hess_linear, zero_mulVec, dotProduct_zero, mul_zero, add_zero] at hmod
  simp only [if_true] at hmod
  generalize gradP L 0 (buildFrame (n + 1) Y true).xbase (buildFrame (n + 1) Y true).scale false = g at *
  have ht : (σ • (Y j - Y 0)) ⬝ᵥ (σ • (Y j - Y 0)) ≤ 1 := by
    have h2 : (buildFrame (n + 1) Y true).pts j = σ • (Y j - Y 0) := by
      funext i
      rw [b3, b4, Pi.smul_apply, Pi.sub_apply, smul_eq_mul, mul_comm]
    have h3 := a2 j
    rw [h2] at h3
    unfold enorm2 at h3
    have h4 := Real.sqrt_le_iff.1 h3
    simpa using h4.2
  have hcs := dot_cs g (σ • (Y j - Y 0))
  rw [← hmod] at hcs
  have hgg := ms_dot_self_nonneg g
  nlinarith

theorem linear_point {k : MSKer ℝ (Fin n)} (hk : LinKer k) (hn : 1 ≤ n)
    (hQR : IsQR Q R (zMat (n + 1) (buildFrame (n + 1) Y true).pts))
    (hp : Poised (zMat (n + 1) (buildFrame (n + 1) Y true).pts)) (Δ εL : ℝ) (hΔ : 0 < Δ) (hε : 0 ≤ εL)
    (j : Fin (p + 1)) (hj : j ≠ 0) :
    ∃ L y imp c, computeLj Q R j = some L ∧
      findNewYj k Q R Y j Δ εL (buildFrame (n + 1) Y true).xbase (buildFrame (n + 1) Y true).scale true =
        some ⟨y, imp⟩ ∧
      enorm2 (y - Y 0) = Δ ∧ 0 < imp ∧
      evalP L y (buildFrame (n + 1) Y true).xbase (buildFrame (n + 1) Y true).scale true = -imp ∧
      (∀ z, enorm2 (z - Y 0) ≤ Δ →
        |evalP L z (buildFrame (n + 1) Y true).xbase (buildFrame (n + 1) Y true).scale true| ≤ imp) ∧
      ∀ z, evalP L z (buildFrame (n + 1) Y true).xbase (buildFrame (n + 1) Y true).scale true = c ⬝ᵥ (z - Y 0) := by
  have hq2 : n + 1 ≤ (n + 1) * (n + 2) / 2 := by
    have : 2 * (n + 1) ≤ (n + 1) * (n + 2) := by nlinarith
    omega
  obtain ⟨L, hL, hcard, -⟩ := C37_lagrange Y true Q R hn (le_refl _) hq2 hQR hp
  obtain ⟨σ, F, hg⟩ := lagrange_gradient Y hn hp j hj (L j)
    (by rw [hcard 0 j, if_neg (fun h => hj h.symm)]) (by rw [hcard j j, if_pos rfl])
  have hj1 : ¬ (j : ℕ) < 1 := fun h => hj (Fin.ext (by simpa using h))
  have hmod := scaled_model (L j) _ _ (Y 0) true σ F.h1 F.h2 F.hn F.hσ F.hs
  simp only [if_true] at hmod
  obtain ⟨e1, e2⟩ := newPoint_linear hk F hΔ hε rfl (by
    simp only [if_true]; exact le_trans (by norm_num) hg)
  simp only [if_true] at e1 e2
  have hc := F.hc
  have hz := F.zero
  simp only [if_true] at hc
  rw [hc, hz] at hmod
  generalize gradP (L j) 0 (buildFrame (n + 1) Y true).xbase (buildFrame (n + 1) Y true).scale false = g at *
  have hnn := GoodKer.nrm_sq hk.toGoodKer g
  have hnrm : k.nrm g = enorm2 g := GoodKer.nrm_eq hk.toGoodKer _ _ (enorm2_nonneg _) (by
    unfold enorm2; rw [Real.mul_self_sqrt (ms_dot_self_nonneg _)])
  have hev : ∀ z, evalP (L j) z (buildFrame (n + 1) Y true).xbase (buildFrame (n + 1) Y true).scale true =
      σ * (g ⬝ᵥ (z - Y 0)) := by
    intro z
    have := hmod (σ • (z - Y 0))
    rw [smul_smul, one_div, inv_mul_cancel₀ F.hσ.ne', one_smul, add_sub_cancel, hess_linear, zero_mulVec,
      dotProduct_zero, mul_zero, add_zero, zero_add, dotProduct_smul, smul_eq_mul] at this
    exact this
  refine ⟨L j, Y 0 - (Δ / k.nrm g) • g, Δ * σ * k.nrm g, σ • g, hL j, ?_, ?_,
    mul_pos (mul_pos hΔ F.hσ) e2, ?_, ?_, fun z => by rw [hev, smul_dotProduct, smul_eq_mul]⟩
  · unfold findNewYj
    rw [if_neg hj1, hL j, Option.map_some, e1]
  · rw [sub_sub_cancel_left, ← neg_smul, show -(Δ / k.nrm g) • g = (Δ / k.nrm g) • -g by
      rw [neg_smul, smul_neg], enorm2_smul _ (div_pos hΔ e2).le]
    have : enorm2 (-g) = k.nrm g := by
      rw [hnrm]; unfold enorm2; rw [neg_dotProduct, dotProduct_neg, neg_neg]
    rw [this]
    field_simp
  · rw [hev, sub_sub_cancel_left, dotProduct_neg, dotProduct_smul, smul_eq_mul, ← hnn]
    field_simp
  · intro z hz'
    rw [hev]
    have hcs := dot_cs g (z - Y 0)
    have h1 : |g ⬝ᵥ (z - Y 0)| ≤ k.nrm g * enorm2 (z - Y 0) := by
      refine abs_le_of_sq_le_sq ?_ (mul_nonneg e2.le (enorm2_nonneg _))
      rw [mul_pow, pow_two (k.nrm g), hnn]
      unfold enorm2
      rw [Real.sq_sqrt (ms_dot_self_nonneg _)]
      exact hcs
    rw [abs_mul, abs_of_pos F.hσ]
    have h2 : k.nrm g * enorm2 (z - Y 0) ≤ k.nrm g * Δ := mul_le_mul_of_nonneg_left hz' e2.le
    have := F.hσ
    nlinarith

/-- C71, improvement points.  Linear models, shifted set.  For a point other than the base point the proposal
has exactly the distance `Delta` from the base point, and the reported improvement is the largest absolute
value of the Lagrange polynomial of the point in the ball; it is attained at the proposal, with a negative
sign.  Bounds play no role. -/
theorem C71_linear_point {k : MSKer ℝ (Fin n)} (hk : LinKer k) (hn : 1 ≤ n)
    (hQR : IsQR Q R (zMat (n + 1) (buildFrame (n + 1) Y true).pts))
    (hp : Poised (zMat (n + 1) (buildFrame (n + 1) Y true).pts)) (Δ εL : ℝ) (hΔ : 0 < Δ) (hε : 0 ≤ εL)
    (j : Fin (p + 1)) (hj : j ≠ 0) :
    ∃ L y imp, computeLj Q R j = some L ∧
      findNewYj k Q R Y j Δ εL (buildFrame (n + 1) Y true).xbase (buildFrame (n + 1) Y true).scale true =
        some ⟨y, imp⟩ ∧
      enorm2 (y - Y 0) = Δ ∧ 0 < imp ∧
      evalP L y (buildFrame (n + 1) Y true).xbase (buildFrame (n + 1) Y true).scale true = -imp ∧
      ∀ z, enorm2 (z - Y 0) ≤ Δ →
        |evalP L z (buildFrame (n + 1) Y true).xbase (buildFrame (n + 1) Y true).scale true| ≤ imp := by
  obtain ⟨L, y, imp, c, h1, h2, h3, h4, h5, h6, -⟩ := linear_point Y Q R hk hn hQR hp Δ εL hΔ hε j hj
  exact ⟨L, y, imp, h1, h2, h3, h4, h5, h6⟩

/-- C71, poisedness.  With linear models the poisedness value is exactly the largest absolute value that a
Lagrange polynomial of a point other than the base point attains in the ball whose radius is the largest
distance to the base point (both numbers are returned). -/
theorem C71_linear_poisedness {k : MSKer ℝ (Fin n)} (hk : LinKer k) (hn : 1 ≤ n) (hp1 : 1 ≤ p)
    (hQR : IsQR Q R (zMat (n + 1) (buildFrame (n + 1) Y true).pts))
    (hp : Poised (zMat (n + 1) (buildFrame (n + 1) Y true).pts)) (εL : ℝ) (hε : 0 ≤ εL) :
    ∃ (lam r : ℝ) (L : Fin (p + 1) → Fin (n + 1) → ℝ), (∀ j, computeLj Q R j = some (L j)) ∧
      poisednessY k Q R Y εL (buildFrame (n + 1) Y true).xbase (buildFrame (n + 1) Y true).scale true =
        some (lam, r) ∧
      IsGreatest {d | ∃ j, d = enorm2 (Y j - Y 0)} r ∧
      IsGreatest {v | ∃ j ≠ 0, ∃ z, enorm2 (z - Y 0) ≤ r ∧
        v = |evalP (L j) z (buildFrame (n + 1) Y true).xbase (buildFrame (n + 1) Y true).scale true|} lam := by
  have hq2 : n + 1 ≤ (n + 1) * (n + 2) / 2 := by
    have : 2 * (n + 1) ≤ (n + 1) * (n + 2) := by nlinarith
    omega
  obtain ⟨L, hL, -⟩ := C37_lagrange Y true Q R hn (le_refl _) hq2 hQR hp
  obtain ⟨r0, r1, r2⟩ := yRadius_spec Y
  have hne : ∃ j : Fin (p + 1), j ≠ 0 := ⟨⟨1, by omega⟩, by intro h; simpa using congrArg Fin.val h⟩
  have hpos : 0 < yRadius Y := by
    obtain ⟨j, hj⟩ := hne
    refine lt_of_lt_of_le ?_ (r1 j)
    refine lt_of_le_of_ne (enorm2_nonneg _) fun h => ?_
    exact exists_ne_of_poised Y true hp j hj (sub_eq_zero.1 (enorm2_eq_zero h.symm))
  have hnew : ∀ j ≠ 0, ∃ y imp, findNewYj k Q R Y j (yRadius Y) εL (buildFrame (n + 1) Y true).xbase
      (buildFrame (n + 1) Y true).scale true = some ⟨y, imp⟩ ∧ 0 < imp ∧ enorm2 (y - Y 0) = yRadius Y ∧
      evalP (L j) y (buildFrame (n + 1) Y true).xbase (buildFrame (n + 1) Y true).scale true = -imp ∧
      ∀ z, enorm2 (z - Y 0) ≤ yRadius Y → |evalP (L j) z (buildFrame (n + 1) Y true).xbase
        (buildFrame (n + 1) Y true).scale true| ≤ imp := by
    intro j hj
    obtain ⟨L', y, imp, c, h1, h2, h3, h4, h5, h6, -⟩ := linear_point Y Q R hk hn hQR hp (yRadius Y) εL hpos hε
      j hj
    rw [hL j] at h1
    cases h1
    exact ⟨y, imp, h2, h4, h3, h5, h6⟩
  obtain ⟨m, m1, m2, m3, m4⟩ := foldlM_max
    (fun j => (findNewYj k Q R Y j (yRadius Y) εL (buildFrame (n + 1) Y true).xbase
      (buildFrame (n + 1) Y true).scale true).map fun N => N.imp) (List.finRange (p + 1)).tail 0 (by
      intro j hj
      obtain ⟨y, imp, h, -⟩ := hnew j ((mem_tail_finRange j).1 hj)
      rw [h]
      exact ⟨_, rfl⟩)
  refine ⟨m, yRadius Y, L, hL, ?_, ⟨?_, ?_⟩, ⟨?_, ?_⟩⟩
  · unfold poisednessY
    simp only [Option.map_map] at m1
    have : (fun (l : ℝ) (j : Fin (p + 1)) => (findNewYj k Q R Y j (yRadius Y) εL
        (buildFrame (n + 1) Y true).xbase (buildFrame (n + 1) Y true).scale true).map
          fun N => max N.imp l) =
        fun s i => Option.map ((fun v => max v s) ∘ fun N => N.imp)
          (findNewYj k Q R Y i (yRadius Y) εL (buildFrame (n + 1) Y true).xbase
            (buildFrame (n + 1) Y true).scale true) := rfl
    rw [this, m1]
    rfl
  · obtain ⟨j, h⟩ := r2
    exact ⟨j, h⟩
  · rintro d ⟨j, rfl⟩
    exact r1 j
  · rcases m4 with h | ⟨j, hj, h⟩
    · obtain ⟨j, hj⟩ := hne
      obtain ⟨y, imp, h1, h2, -⟩ := hnew j hj
      have := m3 j ((mem_tail_finRange j).2 hj) imp (by rw [h1]; rfl)
      linarith
    · have hj := (mem_tail_finRange j).1 hj
      obtain ⟨y, imp, h1, h2, h3, h4, -⟩ := hnew j hj
      rw [h1] at h
      simp only [Option.map_some, Option.some.injEq] at h
      exact ⟨j, hj, y, h3.le, by rw [h4, abs_neg, abs_of_pos h2, h]⟩
  · rintro v ⟨j, hj, z, hz, rfl⟩
    obtain ⟨y, imp, h1, -, -, -, h5⟩ := hnew j hj
    exact (h5 z hz).trans (m3 j ((mem_tail_finRange j).2 hj) imp (by rw [h1]; rfl))

/-! ### Two points on the line -/

/-- The improvement point and improvement for the points `a`, `b` (base point `a`) and radius `r`: on the side of
`a` that is opposite to `b`. -/
def Spec.linProp {K : Type} [Field K] [LinearOrder K] (r a b : K) : K × K :=
  (if a < b then a - r else a + r, r / |b - a|)

theorem two_poised (a b : ℝ) (hab : a ≠ b) :
    Poised (zMat 2 (buildFrame 2 (![![a], ![b]] : Fin 2 → Fin 1 → ℝ) true).pts) := by
  have hd : ∃ j, (![![a], ![b]] : Fin 2 → Fin 1 → ℝ) j ≠ (![![a], ![b]] : Fin 2 → Fin 1 → ℝ) 0 :=
    ⟨1, fun h => hab (by simpa using (congrFun h 0).symm)⟩
  obtain ⟨h0, -, -, ⟨σ, hσ, -, h3⟩, h4⟩ := C53_shift (q := 2) _ hd (by norm_num) (by norm_num)
  have h1 := h3 1 0
  rw [h4] at h1
  simp only [cons_val_zero, cons_val_one] at h1
  generalize (buildFrame 2 (![![a], ![b]] : Fin 2 → Fin 1 → ℝ) true).pts = P at *
  have col : ∀ y : Fin 1 → ℝ, zCol 2 y = ![1, y 0] := by
    intro y
    funext r
    unfold zCol evalZ
    fin_cases r <;> simp [ext, List.range_succ]
  intro v hv
  have h : ∀ r, zCol 2 (P 0) r * v 0 + zCol 2 (P 1) r * v 1 = 0 := fun r => by
    have h : ∑ j : Fin 2, zCol 2 (P j) r * v j = 0 := congrFun hv r
    rwa [Fin.sum_univ_two] at h
  simp only [col] at h
  have e0 := h 0
  have e1 := h 1
  simp only [cons_val_zero, cons_val_one, h0, Pi.zero_apply, zero_mul, zero_add, one_mul, h1,
    mul_eq_zero] at e0 e1
  have e2 : v 1 = 0 := by
    rcases e1 with (e1 | e1) | e1
    · exact absurd (sub_eq_zero.1 e1).symm hab
    · exact absurd e1 hσ.ne'
    · exact e1
  funext i
  fin_cases i
  · simp only [Fin.zero_eta, Pi.zero_apply]; linarith
  · exact e2

/-- C71 for one variable and two points: what the procedure proposes. -/
theorem C71_two_points {k : MSKer ℝ (Fin 1)} (hk : LinKer k) (a b : ℝ) (hab : a ≠ b)
    (Q R : Matrix (Fin 2) (Fin 2) ℝ)
    (hQR : IsQR Q R (zMat 2 (buildFrame 2 (![![a], ![b]] : Fin 2 → Fin 1 → ℝ) true).pts))
    (Δ εL : ℝ) (hΔ : 0 < Δ) (hε : 0 ≤ εL) :
    findNewYj k Q R ![![a], ![b]] 1 Δ εL (buildFrame 2 (![![a], ![b]] : Fin 2 → Fin 1 → ℝ) true).xbase
      (buildFrame 2 (![![a], ![b]] : Fin 2 → Fin 1 → ℝ) true).scale true =
        some ⟨![(linProp Δ a b).1], (linProp Δ a b).2⟩ := by
  obtain ⟨L, y, imp, c, h1, h2, h3, h4, h5, -, h7⟩ := linear_point (p := 1) (n := 1) ![![a], ![b]] Q R hk
    (by norm_num) hQR (two_poised a b hab) Δ εL hΔ hε 1 (by decide)
  obtain ⟨L', hL, hcard, -⟩ := C37_lagrange (n := 1) ![![a], ![b]] true Q R (by norm_num) (by norm_num)
    (by norm_num) hQR (two_poised a b hab)
  rw [hL 1] at h1
  cases h1
  have h8 := hcard 1 1
  rw [h7, if_pos rfl] at h8
  rw [h7] at h5
  rw [h2]
  have hy : |y 0 - a| = Δ := by
    rw [← h3]
    unfold enorm2
    simp only [dotProduct, univ_unique, Fin.default_eq_zero, sum_singleton, Pi.sub_apply, cons_val_zero]
    rw [Real.sqrt_mul_self_eq_abs]
  simp only [dotProduct, univ_unique, Fin.default_eq_zero, sum_singleton, Pi.sub_apply, cons_val_zero,
    cons_val_one] at h5 h8
  have hyv : y = ![y 0] := by funext i; rw [Subsingleton.elim i 0]; rfl
  rw [hyv]
  have hc : c 0 = 1 / (b - a) := by
    rw [eq_div_iff (sub_ne_zero.2 (Ne.symm hab))]; exact h8
  unfold linProp
  rcases lt_or_gt_of_ne hab with h | h
  · have hb : 0 < b - a := by linarith
    rw [if_pos h, abs_of_pos hb]
    have hneg : y 0 - a < 0 := by
      rw [hc] at h5
      have : 0 < 1 / (b - a) := by positivity
      nlinarith
    rw [abs_of_neg hneg] at hy
    have e1 : y 0 = a - Δ := by linarith
    have e2 : imp = Δ / (b - a) := by
      rw [hc, e1] at h5
      have : -imp = -(Δ / (b - a)) := by rw [← h5]; ring
      linarith
    rw [e1, e2]
  · have hb : b - a < 0 := by linarith
    rw [if_neg (not_lt.2 h.le), abs_of_neg hb]
    have hneg : 0 < y 0 - a := by
      rw [hc] at h5
      have : 1 / (b - a) < 0 := one_div_neg.2 hb
      nlinarith
    rw [abs_of_pos hneg] at hy
    have e1 : y 0 = a + Δ := by linarith
    have e2 : imp = Δ / -(b - a) := by
      rw [hc, e1] at h5
      have : -imp = -(Δ / -(b - a)) := by rw [← h5, div_neg]; ring
      linarith
    rw [e1, e2]

/-- The hypotheses are met: exact kernels and any two different points. -/
example (a b : ℝ) (hab : a ≠ b) : ∃ Q R, IsQR Q R (zMat 2 (buildFrame 2 (![![a], ![b]] : Fin 2 → Fin 1 → ℝ) true).pts) ∧
    LinKer (Ex.realKer (ι := Fin 1)) := by
  obtain ⟨Q, R, h⟩ := exists_qr _ (two_poised a b hab)
  exact ⟨Q, R, h, Ex.realKer_lin⟩

/-- Base point `3/2`, other point `1`, radius `1/10`: the proposal is `8/5`, the improvement `1/5`. -/
example : linProp (1 / 10 : ℚ) (3 / 2) 1 = (8 / 5, 1 / 5) := by decide +kernel

#print axioms C71_linear_point
#print axioms C71_linear_poisedness
#print axioms C71_two_points

end Sqpdfo
