import Verif.Props.C71_Linear
import Mathlib.Analysis.Calculus.Deriv.MeanValue
import Mathlib.Analysis.Calculus.Deriv.Pow

/-! # C73: error of the model gradient -/

set_option linter.unusedSectionVars false

namespace Sqpdfo
open Matrix Finset Spec
variable {n p : ℕ}

/-- `G` is the gradient of `f`, Lipschitz continuous with constant `κ` (in the form of the Taylor bound that
follows from it). -/
def Spec.Smooth (f : (Fin n → ℝ) → ℝ) (G : (Fin n → ℝ) → Fin n → ℝ) (κ : ℝ) : Prop :=
  ∀ x y, |f y - f x - G x ⬝ᵥ (y - x)| ≤ κ / 2 * enorm2 (y - x) ^ 2

theorem enorm2_sq (v : Fin n → ℝ) : enorm2 v ^ 2 = v ⬝ᵥ v := by
  unfold enorm2
  rw [Real.sq_sqrt (ms_dot_self_nonneg _)]

theorem abs_dot_le (u v : Fin n → ℝ) : |u ⬝ᵥ v| ≤ enorm2 u * enorm2 v := by
  refine abs_le_of_sq_le_sq ?_ (mul_nonneg (enorm2_nonneg _) (enorm2_nonneg _))
  rw [mul_pow, enorm2_sq, enorm2_sq]
  exact dot_cs u v

/-- The gradient is determined by the odd part. -/
theorem grad_odd {q : ℕ} (P scale : Fin q → ℝ) (x d xbase : Fin n → ℝ) (shift : Bool)
    (σ : ℝ) (h1 : 1 ≤ q) (h2 : q ≤ (n + 1) * (n + 2) / 2)
    (hs : shift = true → ScaleOf n σ scale ∧ 2 ≤ q ∧ 1 ≤ n) :
    gradP P x xbase scale shift ⬝ᵥ d =
      (evalP P (x + d) xbase scale shift - evalP P (x + -d) xbase scale shift) / 2 := by
  have a := C34_taylor P scale x d xbase shift σ h1 h2 hs
  have b := C34_taylor P scale x (-d) xbase shift σ h1 h2 hs
  rw [a, b, dotProduct_neg, mulVec_neg, neg_dotProduct_neg]
  ring

/-- Affine functions belong to the basis. -/
theorem affine_coeff {q : ℕ} (xbase : Fin n → ℝ) (scale : Fin q → ℝ) (σ : ℝ) (hσ : σ ≠ 0)
    (hc : ext scale 1 = σ) (hn : n + 1 ≤ q) (h2 : q ≤ (n + 1) * (n + 2) / 2) (c : ℝ) (v : Fin n → ℝ) :
    ∃ A : Fin q → ℝ, ∀ y, evalP A y xbase scale true = c + v ⬝ᵥ (y - xbase) := by
  refine ⟨fun r => if (r : ℕ) = 0 then c else if (r : ℕ) ≤ n then ext v (r - 1) / σ else 0, fun y => ?_⟩
  rw [evalP_zCol _ _ _ _ _ (by omega) h2]
  obtain ⟨q', rfl⟩ : ∃ q', q = n + 1 + q' := ⟨q - (n + 1), by omega⟩
  have hz : ∀ (w : Fin n → ℝ) (r : ℕ), r < n + 1 → (evalZ n (ext w) (n + 1 + q')).getD r 0 =
      if r = 0 then 1 else ext w (r - 1) := by
    intro w r hr
    have hl : ∃ l : List ℝ, evalZ n (ext w) (n + 1 + q') = (1 :: (List.range n).map (ext w)) ++ l := by
      unfold evalZ
      dsimp only
      have e1 : min (n + 1) (n + 1 + q') = n + 1 := by omega
      rw [e1]
      split_ifs with a b c
      · have : n = 0 := by omega
        subst this
        exact ⟨[], by simp⟩
      · exact ⟨[], by simp⟩
      · exact ⟨_, List.append_assoc _ _ _⟩
      · exact ⟨_, rfl⟩
    obtain ⟨l, hl⟩ := hl
    rw [hl, List.getD_eq_getElem?_getD, List.getElem?_append_left (by simp; omega)]
    cases r with
    | zero => simp
    | succ r => simp [List.getElem?_range (show r < n by omega)]
  unfold dotProduct
  rw [Fin.sum_univ_add, Fin.sum_univ_succ]
  have last : ∑ i : Fin q', (if ((Fin.natAdd (n + 1) i : Fin (n + 1 + q')) : ℕ) = 0 then c else
      if ((Fin.natAdd (n + 1) i : Fin (n + 1 + q')) : ℕ) ≤ n then
        ext v ((Fin.natAdd (n + 1) i : Fin (n + 1 + q')) - 1) / σ else 0) *
      zCol (n + 1 + q') (frameMap xbase scale true y) (Fin.natAdd (n + 1) i) = 0 := by
    refine Finset.sum_eq_zero fun i _ => ?_
    rw [if_neg (by simp), if_neg (by simp; omega), zero_mul]
  rw [last, add_zero]
  simp only [zCol, Fin.val_castAdd, Fin.val_zero, Fin.val_succ]
  rw [hz _ 0 (by omega)]
  simp only [if_true, mul_one]
  congr 1
  refine Finset.sum_congr rfl fun i _ => ?_
  rw [hz _ _ (by omega), if_neg (show ¬ (i : ℕ) + 1 = 0 by omega), if_pos (show (i : ℕ) + 1 ≤ n by omega),
    if_neg (show ¬ (i : ℕ) + 1 = 0 by omega), Nat.add_sub_cancel]
  unfold frameMap
  simp only [if_true, hc]
  unfold ext
  rw [dif_pos i.2, dif_pos i.2]
  simp only [Fin.eta, Pi.sub_apply]
  field_simp

variable (Y : Fin (p + 1) → Fin n → ℝ) (Q R : Matrix (Fin (p + 1)) (Fin (p + 1)) ℝ)

/-- What is used of the frame of a poised set. -/
theorem frame_true {q : ℕ} (hn : 1 ≤ n) (hq : n + 1 ≤ q) (hp1 : 1 ≤ p)
    (hp : Poised (zMat q (buildFrame q Y true).pts)) :
    ∃ σ, 0 < σ ∧ ext (buildFrame q Y true).scale 1 = σ ∧ ScaleOf n σ (buildFrame q Y true).scale ∧
      (buildFrame q Y true).xbase = Y 0 ∧ yRadius Y * σ = 1 := by
  have hne : ∃ j, Y j ≠ Y 0 := ⟨⟨1, by omega⟩, exists_ne_of_poised Y true hp _ (by
    intro h; simpa using congrArg Fin.val h)⟩
  obtain ⟨s1, s2, j, s3⟩ := scaleY_spec Y hne
  obtain ⟨r0, r1, i, r2⟩ := yRadius_spec Y
  have hr : yRadius Y = scaleY Y := le_antisymm (by rw [r2]; exact s2 i) (by rw [← s3]; exact r1 j)
  have hF : buildFrame q Y true = { xbase := Y 0, scale := scaleVec n q (scaleY Y)
                                    pts := fun j i => (Y j i - Y 0 i) / scaleY Y } := by
    unfold buildFrame; rw [if_pos ⟨rfl, by omega⟩]
  rw [hF]
  refine ⟨(scaleY Y)⁻¹, inv_pos.2 s1, ?_, ?_, rfl, by rw [hr, mul_inv_cancel₀ s1.ne']⟩
  · unfold ext
    rw [dif_pos (by omega)]
    simp only [scaleVec]
    rw [if_neg (by norm_num), if_pos (by omega)]
  · intro r
    simp only [scaleVec]
    have : min n (q - 1) = n := by omega
    rw [this]
    split_ifs <;> simp

/-- The gradient error is a combination of the gradients of the Lagrange polynomials, with the deviations from an
affine function as coefficients. -/
theorem gradient_error (hn : 1 ≤ n) (hnp : n ≤ p) (hq2 : p + 1 ≤ (n + 1) * (n + 2) / 2)
    (hQR : IsQR Q R (zMat (p + 1) (buildFrame (p + 1) Y true).pts))
    (hp : Poised (zMat (p + 1) (buildFrame (p + 1) Y true).pts)) (fY : Fin (p + 1) → ℝ) (v : Fin n → ℝ)
    (L : Fin (p + 1) → Fin (p + 1) → ℝ) (hL : ∀ j, computeLj Q R j = some (L j)) (P : Fin (p + 1) → ℝ)
    (hP : computeP Q R fY = some P) (d : Fin n → ℝ) :
    (gradP P (Y 0) (buildFrame (p + 1) Y true).xbase (buildFrame (p + 1) Y true).scale true - v) ⬝ᵥ d =
      ∑ j, (fY j - fY 0 - v ⬝ᵥ (Y j - Y 0)) *
        (gradP (L j) (Y 0) (buildFrame (p + 1) Y true).xbase (buildFrame (p + 1) Y true).scale true ⬝ᵥ d) := by
  obtain ⟨L', hL', -, -, hsum⟩ := C37_lagrange Y true Q R hn (by omega) hq2 hQR hp
  have : L' = L := by
    funext j
    have := hL' j
    rw [hL j] at this
    exact (Option.some.inj this).symm
  subst this
  obtain ⟨σ, hσ, hc, hs, hb, -⟩ := frame_true Y hn (by omega) (by omega) hp
  obtain ⟨A, hA⟩ := affine_coeff (buildFrame (p + 1) Y true).xbase (buildFrame (p + 1) Y true).scale σ hσ.ne' hc
    (by omega) hq2 (fY 0) v
  have hAc := C36_unique Y true (fun j => fY 0 + v ⬝ᵥ (Y j - Y 0)) Q R hn (by omega) hq2 hQR hp A
    (fun j => by rw [hA, hb])
  have odd : ∀ P', gradP P' (Y 0) (buildFrame (p + 1) Y true).xbase (buildFrame (p + 1) Y true).scale true ⬝ᵥ d =
      (evalP P' (Y 0 + d) (buildFrame (p + 1) Y true).xbase (buildFrame (p + 1) Y true).scale true -
        evalP P' (Y 0 + -d) (buildFrame (p + 1) Y true).xbase (buildFrame (p + 1) Y true).scale true) / 2 :=
    fun P' => grad_odd P' _ _ _ _ _ σ (by omega) hq2 (fun _ => ⟨hs, by omega, hn⟩)
  have hv : v ⬝ᵥ d = (evalP A (Y 0 + d) (buildFrame (p + 1) Y true).xbase (buildFrame (p + 1) Y true).scale true -
        evalP A (Y 0 + -d) (buildFrame (p + 1) Y true).xbase (buildFrame (p + 1) Y true).scale true) / 2 := by
    rw [hA, hA, hb, add_sub_cancel_left, add_sub_cancel_left, dotProduct_neg]
    ring
  rw [sub_dotProduct, odd P, hv, hsum _ _ _ hP, hsum _ _ _ hP, hsum _ _ _ hAc, hsum _ _ _ hAc]
  simp only [odd]
  rw [← Finset.sum_sub_distrib, ← Finset.sum_sub_distrib, Finset.sum_div, Finset.sum_div, ← Finset.sum_sub_distrib]
  refine Finset.sum_congr rfl fun j _ => ?_
  ring

/-- The error in terms of a bound for the gradients of the Lagrange polynomials. -/
theorem gradient_error_le (hn : 1 ≤ n) (hnp : n ≤ p) (hq2 : p + 1 ≤ (n + 1) * (n + 2) / 2)
    (hQR : IsQR Q R (zMat (p + 1) (buildFrame (p + 1) Y true).pts))
    (hp : Poised (zMat (p + 1) (buildFrame (p + 1) Y true).pts)) (f : (Fin n → ℝ) → ℝ)
    (G : (Fin n → ℝ) → Fin n → ℝ) (κ : ℝ) (hf : Smooth f G κ)
    (L : Fin (p + 1) → Fin (p + 1) → ℝ) (hL : ∀ j, computeLj Q R j = some (L j)) (P : Fin (p + 1) → ℝ)
    (hP : computeP Q R (fun j => f (Y j)) = some P) (B : ℝ)
    (hB : ∀ j ≠ 0, yRadius Y * enorm2 (gradP (L j) (Y 0) (buildFrame (p + 1) Y true).xbase
      (buildFrame (p + 1) Y true).scale true) ≤ B) :
    enorm2 (gradP P (Y 0) (buildFrame (p + 1) Y true).xbase (buildFrame (p + 1) Y true).scale true - G (Y 0)) ≤
      p * (κ / 2 * (yRadius Y * B)) := by
  have key := gradient_error Y Q R hn hnp hq2 hQR hp (fun j => f (Y j)) (G (Y 0)) L hL P hP
  obtain ⟨r0, r1, -⟩ := yRadius_spec Y
  generalize gradP P (Y 0) (buildFrame (p + 1) Y true).xbase (buildFrame (p + 1) Y true).scale true - G (Y 0) = E at *
  generalize hg : (fun j => gradP (L j) (Y 0) (buildFrame (p + 1) Y true).xbase (buildFrame (p + 1) Y true).scale true) = g
    at *
  have hg' : ∀ j, gradP (L j) (Y 0) (buildFrame (p + 1) Y true).xbase (buildFrame (p + 1) Y true).scale true = g j :=
    fun j => congrFun hg j
  simp only [hg'] at key hB
  have hj1 : (⟨1, by omega⟩ : Fin (p + 1)) ≠ 0 := by intro h; simpa using congrArg Fin.val h
  have hB0 : 0 ≤ B := le_trans (mul_nonneg r0 (enorm2_nonneg _)) (hB _ hj1)
  have hκ : 0 ≤ κ / 2 * yRadius Y ^ 2 := by
    by_cases h : yRadius Y = 0
    · rw [h]; simp
    · have hpos : 0 < yRadius Y := lt_of_le_of_ne r0 (Ne.symm h)
      obtain ⟨-, -, i, r2⟩ := yRadius_spec Y
      have := le_trans (abs_nonneg _) (hf (Y 0) (Y i))
      rw [← r2] at this
      exact this
  have term : ∀ j : Fin (p + 1), |(f (Y j) - f (Y 0) - G (Y 0) ⬝ᵥ (Y j - Y 0)) * (g j ⬝ᵥ E)| ≤
      if j = 0 then 0 else κ / 2 * (yRadius Y * B) * enorm2 E := by
    intro j
    split_ifs with hj
    · subst hj; simp
    · rw [abs_mul]
      have h1 : |f (Y j) - f (Y 0) - G (Y 0) ⬝ᵥ (Y j - Y 0)| ≤ κ / 2 * yRadius Y ^ 2 := by
        refine (hf (Y 0) (Y j)).trans ?_
        by_cases hz : enorm2 (Y j - Y 0) = 0
        · rw [hz]; simpa using hκ
        · have h0 : 0 < enorm2 (Y j - Y 0) ^ 2 := by
            have := enorm2_nonneg (Y j - Y 0)
            positivity
          have hk : 0 ≤ κ / 2 := by
            have := le_trans (abs_nonneg _) (hf (Y 0) (Y j))
            by_contra hneg
            push Not at hneg
            nlinarith
          exact mul_le_mul_of_nonneg_left (pow_le_pow_left₀ (enorm2_nonneg _) (r1 j) 2) hk
      have h2 := abs_dot_le (g j) E
      calc _ ≤ κ / 2 * yRadius Y ^ 2 * (enorm2 (g j) * enorm2 E) :=
            mul_le_mul h1 h2 (abs_nonneg _) hκ
        _ = κ / 2 * yRadius Y * (yRadius Y * enorm2 (g j)) * enorm2 E := by ring
        _ ≤ κ / 2 * yRadius Y * B * enorm2 E := by
            refine mul_le_mul_of_nonneg_right ?_ (enorm2_nonneg _)
            refine mul_le_mul_of_nonneg_left (hB j hj) ?_
            by_cases h : yRadius Y = 0
            · rw [h]; simp
            · have hpos : 0 < yRadius Y := lt_of_le_of_ne r0 (Ne.symm h)
              by_contra hneg
              push Not at hneg
              nlinarith
        _ = _ := by ring
  have hE : enorm2 E ^ 2 ≤ p * (κ / 2 * (yRadius Y * B)) * enorm2 E := by
    rw [enorm2_sq, key E]
    refine le_trans (le_abs_self _) (le_trans (Finset.abs_sum_le_sum_abs _ _) ?_)
    refine le_trans (Finset.sum_le_sum fun j _ => term j) ?_
    rw [Fin.sum_univ_succ]
    simp [Fin.succ_ne_zero, mul_assoc]
  by_cases hz : enorm2 E = 0
  · rw [hz]
    have h3 : 0 ≤ κ / 2 * (yRadius Y * B) := by
      by_cases h : yRadius Y = 0
      · rw [h]; simp
      · have hpos : 0 < yRadius Y := lt_of_le_of_ne r0 (Ne.symm h)
        have : 0 ≤ κ / 2 := by
          by_contra hneg
          push Not at hneg
          have : 0 < yRadius Y ^ 2 := by positivity
          nlinarith
        positivity
    positivity
  · have hpos : 0 < enorm2 E := lt_of_le_of_ne (enorm2_nonneg _) (Ne.symm hz)
    rw [pow_two] at hE
    exact le_of_mul_le_mul_right hE hpos

/-- The Lagrange polynomials in the scaled space. -/
theorem lagrange_scaled {q : ℕ} (hn : 1 ≤ n) (hq : n + 1 ≤ q) (hq2 : q ≤ (n + 1) * (n + 2) / 2) (hp1 : 1 ≤ p)
    (hp : Poised (zMat q (buildFrame q Y true).pts)) (L : Fin q → ℝ) :
    yRadius Y * enorm2 (gradP L (Y 0) (buildFrame q Y true).xbase (buildFrame q Y true).scale true) =
      enorm2 (gradP L 0 (buildFrame q Y true).xbase (buildFrame q Y true).scale false) := by
  obtain ⟨σ, hσ, hc, hs, hb, hr⟩ := frame_true Y hn hq hp1 hp
  have hmod := scaled_model L _ (buildFrame q Y true).xbase (Y 0) true σ hq hq2 hn hσ (fun _ => ⟨hs, hb⟩)
  simp only [if_true, hc] at hmod
  have hg : ∀ d, gradP L (Y 0) (buildFrame q Y true).xbase (buildFrame q Y true).scale true ⬝ᵥ d =
      (σ • gradP L 0 (buildFrame q Y true).xbase (buildFrame q Y true).scale false) ⬝ᵥ d := by
    intro d
    rw [grad_odd L _ _ _ _ _ σ (by omega) hq2 (fun _ => ⟨hs, by omega, hn⟩)]
    have a := hmod (σ • d)
    have b := hmod (-(σ • d))
    rw [smul_neg, smul_smul, one_div, inv_mul_cancel₀ hσ.ne', one_smul] at b
    rw [smul_smul, one_div, inv_mul_cancel₀ hσ.ne', one_smul] at a
    rw [a, b, dotProduct_neg, mulVec_neg, neg_dotProduct_neg]
    simp only [dotProduct_smul, smul_dotProduct, smul_eq_mul]
    ring
  have : gradP L (Y 0) (buildFrame q Y true).xbase (buildFrame q Y true).scale true =
      σ • gradP L 0 (buildFrame q Y true).xbase (buildFrame q Y true).scale false := by
    refine sub_eq_zero.1 (dotProduct_self_eq_zero.1 ?_)
    rw [sub_dotProduct, hg, sub_self]
  rw [this, enorm2_smul _ hσ.le, ← mul_assoc, hr, one_mul]

/-- C73, linear models.  The set has `n + 1` points.  The error of the model gradient at the base point is at most
`n/2` times the Lipschitz constant of the gradient times the product of poisedness and radius of the set, which
is what the convergence tests bound. -/
theorem C73_linear {k : MSKer ℝ (Fin n)} (hk : LinKer k) (hn : 1 ≤ n) (Y : Fin (n + 1) → Fin n → ℝ)
    (Q R : Matrix (Fin (n + 1)) (Fin (n + 1)) ℝ)
    (hQR : IsQR Q R (zMat (n + 1) (buildFrame (n + 1) Y true).pts))
    (hp : Poised (zMat (n + 1) (buildFrame (n + 1) Y true).pts)) (εL : ℝ) (hε : 0 ≤ εL)
    (f : (Fin n → ℝ) → ℝ) (G : (Fin n → ℝ) → Fin n → ℝ) (κ : ℝ) (hf : Smooth f G κ) :
    ∃ (lam r : ℝ) (P : Fin (n + 1) → ℝ),
      poisednessY k Q R Y εL (buildFrame (n + 1) Y true).xbase (buildFrame (n + 1) Y true).scale true =
        some (lam, r) ∧
      computeP Q R (fun j => f (Y j)) = some P ∧
      enorm2 (gradP P (Y 0) (buildFrame (n + 1) Y true).xbase (buildFrame (n + 1) Y true).scale true - G (Y 0)) ≤
        n / 2 * κ * (lam * r) := by
  have hq2 : n + 1 ≤ (n + 1) * (n + 2) / 2 := by
    have : 2 * (n + 1) ≤ (n + 1) * (n + 2) := by nlinarith
    omega
  obtain ⟨lam, r, L, hL, h1, -, h3⟩ := C71_linear_poisedness Y Q R hk hn hn hQR hp εL hε
  obtain ⟨P, hP, -⟩ := C36_interpolates Y true (fun j => f (Y j)) Q R hn (le_refl _) hq2 hQR hp
  have hr : r = yRadius Y := by
    unfold poisednessY at h1
    obtain ⟨l, -, h⟩ := Option.map_eq_some_iff.1 h1
    simp only [Prod.mk.injEq] at h
    exact h.2.symm
  refine ⟨lam, r, P, h1, hP, ?_⟩
  obtain ⟨σ, hσ, hc, hs, hb, hrs⟩ := frame_true Y hn (le_refl _) hn hp
  have hrpos : 0 < yRadius Y := by
    by_contra h
    push Not at h
    nlinarith
  have key := gradient_error_le Y Q R hn (le_refl _) hq2 hQR hp f G κ hf L hL P hP lam (fun j hj => by
    generalize hg : gradP (L j) (Y 0) (buildFrame (n + 1) Y true).xbase (buildFrame (n + 1) Y true).scale true = g
    by_cases hz : enorm2 g = 0
    · obtain ⟨j', hj', z, hz', hv⟩ := h3.1
      rw [hz, mul_zero, hv]
      exact abs_nonneg _
    · have hpos : 0 < enorm2 g := lt_of_le_of_ne (enorm2_nonneg _) (Ne.symm hz)
      have ht := C34_taylor (L j) (buildFrame (n + 1) Y true).scale (Y 0) ((yRadius Y / enorm2 g) • g)
        (buildFrame (n + 1) Y true).xbase true σ (by omega) hq2 (fun _ => ⟨hs, by omega, hn⟩)
      obtain ⟨L', hL', hcard, -⟩ := C37_lagrange Y true Q R hn (le_refl _) hq2 hQR hp
      have hLL : L' j = L j := Option.some.inj ((hL' j).symm.trans (hL j))
      have h0 := hcard 0 j
      rw [hLL, if_neg (fun h => hj h.symm)] at h0
      rw [h0, hess_linear, zero_mulVec, dotProduct_zero, mul_zero, add_zero, zero_add, hg, dotProduct_smul,
        smul_eq_mul, ← enorm2_sq] at ht
      have := h3.2 ⟨j, hj, Y 0 + (yRadius Y / enorm2 g) • g, by
        rw [add_sub_cancel_left, enorm2_smul _ (div_nonneg hrpos.le hpos.le), hr, div_mul_cancel₀ _ hz], rfl⟩
      rw [ht] at this
      refine le_trans (le_of_eq ?_) (le_trans (le_abs_self _) this)
      field_simp)
  rw [hr]
  calc _ ≤ _ := key
    _ = _ := by ring

/-! ### Sets for models of higher degree -/

/-- If the curvature of the model along its gradient is not positive, an accepted step of the subproblem solver decreases the model by
almost radius times norm of the gradient. -/
theorem accepted_slope {k : MSKer ℝ (Fin n)} (hk : GoodKer k) {g : Fin n → ℝ} {H : Matrix (Fin n) (Fin n) ℝ} {Δ εD : ℝ}
    (hH : ∀ i j, H i j = H j i) (hΔ : 0 ≤ Δ) (hε : 0 ≤ εD) {o : MSOut ℝ (Fin n)} (ho : Accepted k g H Δ εD o)
    (hc : g ⬝ᵥ H *ᵥ g ≤ 0) : o.value ≤ -((1 - εD) * Δ * enorm2 g) + 1 / 10 ^ 12 / 2 * Δ ^ 2 := by
  have hval : o.value = quadVal g H o.s := ho.value
  have hns : k.nrm o.s ^ 2 = o.s ⬝ᵥ o.s := by rw [pow_two, GoodKer.nrm_sq hk]
  have hn0 := GoodKer.nrm_nonneg hk o.s
  -- the point at distance `t` along the negative gradient
  have along : ∀ t, 0 ≤ t → ∃ d, d ⬝ᵥ d ≤ t ^ 2 ∧ quadVal g H d ≤ -(t * enorm2 g) := by
    intro t ht
    by_cases hz : enorm2 g = 0
    · refine ⟨0, by simp [sq_nonneg], by simp [quadVal, hz]⟩
    · have hpos : 0 < enorm2 g := lt_of_le_of_ne (enorm2_nonneg _) (Ne.symm hz)
      have hgg := enorm2_sq g
      refine ⟨(-(t / enorm2 g)) • g, le_of_eq ?_, ?_⟩
      · rw [smul_dotProduct, dotProduct_smul, smul_eq_mul, smul_eq_mul, ← hgg]
        field_simp
      · unfold quadVal
        rw [dotProduct_smul, mulVec_smul, smul_dotProduct, dotProduct_smul, smul_eq_mul, smul_eq_mul, smul_eq_mul,
          ← hgg]
        have h1 : -(t / enorm2 g) * enorm2 g ^ 2 = -(t * enorm2 g) := by field_simp
        have h2 : -(t / enorm2 g) * (-(t / enorm2 g) * (g ⬝ᵥ H *ᵥ g)) = (t / enorm2 g) ^ 2 * (g ⬝ᵥ H *ᵥ g) := by ring
        rw [h1, h2]
        nlinarith [mul_nonneg (sq_nonneg (t / enorm2 g)) (neg_nonneg.2 hc)]
  have hg0 := enorm2_nonneg g
  rcases ho.sphere with h | h
  · obtain ⟨d, hd, hq⟩ := along Δ hΔ
    have hid := model_identity g H hH _ _ d ho.stat
    have hp := ho.psd (d - o.s)
    have hl := ho.lam
    have hss := ms_dot_self_nonneg o.s
    have : o.lam / 2 * (d ⬝ᵥ d - o.s ⬝ᵥ o.s) ≤ 1 / 10 ^ 12 / 2 * Δ ^ 2 := by
      calc _ ≤ o.lam / 2 * Δ ^ 2 := mul_le_mul_of_nonneg_left (by linarith) (by linarith)
        _ ≤ _ := mul_le_mul_of_nonneg_right (by linarith) (sq_nonneg _)
    have h3 : (1 - εD) * Δ * enorm2 g ≤ Δ * enorm2 g := by
      have : 0 ≤ εD * (Δ * enorm2 g) := mul_nonneg hε (mul_nonneg hΔ hg0)
      nlinarith
    rw [hval]
    linarith
  · obtain ⟨d, hd, hq⟩ := along (k.nrm o.s) hn0
    have hid := model_identity g H hH _ _ d ho.stat
    have hp := ho.psd (d - o.s)
    have hl := ho.lam
    rw [hns] at hd
    have h2 : 0 ≤ o.lam / 2 * (o.s ⬝ᵥ o.s - d ⬝ᵥ d) := mul_nonneg (by linarith) (by linarith)
    have h3 := mul_le_mul_of_nonneg_right h hg0
    rw [hval]
    have : 0 ≤ 1 / 10 ^ 12 / 2 * Δ ^ 2 := by positivity
    linarith

/-- The improvement reported for a polynomial is almost radius times norm of its gradient, unless that is tiny or
the solver ends in the pseudo-hard case for the sign with nonpositive curvature along the gradient. -/
theorem newPoint_slope {k : MSKer ℝ (Fin n)} (hk : GoodKer k) {q : ℕ} {L scale : Fin q → ℝ}
    {xbase y0 : Fin n → ℝ} {σ : ℝ} (F : FrameOk L scale xbase y0 true σ) {Δ εL : ℝ}
    (hΔ : Δ * σ = 1) (hε : 0 ≤ εL) (hε1 : εL ≤ 1) {g : Fin n → ℝ} {H : Matrix (Fin n) (Fin n) ℝ}
    (hg : gradP L 0 xbase scale false = g) (hH : hessP n L scale false = H)
    (hgn : 1 / 10 ^ 12 ≤ g ⬝ᵥ g) (hp : g ⬝ᵥ H *ᵥ g ≤ 0 → (trms k g H 1 εL).hard = false)
    (hm : 0 ≤ g ⬝ᵥ H *ᵥ g → (trms k (-g) (-H) 1 εL).hard = false) :
    (1 - εL) * enorm2 g ≤ (newPoint k L y0 Δ εL xbase scale true).imp + 1 / 10 ^ 12 / 2 := by
  have hs := (C35_shapes L scale false y0).2.1
  rw [hH] at hs
  have hs' := neg_symm hs
  have hneg : enorm2 (-g) = enorm2 g := by unfold enorm2; rw [neg_dotProduct_neg]
  have hcurv : (-g) ⬝ᵥ (-H) *ᵥ (-g) = -(g ⬝ᵥ H *ᵥ g) := by
    rw [neg_mulVec_neg, neg_dotProduct]
  have hv : (trms k g H 1 εL).value ≤ -((1 - εL) * enorm2 g) + 1 / 10 ^ 12 / 2 ∨
      (trms k (-g) (-H) 1 εL).value ≤ -((1 - εL) * enorm2 g) + 1 / 10 ^ 12 / 2 := by
    rcases le_total (g ⬝ᵥ H *ᵥ g) 0 with h | h
    · left
      have := accepted_slope hk hs zero_le_one hε
        (C61_global_minimiser hk g H 1 εL hs one_pos hε hε1 hgn (hp h)).2.2 h
      linarith
    · right
      have := accepted_slope hk hs' zero_le_one hε
        (C61_global_minimiser hk (-g) (-H) 1 εL hs' one_pos hε hε1
          (by rw [neg_dotProduct_neg]; exact hgn) (hm h)).2.2 (by rw [hcurv]; linarith)
      rw [hneg] at this
      linarith
  have hc := F.hc
  simp only [if_true] at hc
  unfold newPoint
  simp only [if_true, hc, hg, hH, hΔ]
  split_ifs with h
  · simp only
    have := neg_le_abs (trms k (-g) (-H) 1 εL).value
    rcases hv with hv | hv <;> linarith
  · simp only
    have := neg_le_abs (trms k g H 1 εL).value
    rcases hv with hv | hv <;> linarith

/-- C73, sub-basis models of any degree.  The error of the model gradient at the base point is at most `p/2` times the
Lipschitz constant times the radius of the set times (almost) the poisedness, where a poisedness below `1e-6`
counts as `1e-6`.  What is missing: the pseudo-hard case of the subproblem solver, for the sign of the Lagrange
polynomial with nonpositive curvature along its gradient. -/
theorem C73_subbasis_partial {k : MSKer ℝ (Fin n)} (hk : GoodKer k) (hn : 1 ≤ n) (hnp : n ≤ p)
    (hq2 : p + 1 ≤ (n + 1) * (n + 2) / 2)
    (hQR : IsQR Q R (zMat (p + 1) (buildFrame (p + 1) Y true).pts))
    (hp : Poised (zMat (p + 1) (buildFrame (p + 1) Y true).pts)) (εL : ℝ) (hε : 0 ≤ εL) (hε1 : εL < 1)
    (hhard : ∀ j ≠ 0, ∀ L g H, computeLj Q R j = some L →
      gradP L 0 (buildFrame (p + 1) Y true).xbase (buildFrame (p + 1) Y true).scale false = g →
      hessP n L (buildFrame (p + 1) Y true).scale false = H →
      1 / 10 ^ 12 ≤ g ⬝ᵥ g →
      (g ⬝ᵥ H *ᵥ g ≤ 0 → (trms k g H 1 εL).hard = false) ∧
        (0 ≤ g ⬝ᵥ H *ᵥ g → (trms k (-g) (-H) 1 εL).hard = false))
    (f : (Fin n → ℝ) → ℝ) (G : (Fin n → ℝ) → Fin n → ℝ) (κ : ℝ) (hf : Smooth f G κ) :
    ∃ (lam r : ℝ) (P : Fin (p + 1) → ℝ),
      poisednessY k Q R Y εL (buildFrame (p + 1) Y true).xbase (buildFrame (p + 1) Y true).scale true =
        some (lam, r) ∧
      computeP Q R (fun j => f (Y j)) = some P ∧
      enorm2 (gradP P (Y 0) (buildFrame (p + 1) Y true).xbase (buildFrame (p + 1) Y true).scale true - G (Y 0)) ≤
        p / 2 * κ * r * max (1 / 10 ^ 6) ((lam + 1 / 10 ^ 12 / 2) / (1 - εL)) := by
  obtain ⟨lam, r, L, hL, h1, -⟩ := C62_poisedness_partial Y true Q R hk hn (by omega) hq2 hQR hp εL hε hε1.le
  obtain ⟨P, hP, -⟩ := C36_interpolates Y true (fun j => f (Y j)) Q R hn (by omega) hq2 hQR hp
  obtain ⟨L', hL', hcard, -⟩ := C37_lagrange Y true Q R hn (by omega) hq2 hQR hp
  have hLL : L' = L := by
    funext j
    exact Option.some.inj ((hL' j).symm.trans (hL j))
  subst hLL
  obtain ⟨l, hl, hlr⟩ : ∃ l, ((List.finRange (p + 1)).tail).foldlM (fun l j =>
      (findNewYj k Q R Y j (yRadius Y) εL (buildFrame (p + 1) Y true).xbase (buildFrame (p + 1) Y true).scale
        true).map fun N => max N.imp l) 0 = some l ∧ (l, yRadius Y) = (lam, r) := by
    unfold poisednessY at h1
    obtain ⟨l, h2, h⟩ := Option.map_eq_some_iff.1 h1
    exact ⟨l, h2, h⟩
  simp only [Prod.mk.injEq] at hlr
  obtain ⟨rfl, rfl⟩ := hlr
  have hnew : ∀ j ≠ 0, findNewYj k Q R Y j (yRadius Y) εL (buildFrame (p + 1) Y true).xbase
      (buildFrame (p + 1) Y true).scale true = some (newPoint k (L' j) (Y 0) (yRadius Y) εL
        (buildFrame (p + 1) Y true).xbase (buildFrame (p + 1) Y true).scale true) := by
    intro j hj
    have hj1 : ¬ (j : ℕ) < 1 := fun h => hj (Fin.ext (by simpa using h))
    unfold findNewYj
    rw [if_neg hj1, hL j]
    rfl
  obtain ⟨m, m1, m2, m3, -⟩ := foldlM_max
    (fun j => (findNewYj k Q R Y j (yRadius Y) εL (buildFrame (p + 1) Y true).xbase
      (buildFrame (p + 1) Y true).scale true).map fun N => N.imp) (List.finRange (p + 1)).tail 0 (by
      intro j hj
      rw [hnew j ((mem_tail_finRange j).1 hj)]
      exact ⟨_, rfl⟩)
  have hm : m = l := by
    simp only [Option.map_map] at m1
    have : (fun (l : ℝ) (j : Fin (p + 1)) => (findNewYj k Q R Y j (yRadius Y) εL
        (buildFrame (p + 1) Y true).xbase (buildFrame (p + 1) Y true).scale true).map fun N => max N.imp l) =
        fun s i => Option.map ((fun v => max v s) ∘ fun N => N.imp)
          (findNewYj k Q R Y i (yRadius Y) εL (buildFrame (p + 1) Y true).xbase
            (buildFrame (p + 1) Y true).scale true) := rfl
    rw [this, m1] at hl
    exact Option.some.inj hl
  subst hm
  refine ⟨m, yRadius Y, P, h1, hP, ?_⟩
  obtain ⟨σ, hσ, hc, hs, hb, hrs⟩ := frame_true Y hn (by omega) (by omega) hp
  have key := gradient_error_le Y Q R hn hnp hq2 hQR hp f G κ hf L' hL P hP
    (max (1 / 10 ^ 6) ((m + 1 / 10 ^ 12 / 2) / (1 - εL))) (fun j hj => by
    rw [lagrange_scaled Y hn (by omega) hq2 (by omega) hp]
    generalize hg : gradP (L' j) 0 (buildFrame (p + 1) Y true).xbase (buildFrame (p + 1) Y true).scale false = g
    by_cases hsm : 1 / 10 ^ 12 ≤ g ⬝ᵥ g
    · refine le_max_of_le_right ?_
      have F : FrameOk (L' j) (buildFrame (p + 1) Y true).scale (buildFrame (p + 1) Y true).xbase (Y 0) true σ :=
        ⟨hn, by omega, hq2, hσ, by simp only [if_true]; exact hc, fun _ => ⟨hs, hb⟩, by
          rw [hcard 0 j, if_neg (fun h => hj h.symm)]⟩
      obtain ⟨hh1, hh2⟩ := hhard j hj (L' j) g _ (hL j) hg rfl hsm
      have h4 := newPoint_slope hk F hrs hε hε1.le hg rfl hsm hh1 hh2
      have h5 := m3 j ((mem_tail_finRange j).2 hj) _ (by rw [hnew j hj]; rfl)
      rw [le_div_iff₀ (by linarith)]
      linarith
    · refine le_max_of_le_left ?_
      push Not at hsm
      rw [← enorm2_sq] at hsm
      have : enorm2 g ^ 2 ≤ (1 / 10 ^ 6) ^ 2 := by norm_num at hsm ⊢; linarith
      exact abs_le_of_sq_le_sq' this (by norm_num) |>.2)
  calc _ ≤ _ := key
    _ = _ := by ring

/-! ### Minimum-norm models -/

/-- The points `0` and `h` on a line. -/
def Ex.pair (h : ℝ) : Fin 2 → Fin 1 → ℝ := ![![0], ![h]]

theorem col3 (y : Fin 1 → ℝ) : zCol 3 y = ![1, y 0, 1 / 2 * y 0 ^ 2] := by
  funext r
  fin_cases r <;> simp [zCol, evalZ, ext]

theorem pair_pts (h : ℝ) (hh : 0 < h) :
    (buildFrame 3 (Ex.pair h) true).pts = ![![0], ![1]] ∧ (buildFrame 3 (Ex.pair h) true).xbase = ![0] ∧
      ext (buildFrame 3 (Ex.pair h) true).scale 1 = h⁻¹ ∧ ScaleOf 1 h⁻¹ (buildFrame 3 (Ex.pair h) true).scale := by
  have hd : ∃ j, Ex.pair h j ≠ Ex.pair h 0 := ⟨1, fun e => hh.ne' (by simpa [Ex.pair] using congrFun e 0)⟩
  obtain ⟨s1, s2, j, s3⟩ := scaleY_spec (Ex.pair h) hd
  have he : ∀ x : ℝ, enorm2 (![x] : Fin 1 → ℝ) = |x| := by
    intro x
    unfold enorm2
    simp only [dotProduct, Finset.univ_unique, Fin.default_eq_zero, Finset.sum_singleton, cons_val_zero]
    exact Real.sqrt_mul_self_eq_abs x
  have hs : scaleY (Ex.pair h) = h := by
    have a := s2 1
    have e0 : Ex.pair h 0 - Ex.pair h 0 = ![0] := by
      funext i
      fin_cases i
      simp [Ex.pair]
    have e1 : Ex.pair h 1 - Ex.pair h 0 = ![h] := by simp [Ex.pair]
    rw [e1, he, abs_of_pos hh] at a
    fin_cases j
    · simp only [Fin.zero_eta, e0, he, abs_zero] at s3
      linarith
    · simp only [Fin.mk_one, e1, he, abs_of_pos hh] at s3
      exact s3.symm
  have hF : buildFrame 3 (Ex.pair h) true = { xbase := Ex.pair h 0, scale := scaleVec 1 3 (scaleY (Ex.pair h)), pts := fun j i => (Ex.pair h j i - Ex.pair h 0 i) / scaleY (Ex.pair h) } := by
    unfold buildFrame
    simp
  rw [hF, hs]
  refine ⟨?_, by simp [Ex.pair], ?_, ?_⟩
  · funext j i
    fin_cases j <;> fin_cases i <;> simp [Ex.pair, hh.ne']
  · simp [ext, scaleVec]
  · intro r
    fin_cases r <;> simp [scaleVec]

theorem pair_poised (h : ℝ) (hh : 0 < h) : Poised (zMat 3 (buildFrame 3 (Ex.pair h) true).pts) := by
  rw [(pair_pts h hh).1]
  intro v hv
  have e : ∀ r, zCol 3 ![(0 : ℝ)] r * v 0 + zCol 3 ![(1 : ℝ)] r * v 1 = 0 := fun r => by
    have h : ∑ j : Fin 2, zCol 3 ((![![0], ![1]] : Fin 2 → Fin 1 → ℝ) j) r * v j = 0 := congrFun hv r
    rwa [Fin.sum_univ_two] at h
  have e0 := e 0
  have e1 := e 1
  simp only [col3, cons_val_zero, cons_val_one] at e0 e1
  funext i
  fin_cases i
  · simp; linarith
  · simp; linarith

/-- C73 fails for minimum-norm models: on two points at any distance `h` the model of the function `x` has slope `4/5`,
although that function is affine, so that the bound would be zero. -/
theorem C73_l2norm_false (h : ℝ) (hh : 0 < h) :
    Smooth (fun x : Fin 1 → ℝ => x 0) (fun _ => ![1]) 0 ∧
    (∃ Q R, IsQR Q R (zMat 3 (buildFrame 3 (Ex.pair h) true).pts)) ∧
    ∀ Q R, IsQR Q R (zMat 3 (buildFrame 3 (Ex.pair h) true).pts) →
      ∃ P, computeP Q R (fun j => Ex.pair h j 0) = some P ∧
        gradP P (Ex.pair h 0) (buildFrame 3 (Ex.pair h) true).xbase (buildFrame 3 (Ex.pair h) true).scale true =
          ![4 / 5] := by
  obtain ⟨f1, f2, f3, f4⟩ := pair_pts h hh
  have hpo := pair_poised h hh
  refine ⟨fun x y => ?_, exists_qr _ hpo, fun Q R hQR => ?_⟩
  · simp [dotProduct]
  obtain ⟨P, hP, -⟩ := C36_interpolates (Ex.pair h) true (fun j => Ex.pair h j 0) Q R le_rfl (by norm_num)
    (by norm_num) hQR hpo
  refine ⟨P, hP, ?_⟩
  have hsol := computeP_solves hQR hP
  have hu := R_unit hQR hpo
  -- the coefficients are a combination of the columns
  obtain ⟨u, hu'⟩ : ∃ u, P = zMat 3 (buildFrame 3 (Ex.pair h) true).pts *ᵥ u := by
    unfold computeP at hP
    obtain ⟨w, -, rfl⟩ := Option.map_eq_some_iff.1 hP
    refine ⟨R⁻¹ *ᵥ w, ?_⟩
    rw [← hQR.eq, mulVec_mulVec, Matrix.mul_assoc, Matrix.mul_nonsing_inv _ hu, Matrix.mul_one]
  have hg := grad_odd P (buildFrame 3 (Ex.pair h) true).scale (Ex.pair h 0) ![1]
    (buildFrame 3 (Ex.pair h) true).xbase true h⁻¹ (by norm_num) (by norm_num) (fun _ => ⟨f4, by norm_num, le_rfl⟩)
  rw [evalP_zCol _ _ _ _ _ (by norm_num) (by norm_num), evalP_zCol _ _ _ _ _ (by norm_num) (by norm_num)] at hg
  unfold frameMap at hg
  rw [f1] at hu' hsol
  rw [f2, f3] at hg
  have e0 := congrFun hsol 0
  have e1 := congrFun hsol 1
  have e : ∀ r, P r = zCol 3 ![(0 : ℝ)] r * u 0 + zCol 3 ![(1 : ℝ)] r * u 1 := fun r => by
    have h : P r = ∑ j : Fin 2, zCol 3 ((![![0], ![1]] : Fin 2 → Fin 1 → ℝ) j) r * u j := congrFun hu' r
    rwa [Fin.sum_univ_two] at h
  have p0 := e 0
  have p1 := e 1
  have p2 := e 2
  simp only [mulVec, dotProduct, Fin.sum_univ_three, zMat, transpose_apply, Ex.pair] at e0 e1
  simp [col3] at e0 e1 p0 p1 p2
  have hP1 : P 1 = 4 / 5 * h := by linarith
  rw [f2]
  funext i
  have hi : i = 0 := Subsingleton.elim _ _
  subst hi
  simp only [dotProduct, Finset.univ_unique, Fin.default_eq_zero, Finset.sum_singleton, cons_val_zero, mul_one,
    Fin.sum_univ_three, col3, Ex.pair, if_true, Pi.add_apply, Pi.neg_apply] at hg
  simp at hg
  simp only [Ex.pair, cons_val_zero]
  rw [hg, hP1]
  field_simp

/-! ### The smoothness hypothesis -/

/-- A function whose gradient has Lipschitz constant `κ` is `Smooth` with that constant. -/
theorem smooth_of_lipschitz (f : (Fin n → ℝ) → ℝ) (G : (Fin n → ℝ) → Fin n → ℝ) (κ : ℝ)
    (hd : ∀ x d (t : ℝ), HasDerivAt (fun t : ℝ => f (x + t • d)) (G (x + t • d) ⬝ᵥ d) t)
    (hl : ∀ x y, enorm2 (G y - G x) ≤ κ * enorm2 (y - x)) : Smooth f G κ := by
  intro x y
  set d := y - x with hdd
  -- derivative of the deviation from the linear model along the segment
  have hφ : ∀ t : ℝ, HasDerivAt (fun t : ℝ => f (x + t • d) - t * (G x ⬝ᵥ d)) ((G (x + t • d) - G x) ⬝ᵥ d) t := by
    intro t
    have := (hd x d t).sub ((hasDerivAt_id t).mul_const (G x ⬝ᵥ d))
    rw [one_mul, ← sub_dotProduct] at this
    exact this
  have hb : ∀ t : ℝ, 0 ≤ t → |(G (x + t • d) - G x) ⬝ᵥ d| ≤ κ * t * enorm2 d ^ 2 := by
    intro t ht
    have h1 := abs_dot_le (G (x + t • d) - G x) d
    have h2 := hl x (x + t • d)
    rw [add_sub_cancel_left, enorm2_smul _ ht] at h2
    calc _ ≤ _ := h1
      _ ≤ (κ * (t * enorm2 d)) * enorm2 d := mul_le_mul_of_nonneg_right h2 (enorm2_nonneg _)
      _ = _ := by ring
  have bound : ∀ ε : ℝ, (ε = 1 ∨ ε = -1) → ε * (f y - f x - G x ⬝ᵥ d) ≤ κ / 2 * enorm2 d ^ 2 := by
    intro ε hε
    have hψ : ∀ t : ℝ, HasDerivAt
        (fun t : ℝ => ε * (f (x + t • d) - t * (G x ⬝ᵥ d)) - κ / 2 * enorm2 d ^ 2 * t ^ 2)
        (ε * ((G (x + t • d) - G x) ⬝ᵥ d) - κ / 2 * enorm2 d ^ 2 * (2 * t)) t := by
      intro t
      have := ((hφ t).const_mul ε).sub (((hasDerivAt_id t).pow 2).const_mul (κ / 2 * enorm2 d ^ 2))
      simp only [Nat.cast_ofNat, Nat.add_one_sub_one, pow_one, mul_one, id_eq] at this
      exact this
    obtain ⟨c, hc, he⟩ := exists_hasDerivAt_eq_slope _ _ (zero_lt_one (α := ℝ))
      (fun t _ => (hψ t).continuousAt.continuousWithinAt) (fun t _ => hψ t)
    have h1 : ε * ((G (x + c • d) - G x) ⬝ᵥ d) ≤ κ * c * enorm2 d ^ 2 := by
      refine le_trans (le_abs_self _) ?_
      rw [abs_mul]
      have : |ε| = 1 := by rcases hε with h | h <;> simp [h]
      rw [this, one_mul]
      exact hb c hc.1.le
    have hy : x + (1 : ℝ) • d = y := by rw [one_smul, hdd]; abel
    simp only [hy, zero_smul, add_zero, one_mul, zero_mul, sub_zero, div_one, one_pow, mul_one] at he
    have h2 : κ / 2 * enorm2 d ^ 2 * (2 * c) = κ * c * enorm2 d ^ 2 := by ring
    have h3 : (0 : ℝ) ^ 2 = 0 := by norm_num
    rw [h3] at he
    linarith
  rw [abs_le]
  have a := bound 1 (Or.inl rfl)
  have b := bound (-1) (Or.inr rfl)
  constructor <;> linarith

/-- A linear model of the square function on two points: the slope at the base point `a` is `a + b`, the true slope `2 a`, and the
bound of `C73_linear` is `|b - a|`. -/
theorem Ex.sq_smooth : Smooth (fun x : Fin 1 → ℝ => x 0 ^ 2) (fun x => ![2 * x 0]) 2 := by
  intro x y
  rw [enorm2_sq]
  simp only [dotProduct, Finset.univ_unique, Fin.default_eq_zero, Finset.sum_singleton, cons_val_zero, Pi.sub_apply]
  rw [show y 0 ^ 2 - x 0 ^ 2 - 2 * x 0 * (y 0 - x 0) = (y 0 - x 0) * (y 0 - x 0) by ring, abs_of_nonneg (mul_self_nonneg _)]
  linarith

example (a b : ℝ) (hab : a ≠ b) : ∃ Q R,
    IsQR Q R (zMat 2 (buildFrame 2 (![![a], ![b]] : Fin 2 → Fin 1 → ℝ) true).pts) ∧
      ∃ (lam r : ℝ) (P : Fin 2 → ℝ), poisednessY Ex.realKer Q R ![![a], ![b]] (1 / 1000)
        (buildFrame 2 ![![a], ![b]] true).xbase (buildFrame 2 ![![a], ![b]] true).scale true = some (lam, r) ∧
      computeP Q R (fun j => (![![a], ![b]] : Fin 2 → Fin 1 → ℝ) j 0 ^ 2) = some P ∧
      enorm2 (gradP P ![a] (buildFrame 2 ![![a], ![b]] true).xbase (buildFrame 2 ![![a], ![b]] true).scale true -
        ![2 * a]) ≤ lam * r := by
  obtain ⟨Q, R, h⟩ := exists_qr _ (two_poised a b hab)
  obtain ⟨lam, r, P, h1, h2, h3⟩ := C73_linear (Ex.realKer_lin (n := 1)) le_rfl _ Q R h (two_poised a b hab) (1 / 1000)
    (by norm_num) _ _ 2 Ex.sq_smooth
  refine ⟨Q, R, h, lam, r, P, h1, h2, le_trans h3 (le_of_eq ?_)⟩
  push_cast
  ring

/-- The hypotheses of the general theorem, including the one on the hard case, are met for two points. -/
example (a b : ℝ) (hab : a ≠ b) : ∃ Q R,
    IsQR Q R (zMat 2 (buildFrame 2 (![![a], ![b]] : Fin 2 → Fin 1 → ℝ) true).pts) ∧
    ∀ j ≠ 0, ∀ L g H, computeLj Q R j = some L →
      gradP L 0 (buildFrame 2 (![![a], ![b]] : Fin 2 → Fin 1 → ℝ) true).xbase
        (buildFrame 2 (![![a], ![b]] : Fin 2 → Fin 1 → ℝ) true).scale false = g →
      hessP 1 L (buildFrame 2 (![![a], ![b]] : Fin 2 → Fin 1 → ℝ) true).scale false = H →
      1 / 10 ^ 12 ≤ g ⬝ᵥ g →
      (g ⬝ᵥ H *ᵥ g ≤ 0 → (trms (Ex.realKer (ι := Fin 1)) g H 1 (1 / 1000)).hard = false) ∧
        (0 ≤ g ⬝ᵥ H *ᵥ g → (trms (Ex.realKer (ι := Fin 1)) (-g) (-H) 1 (1 / 1000)).hard = false) := by
  obtain ⟨Q, R, h⟩ := exists_qr _ (two_poised a b hab)
  refine ⟨Q, R, h, fun j _ L g H _ _ hH hg => ?_⟩
  rw [← hH, hess_linear, neg_zero]
  exact ⟨fun _ => (trms_linear Ex.realKer_lin g 1 _ one_pos (by norm_num) hg).2.2,
    fun _ => (trms_linear Ex.realKer_lin (-g) 1 _ one_pos (by norm_num)
      (by rw [neg_dotProduct_neg]; exact hg)).2.2⟩

#print axioms C73_linear
#print axioms C73_subbasis_partial
#print axioms C73_l2norm_false

end Sqpdfo
