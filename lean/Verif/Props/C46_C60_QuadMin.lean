import Verif.Model.QuadMin
import Mathlib.Tactic.Linarith
import Mathlib.Tactic.NormNum
import Mathlib.Tactic.FieldSimp
import Mathlib.Algebra.BigOperators.Fin
import Mathlib.Algebra.Order.BigOperators.Ring.Finset

/-! # C46, C60: univariate quadratics and coordinate search -/

namespace Sqpdfo
variable {K : Type} [Field K] [LinearOrder K] [IsStrictOrderedRing K] {n : ℕ}

/-- `t` lies in the interval; a missing end is infinite. -/
def Spec.InI (low high : Option K) (t : K) : Prop :=
  (∀ l ∈ low, l ≤ t) ∧ ∀ h ∈ high, t ≤ h

/-- The function `t ↦ 0.5*a*t^2 + b*t`. -/
def Spec.quad (b a t : K) : K := 1 / 2 * a * t ^ 2 + b * t

/-- Unbounded below on the interval. -/
def Spec.UnbddI (low high : Option K) (b a : K) : Prop :=
  ∀ M, ∃ t, Spec.InI low high t ∧ Spec.quad b a t < M

open Spec

theorem quad_sub (b a s t : K) :
    quad b a t - quad b a s = (t - s) * (b + a * (t + s) / 2) := by
  unfold quad; ring

/-- A quadratic with negative leading coefficient, or a linear function with positive slope, falls below every
bound to the left of any point. -/
theorem unbdd_left (b a : K) (h : a < 0 ∨ (a = 0 ∧ b > 0)) (M c : K) :
    ∃ t, t ≤ c ∧ quad b a t < M := by
  rcases h with h | ⟨rfl, h⟩
  · refine ⟨-(|c| + |b| * 2 / (-a) + |M| * 2 / (-a) + 1 + 1), ?_, ?_⟩
    · have h1 : 0 ≤ |b| * 2 / (-a) := by have := neg_pos.2 h; positivity
      have h2 : 0 ≤ |M| * 2 / (-a) := by have := neg_pos.2 h; positivity
      have := neg_abs_le c
      linarith
    · have ha : 0 < -a := neg_pos.2 h
      have h1 : 0 ≤ |b| * 2 / (-a) := by positivity
      have h2 : 0 ≤ |M| * 2 / (-a) := by positivity
      obtain ⟨u, hu⟩ : ∃ u, u = |c| + |b| * 2 / (-a) + |M| * 2 / (-a) + 1 + 1 := ⟨_, rfl⟩
      rw [← hu]
      have hc := abs_nonneg c
      have hu1 : 1 ≤ u := by rw [hu]; linarith
      have e1 : -a * (|b| * 2 / (-a)) = |b| * 2 := mul_div_cancel₀ _ ha.ne'
      have e2 : -a * (|M| * 2 / (-a)) = |M| * 2 := mul_div_cancel₀ _ ha.ne'
      have hu2 : -a * u ≥ |b| * 2 + |M| * 2 + -a := by
        rw [hu]
        nlinarith
      have hb := neg_abs_le b
      have hM := neg_abs_le M
      have hM0 := abs_nonneg M
      have hb0 := abs_nonneg b
      unfold quad
      have k1 : -a * u * u ≥ (|b| * 2 + |M| * 2 + -a) * u :=
        mul_le_mul_of_nonneg_right hu2 (by linarith)
      have k2 : |M| * u ≥ |M| := by nlinarith
      have k3 : -a * u ≥ -a := by nlinarith
      have k4 : -b * u ≤ |b| * u := mul_le_mul_of_nonneg_right (neg_le.1 hb) (by linarith)
      nlinarith
  · refine ⟨-(|c| + |M| / b + 1), ?_, ?_⟩
    · have h1 : 0 ≤ |M| / b := by positivity
      have := neg_abs_le c
      linarith
    · unfold quad
      have e : b * (|M| / b) = |M| := by field_simp
      have := neg_abs_le M
      have := mul_nonneg h.le (abs_nonneg c)
      nlinarith

theorem unbdd_right (b a : K) (h : a < 0 ∨ (a = 0 ∧ b < 0)) (M c : K) :
    ∃ t, c ≤ t ∧ quad b a t < M := by
  obtain ⟨t, h1, h2⟩ := unbdd_left (-b) a (by
    rcases h with h | ⟨h, h'⟩
    · exact Or.inl h
    · exact Or.inr ⟨h, by linarith⟩) M (-c)
  refine ⟨-t, by linarith, ?_⟩
  unfold quad at *
  nlinarith

/-- C46, first part.  Unboundedness is reported exactly if the quadratic is unbounded below on the
(nonempty) interval. -/
theorem C46_unbounded (low high : Option K) (b a : K)
    (hne : ∀ l ∈ low, ∀ h ∈ high, l ≤ h) :
    (quadMin low high b a).ier = true ↔ UnbddI low high b a := by
  constructor
  · intro h M
    unfold quadMin at h
    simp only at h
    by_cases hl : low = none ∧ (a < 0 ∨ (a = 0 ∧ b > 0))
    · obtain ⟨rfl, hl⟩ := hl
      obtain ⟨t, h1, h2⟩ := unbdd_left b a hl M (high.getD 0)
      refine ⟨t, ⟨fun _ h => (by cases h), ?_⟩, h2⟩
      intro x hx
      rw [Option.mem_def] at hx
      subst hx
      exact h1
    · by_cases hr : high = none ∧ (a < 0 ∨ (a = 0 ∧ b < 0))
      · obtain ⟨rfl, hr⟩ := hr
        obtain ⟨t, h1, h2⟩ := unbdd_right b a hr M (low.getD 0)
        refine ⟨t, ⟨?_, fun _ h => (by cases h)⟩, h2⟩
        intro x hx
        rw [Option.mem_def] at hx
        subst hx
        exact h1
      · simp only [hl, hr, decide_false, Bool.or_self, Bool.false_eq_true, if_false] at h
        split_ifs at h
  · intro h
    by_contra hc
    unfold quadMin at hc
    simp only at hc
    by_cases hl : low = none ∧ (a < 0 ∨ (a = 0 ∧ b > 0))
    · simp [hl] at hc
    by_cases hr : high = none ∧ (a < 0 ∨ (a = 0 ∧ b < 0))
    · simp [hr] at hc
    -- a lower bound
    rcases lt_trichotomy a 0 with ha | ha | ha
    · have hl' : ∃ l, low = some l := by
        cases low with
        | none => exact absurd ⟨rfl, Or.inl ha⟩ hl
        | some l => exact ⟨l, rfl⟩
      have hr' : ∃ l, high = some l := by
        cases high with
        | none => exact absurd ⟨rfl, Or.inl ha⟩ hr
        | some l => exact ⟨l, rfl⟩
      obtain ⟨l, rfl⟩ := hl'
      obtain ⟨r, rfl⟩ := hr'
      obtain ⟨t, ⟨h1, h2⟩, h3⟩ := h (min (quad b a l) (quad b a r))
      have h1 := h1 l rfl
      have h2 := h2 r rfl
      have k1 := lt_of_lt_of_le h3 (min_le_left _ _)
      have k2 := lt_of_lt_of_le h3 (min_le_right _ _)
      have e1 := quad_sub b a l t
      have e2 := quad_sub b a r t
      have f1 : (t - l) * (b + a * (t + l) / 2) < 0 := by linarith
      have f2 : (t - r) * (b + a * (t + r) / 2) < 0 := by linarith
      have g1 : b + a * (t + l) / 2 < 0 := by
        by_contra hcon
        exact absurd f1 (not_lt.2 (mul_nonneg (by linarith) (not_lt.1 hcon)))
      have g2 : 0 < b + a * (t + r) / 2 := by
        by_contra hcon
        exact absurd f2 (not_lt.2 (mul_nonneg_of_nonpos_of_nonpos (by linarith) (not_lt.1 hcon)))
      nlinarith
    · subst ha
      rcases lt_trichotomy b 0 with hb | hb | hb
      · cases high with
        | none => exact absurd ⟨rfl, Or.inr ⟨rfl, hb⟩⟩ hr
        | some r =>
          obtain ⟨t, ⟨-, h2⟩, h3⟩ := h (quad b 0 r)
          have h2 := h2 r rfl
          unfold quad at h3
          nlinarith
      · subst hb
        obtain ⟨t, -, h3⟩ := h 0
        simp [quad] at h3
      · cases low with
        | none => exact absurd ⟨rfl, Or.inr ⟨rfl, hb⟩⟩ hl
        | some r =>
          obtain ⟨t, ⟨h2, -⟩, h3⟩ := h (quad b 0 r)
          have h2 := h2 r rfl
          unfold quad at h3
          nlinarith
    · obtain ⟨t, -, h3⟩ := h (-(b ^ 2) / (2 * a))
      have e : quad b a t = 1 / 2 * a * (t + b / a) ^ 2 + -(b ^ 2) / (2 * a) := by
        unfold quad; field_simp; ring
      have : 0 ≤ 1 / 2 * a * (t + b / a) ^ 2 := by positivity
      linarith

/-- C46, second part.  Full statement: *if it does not report unboundedness, the result is a point of the
interval with the smallest value*; false for the zero function (`C46_zero_outside`).  Proved for all
other functions, and for intervals that contain 0 (as in all calls). -/
theorem C46_minimiser_partial (low high : Option K) (b a : K)
    (hne : ∀ l ∈ low, ∀ h ∈ high, l ≤ h)
    (hz : a ≠ 0 ∨ b ≠ 0 ∨ InI low high 0)
    (hi : (quadMin low high b a).ier = false) :
    ∃ x, (quadMin low high b a).x = some x ∧ InI low high x ∧
      (∀ t, InI low high t → quad b a x ≤ quad b a t) ∧
      ((quadMin low high b a).lba = true → low = some x) ∧
      ((quadMin low high b a).uba = true → high = some x) ∧
      ((quadMin low high b a).lba = false → (quadMin low high b a).uba = false →
        a = 0 ∧ b = 0 ∨ b + a * x = 0) := by
  by_cases hl : low = none ∧ (a < 0 ∨ (a = 0 ∧ b > 0))
  · simp [quadMin, hl] at hi
  by_cases hr : high = none ∧ (a < 0 ∨ (a = 0 ∧ b < 0))
  · simp [quadMin, hr] at hi
  unfold quadMin
  simp only [hl, hr, decide_false, Bool.or_self, Bool.false_eq_true, if_false]
  by_cases h0 : a = 0 ∧ b = 0
  · obtain ⟨rfl, rfl⟩ := h0
    rw [if_pos ⟨rfl, rfl⟩]
    refine ⟨0, rfl, ?_, ?_, ?_, ?_, ?_⟩
    · rcases hz with h | h | h
      · exact absurd rfl h
      · exact absurd rfl h
      · exact h
    · intro t _; simp [quad]
    · intro h; cases h
    · intro h; cases h
    · intro _ _; exact Or.inl ⟨rfl, rfl⟩
  rw [if_neg h0]
  by_cases ha : a ≤ 0
  · rw [if_pos ha]
    cases low with
    | none =>
      cases high with
      | none =>
        exfalso
        rcases lt_or_eq_of_le ha with h | h
        · exact hl ⟨rfl, Or.inl h⟩
        · rcases lt_trichotomy b 0 with h' | h' | h'
          · exact hr ⟨rfl, Or.inr ⟨h, h'⟩⟩
          · exact h0 ⟨h, h'⟩
          · exact hl ⟨rfl, Or.inr ⟨h, h'⟩⟩
      | some r =>
        have ha0 : a = 0 := by
          rcases lt_or_eq_of_le ha with h | h
          · exact absurd ⟨rfl, Or.inl h⟩ hl
          · exact h
        subst ha0
        have hb : b < 0 := by
          rcases lt_trichotomy b 0 with h' | h' | h'
          · exact h'
          · exact absurd ⟨rfl, h'⟩ h0
          · exact absurd ⟨rfl, Or.inr ⟨rfl, h'⟩⟩ hl
        refine ⟨r, rfl, ⟨fun _ h => (by cases h), fun y hy => ?_⟩, ?_, ?_, ?_, ?_⟩
        · cases hy; exact le_rfl
        · intro t ht
          have := ht.2 r rfl
          unfold quad
          nlinarith
        · intro h; cases h
        · intro _; rfl
        · intro _ h; cases h
    | some l =>
      cases high with
      | none =>
        have ha0 : a = 0 := by
          rcases lt_or_eq_of_le ha with h | h
          · exact absurd ⟨rfl, Or.inl h⟩ hr
          · exact h
        subst ha0
        have hb : 0 < b := by
          rcases lt_trichotomy b 0 with h' | h' | h'
          · exact absurd ⟨rfl, Or.inr ⟨rfl, h'⟩⟩ hr
          · exact absurd ⟨rfl, h'⟩ h0
          · exact h'
        refine ⟨l, rfl, ⟨fun y hy => ?_, fun _ h => (by cases h)⟩, ?_, ?_, ?_, ?_⟩
        · cases hy; exact le_rfl
        · intro t ht
          have := ht.1 l rfl
          unfold quad
          nlinarith
        · intro _; rfl
        · intro h; cases h
        · intro h; cases h
      | some r =>
        have hlr : l ≤ r := hne l rfl r rfl
        by_cases hc : 2 * b + (l + r) * a > 0
        · simp only [hc, decide_true, if_true]
          refine ⟨l, rfl, ⟨fun y hy => ?_, fun y hy => ?_⟩, ?_, ?_, ?_, ?_⟩
          · cases hy; exact le_rfl
          · cases hy; exact hlr
          · intro t ht
            have h1 := ht.1 l rfl
            have h2 := ht.2 r rfl
            have e := quad_sub b a l t
            have : 0 ≤ b + a * (t + l) / 2 := by nlinarith
            have := mul_nonneg (sub_nonneg.2 h1) this
            linarith
          · intro _; rfl
          · intro h; cases h
          · intro h; cases h
        · simp only [hc, decide_false]
          refine ⟨r, rfl, ⟨fun y hy => ?_, fun y hy => ?_⟩, ?_, ?_, ?_, ?_⟩
          · cases hy; exact hlr
          · cases hy; exact le_rfl
          · intro t ht
            have h1 := ht.1 l rfl
            have h2 := ht.2 r rfl
            rcases eq_or_lt_of_le h2 with h3 | h3
            · rw [h3]
            · have e := quad_sub b a r t
              by_contra hcon
              have f2 : (t - r) * (b + a * (t + r) / 2) < 0 := by linarith
              have g2 : 0 < b + a * (t + r) / 2 := by
                by_contra hcon
                exact absurd f2 (not_lt.2
                  (mul_nonneg_of_nonpos_of_nonpos (by linarith) (not_lt.1 hcon)))
              nlinarith
          · intro h; cases h
          · intro _; rfl
          · intro _ h; cases h
  · rw [if_neg ha]
    have ha : 0 < a := not_le.1 ha
    have key : ∀ s t, b + a * s ≥ 0 → s ≤ t → quad b a s ≤ quad b a t := by
      intro s t h1 h2
      have e := quad_sub b a s t
      have : 0 ≤ b + a * (t + s) / 2 := by nlinarith
      have := mul_nonneg (sub_nonneg.2 h2) this
      linarith
    have key' : ∀ s t, b + a * s ≤ 0 → t ≤ s → quad b a s ≤ quad b a t := by
      intro s t h1 h2
      have e := quad_sub b a s t
      have : b + a * (t + s) / 2 ≤ 0 := by nlinarith
      have := mul_nonneg_of_nonpos_of_nonpos (sub_nonpos.2 h2) this
      linarith
    have hx : b + a * (-b / a) = 0 := by field_simp; ring
    have mono : ∀ s t, s ≤ t → b + a * s ≤ b + a * t := by
      intro s t h; nlinarith
    by_cases hL : ∃ l, low = some l ∧ -b / a ≤ l
    · obtain ⟨l, rfl, hL⟩ := hL
      simp only [reachLow, hL, decide_true, if_true, Option.getD_some]
      by_cases hR : ∃ r, high = some r ∧ r ≤ -b / a
      · obtain ⟨r, rfl, hR⟩ := hR
        have hlr : l ≤ r := hne l rfl r rfl
        have e : l = r := le_antisymm hlr (hR.trans hL)
        subst e
        simp only [reachHigh, hR, decide_true, if_true, Option.getD_some]
        refine ⟨l, rfl, ⟨fun y hy => ?_, fun y hy => ?_⟩, ?_, ?_, ?_, ?_⟩
        · cases hy; exact le_rfl
        · cases hy; exact le_rfl
        · intro t ht
          rw [le_antisymm (ht.2 l rfl) (ht.1 l rfl)]
        · intro _; rfl
        · intro _; rfl
        · intro h; cases h
      · have e : reachHigh high (-b / a) = false := by
          cases high with
          | none => rfl
          | some r => exact decide_eq_false (fun h => hR ⟨r, rfl, h⟩)
        rw [e]
        refine ⟨l, rfl, ⟨fun y hy => ?_, fun y hy => ?_⟩, ?_, ?_, ?_, ?_⟩
        · cases hy; exact le_rfl
        · exact hne l rfl y hy
        · intro t ht
          exact key l t (by have := mono _ _ hL; linarith) (ht.1 l rfl)
        · intro _; rfl
        · intro h; cases h
        · intro h; cases h
    · have e : reachLow low (-b / a) = false := by
        cases low with
        | none => rfl
        | some r => exact decide_eq_false (fun h => hL ⟨r, rfl, h⟩)
      rw [e]
      by_cases hR : ∃ r, high = some r ∧ r ≤ -b / a
      · obtain ⟨r, rfl, hR⟩ := hR
        simp only [reachHigh, hR, decide_true, if_true, Option.getD_some]
        refine ⟨r, rfl, ⟨fun y hy => ?_, fun y hy => ?_⟩, ?_, ?_, ?_, ?_⟩
        · exact hne y hy r rfl
        · cases hy; exact le_rfl
        · intro t ht
          exact key' r t (by have := mono _ _ hR; linarith) (ht.2 r rfl)
        · intro h; cases h
        · intro _; rfl
        · intro _ h; cases h
      · have e : reachHigh high (-b / a) = false := by
          cases high with
          | none => rfl
          | some r => exact decide_eq_false (fun h => hR ⟨r, rfl, h⟩)
        rw [e]
        refine ⟨-b / a, rfl, ⟨fun y hy => ?_, fun y hy => ?_⟩, ?_, ?_, ?_, ?_⟩
        · exact le_of_lt (not_le.1 fun h => hL ⟨y, hy, h⟩)
        · exact le_of_lt (not_le.1 fun h => hR ⟨y, hy, h⟩)
        · intro t ht
          rcases le_total (-b / a) t with h | h
          · exact key _ t (by rw [hx]) h
          · exact key' _ t (by rw [hx]) h
        · intro h; cases h
        · intro h; cases h
        · intro _ _; exact Or.inr hx

/-- Negation of the second part for the zero function on `[1, 2]`: the result is 0. -/
theorem C46_zero_outside : (quadMin (some (1 : ℚ)) (some 2) 0 0).ier = false ∧
    (quadMin (some (1 : ℚ)) (some 2) 0 0).x = some 0 ∧ ¬ InI (some (1 : ℚ)) (some 2) 0 := by
  refine ⟨by decide +kernel, by decide +kernel, fun h => ?_⟩
  have := h.1 1 rfl
  norm_num at this

/-- Concrete cases: an inner minimiser, a concave function, an unbounded one. -/
example : (quadMin (some (-1 : ℚ)) none (-3) 2).x = some (3 / 2) ∧
    (quadMin (some (-1 : ℚ)) (some 4) 1 (-2)).x = some 4 ∧
    (quadMin (some (-1 : ℚ)) none 1 (-2)).ier = true := by decide +kernel

/-! ### The coordinate search -/

/-- Objective `c^T x + 0.5 x^T G x`. -/
def Spec.qp (G : Fin n → Fin n → K) (c x : Fin n → K) : K :=
  ∑ i, c i * x i + 1 / 2 * ∑ i, ∑ j, G i j * x i * x j

/-- Gradient. -/
def Spec.qpGrad (G : Fin n → Fin n → K) (c x : Fin n → K) (i : Fin n) : K :=
  c i + ∑ j, G i j * x j

/-- A point in the box. -/
def Spec.InTheBox (lo hi : Fin n → Option K) (x : Fin n → K) : Prop :=
  ∀ i, InI (lo i) (hi i) (x i)

theorem sum_update (f : Fin n → K) (x : Fin n → K) (k : Fin n) (a : K) :
    ∑ j, f j * Function.update x k (x k + a) j = ∑ j, f j * x j + a * f k := by
  have : ∀ j, f j * Function.update x k (x k + a) j =
      f j * x j + (if j = k then a * f k else 0) := by
    intro j
    by_cases h : j = k
    · subst h; simp; ring
    · simp [h]
  rw [Finset.sum_congr rfl (fun j _ => this j), Finset.sum_add_distrib]
  simp

theorem qpGrad_update (G : Fin n → Fin n → K) (c x : Fin n → K) (k : Fin n) (a : K) (i : Fin n) :
    qpGrad G c (Function.update x k (x k + a)) i = qpGrad G c x i + a * G i k := by
  unfold qpGrad
  rw [sum_update]; ring

theorem qp_update (G : Fin n → Fin n → K) (hG : ∀ i j, G i j = G j i) (c x : Fin n → K)
    (k : Fin n) (a : K) :
    qp G c (Function.update x k (x k + a)) = qp G c x + quad (qpGrad G c x k) (G k k) a := by
  have e : ∀ y : Fin n → K, ∑ i, ∑ j, G i j * y i * y j = ∑ i, (∑ j, G i j * y j) * y i := by
    intro y
    refine Finset.sum_congr rfl fun i _ => ?_
    rw [Finset.sum_mul]
    exact Finset.sum_congr rfl fun j _ => by ring
  have e2 : ∑ i, G i k * Function.update x k (x k + a) i = ∑ j, G k j * x j + a * G k k := by
    rw [sum_update]
    congr 1
    exact Finset.sum_congr rfl fun j _ => by rw [hG]
  have e3 : ∑ i, (∑ j, G i j * x j) * Function.update x k (x k + a) i =
      ∑ i, (∑ j, G i j * x j) * x i + a * ∑ j, G k j * x j := sum_update _ _ _ _
  have e4 : ∑ i, (∑ j, G i j * Function.update x k (x k + a) j) * Function.update x k (x k + a) i =
      ∑ i, (∑ j, G i j * x j) * Function.update x k (x k + a) i +
        a * ∑ i, G i k * Function.update x k (x k + a) i := by
    rw [Finset.mul_sum, ← Finset.sum_add_distrib]
    refine Finset.sum_congr rfl fun i _ => ?_
    rw [sum_update]; ring
  unfold qp
  rw [e, e, e4, e3, e2, sum_update]
  unfold quad qpGrad
  ring

/-- C60, one step: started in the box with the right gradient, a coordinate step stays in the box, changes
only coordinate `k`, keeps the gradient right, and reaches the smallest value along that coordinate. -/
theorem C60_coordinate_step_partial (p : MinqIn K n) (c : Fin n → K) (hG : ∀ i j, p.G i j = p.G j i)
    (S T : MinqSt K n) (k : Fin n) (reset : Bool) (hb : InTheBox p.lo p.hi S.x)
    (hg : ∀ i, S.g i = qpGrad p.G c S.x i) (h : coordStep p S k = some (T, reset)) :
    InTheBox p.lo p.hi T.x ∧ (∀ i, T.g i = qpGrad p.G c T.x i) ∧ (∀ i, i ≠ k → T.x i = S.x i) ∧
      (∀ y, InI (p.lo k) (p.hi k) y → qp p.G c T.x ≤ qp p.G c (Function.update S.x k y)) ∧
      qp p.G c T.x ≤ qp p.G c S.x ∧
      (∀ i, i ≠ k → T.free i = S.free i) ∧
      (reset = true → T.x ≠ S.x) := by
  have hne : ∀ l ∈ (p.lo k).map (· - S.x k), ∀ h ∈ (p.hi k).map (· - S.x k), l ≤ h := by
    intro l hl r hr
    rw [Option.mem_map] at hl hr
    obtain ⟨l', hl, rfl⟩ := hl
    obtain ⟨r', hr, rfl⟩ := hr
    have := (hb k).1 l' hl
    have := (hb k).2 r' hr
    linarith
  have hz : InI ((p.lo k).map (· - S.x k)) ((p.hi k).map (· - S.x k)) 0 := by
    refine ⟨fun l hl => ?_, fun r hr => ?_⟩
    · rw [Option.mem_map] at hl
      obtain ⟨l', hl, rfl⟩ := hl
      have := (hb k).1 l' hl
      linarith
    · rw [Option.mem_map] at hr
      obtain ⟨r', hr, rfl⟩ := hr
      have := (hb k).2 r' hr
      linarith
  -- the move by `alpha`
  have main : ∀ alpha, InI ((p.lo k).map (· - S.x k)) ((p.hi k).map (· - S.x k)) alpha →
      (∀ t, InI ((p.lo k).map (· - S.x k)) ((p.hi k).map (· - S.x k)) t →
        quad (S.g k) (p.G k k) alpha ≤ quad (S.g k) (p.G k k) t) →
      ∀ U : MinqSt K n, U.x = Function.update S.x k (S.x k + alpha) →
        (∀ i, U.g i = S.g i + alpha * p.G i k) →
        InTheBox p.lo p.hi U.x ∧ (∀ i, U.g i = qpGrad p.G c U.x i) ∧ (∀ i, i ≠ k → U.x i = S.x i) ∧
        (∀ y, InI (p.lo k) (p.hi k) y → qp p.G c U.x ≤ qp p.G c (Function.update S.x k y)) ∧
        qp p.G c U.x ≤ qp p.G c S.x := by
    intro alpha hin hmin U hU hUg
    have hopt : ∀ y, InI (p.lo k) (p.hi k) y →
        qp p.G c U.x ≤ qp p.G c (Function.update S.x k y) := by
      intro y hy
      have e : y = S.x k + (y - S.x k) := by ring
      rw [hU, e, qp_update _ hG, qp_update _ hG, ← hg k]
      have := hmin (y - S.x k) ⟨fun l hl => by
          rw [Option.mem_map] at hl
          obtain ⟨l', hl, rfl⟩ := hl
          have := hy.1 l' hl
          linarith, fun l hl => by
          rw [Option.mem_map] at hl
          obtain ⟨l', hl, rfl⟩ := hl
          have := hy.2 l' hl
          linarith⟩
      linarith
    refine ⟨?_, ?_, ?_, hopt, ?_⟩
    · intro i
      rw [hU]
      by_cases hik : i = k
      · subst hik
        rw [Function.update_self]
        refine ⟨fun l hl => ?_, fun l hl => ?_⟩
        · have := hin.1 (l - S.x i) (by rw [Option.mem_map]; exact ⟨l, hl, rfl⟩)
          linarith
        · have := hin.2 (l - S.x i) (by rw [Option.mem_map]; exact ⟨l, hl, rfl⟩)
          linarith
      · rw [Function.update_of_ne hik]; exact hb i
    · intro i
      rw [hUg, hU, qpGrad_update, hg i]
    · intro i hik
      rw [hU, Function.update_of_ne hik]
    · have := hopt (S.x k) (hb k)
      rwa [Function.update_eq_self] at this
  have hfree : ∀ (U : MinqSt K n) (v : Bool) (i : Fin n), i ≠ k → (U.setFree k v).free i = U.free i := by
    intro U v i hi
    exact Function.update_of_ne hi _ _
  unfold coordStep at h
  simp only at h
  cases hier : (quadMin ((p.lo k).map (· - S.x k)) ((p.hi k).map (· - S.x k)) (S.g k)
      (p.G k k)).ier with
  | true => rw [hier] at h; cases h
  | false =>
    obtain ⟨alpha, ha, hin, hmin, hlba, huba, hno⟩ := C46_minimiser_partial _ _ (S.g k) (p.G k k) hne
      (Or.inr (Or.inr hz)) hier
    rw [hier, ha] at h
    simp only at h
    generalize hq : quadMin ((p.lo k).map (· - S.x k)) ((p.hi k).map (· - S.x k)) (S.g k)
      (p.G k k) = q at *
    -- where the bound branches go
    have hlow : (q.lba = true ∨ ∃ l ∈ p.lo k, S.x k + alpha ≤ l) →
        (p.lo k).getD 0 = S.x k + alpha := by
      intro hc
      rcases hc with hc | ⟨l, hl, hc⟩
      · have := hlba hc
        rw [Option.map_eq_some_iff] at this
        obtain ⟨l, h1, h2⟩ := this
        rw [h1, Option.getD_some]; linarith
      · have := hin.1 (l - S.x k) (by rw [Option.mem_map]; exact ⟨l, hl, rfl⟩)
        rw [Option.mem_def] at hl
        rw [hl, Option.getD_some]; linarith
    have hupp : (q.uba = true ∨ ∃ l ∈ p.hi k, l ≤ S.x k + alpha) →
        (p.hi k).getD 0 = S.x k + alpha := by
      intro hc
      rcases hc with hc | ⟨l, hl, hc⟩
      · have := huba hc
        rw [Option.map_eq_some_iff] at this
        obtain ⟨l, h1, h2⟩ := this
        rw [h1, Option.getD_some]; linarith
      · have := hin.2 (l - S.x k) (by rw [Option.mem_map]; exact ⟨l, hl, rfl⟩)
        rw [Option.mem_def] at hl
        rw [hl, Option.getD_some]; linarith
    -- a move, and no move
    have moved : ∀ (d y : K) (v : Bool) (res : Bool), d = alpha → y = S.x k + alpha →
        (res = true → d ≠ 0) →
        some ((S.move p k d y).setFree k v, res) = some (T, reset) → 
        InTheBox p.lo p.hi T.x ∧ (∀ i, T.g i = qpGrad p.G c T.x i) ∧ (∀ i, i ≠ k → T.x i = S.x i) ∧
        (∀ y, InI (p.lo k) (p.hi k) y → qp p.G c T.x ≤ qp p.G c (Function.update S.x k y)) ∧
        qp p.G c T.x ≤ qp p.G c S.x ∧ (∀ i, i ≠ k → T.free i = S.free i) ∧
        (reset = true → T.x ≠ S.x) := by
      rintro d y v res rfl rfl hd e
      rw [Option.some.injEq, Prod.mk.injEq] at e
      obtain ⟨rfl, rfl⟩ := e
      obtain ⟨h1, h2, h3, h4, h5⟩ := main d hin hmin ((S.move p k d (S.x k + d)).setFree k v)
        rfl (fun _ => rfl)
      refine ⟨h1, h2, h3, h4, h5, fun i hi => hfree _ v i hi, fun hr he => hd hr ?_⟩
      have e1 : Function.update S.x k (S.x k + d) k = S.x k := congrFun he k
      rw [Function.update_self] at e1
      linarith
    have stayed : ∀ (U : MinqSt K n), alpha = 0 → U.x = S.x → U.g = S.g →
        (∀ i, i ≠ k → U.free i = S.free i) → some (U, false) = some (T, reset) →
        InTheBox p.lo p.hi T.x ∧ (∀ i, T.g i = qpGrad p.G c T.x i) ∧ (∀ i, i ≠ k → T.x i = S.x i) ∧
        (∀ y, InI (p.lo k) (p.hi k) y → qp p.G c T.x ≤ qp p.G c (Function.update S.x k y)) ∧
        qp p.G c T.x ≤ qp p.G c S.x ∧ (∀ i, i ≠ k → T.free i = S.free i) ∧
        (reset = true → T.x ≠ S.x) := by
      rintro U rfl e1 e2 e3 e
      rw [Option.some.injEq, Prod.mk.injEq] at e
      obtain ⟨rfl, rfl⟩ := e
      obtain ⟨h1, h2, h3, h4, h5⟩ := main 0 hin hmin U
        (by rw [add_zero, Function.update_eq_self, e1]) (fun i => by rw [e2]; ring)
      exact ⟨h1, h2, h3, h4, h5, e3, fun h => (by cases h)⟩
    split_ifs at h with c1 c2 c3 c4 c5
    · exact moved _ _ _ _ (by rw [hlow c1]; ring) (hlow c1) (fun _ => c2) h
    · exact stayed (S.setFree k false) (by rw [hlow c1] at c2; simpa using c2) rfl rfl
        (fun i hi => hfree S _ i hi) h
    · exact moved _ _ _ _ (by rw [hupp c3]; ring) (hupp c3) (fun _ => c4) h
    · exact stayed (S.setFree k false) (by rw [hupp c3] at c4; simpa using c4) rfl rfl
        (fun i hi => hfree S _ i hi) h
    · exact moved _ _ _ _ rfl rfl (fun h => (by cases h)) h
    · exact stayed _ (by simpa using c5) rfl rfl (fun _ _ => rfl) h

/-- The states a result carries. -/
def Spec.resState : CoordRes K n → Option (MinqSt K n)
  | .done S => some S
  | .unbounded S => some S
  | .indexError => none
  | .running S _ _ => some S

/-- C60.  Missing from the full statement: *the search ends at a point where no coordinate step helps* is false
(`C60_first_variable_skipped`, `C60_one_variable_fails`).  Proved: whatever way the search ends, and after any number of rounds, the point is in the
box, the gradient is right and the objective has not increased. -/
theorem C60_search_partial (p : MinqIn K n) (c : Fin n → K) (hG : ∀ i j, p.G i j = p.G j i)
    (unfix : Bool) (r : ℕ) : ∀ (S : MinqSt K n) (count : ℕ) (k : ℤ), InTheBox p.lo p.hi S.x →
    (∀ i, S.g i = qpGrad p.G c S.x i) → ∀ T, resState (coordLoop p unfix r S count k) = some T →
    InTheBox p.lo p.hi T.x ∧ (∀ i, T.g i = qpGrad p.G c T.x i) ∧ qp p.G c T.x ≤ qp p.G c S.x := by
  induction r with
  | zero =>
    intro S count k hb hg T hT
    cases hT
    exact ⟨hb, hg, le_rfl⟩
  | succ r ih =>
    intro S count k hb hg T hT
    unfold coordLoop at hT
    split at hT
    · cases hT
    · split_ifs at hT with h1 h2
      · cases hT
        exact ⟨hb, hg, le_rfl⟩
      · split at hT
        · cases hT
          exact ⟨hb, hg, le_rfl⟩
        · rename_i S' reset hstep
          obtain ⟨k1, k2, -, -, k3, -, -⟩ := C60_coordinate_step_partial p c hG S S' _ reset hb hg hstep
          obtain ⟨e1, e2, e3⟩ := ih S' _ _ k1 k2 T hT
          exact ⟨e1, e2, e3.trans k3⟩
      · cases hT

/-- Negation of the last sentence of C60: after the first step the first variable is never looked at
again (`if k == n-1: k = 0` is followed by `k += 1`). -/
theorem C60_first_variable_skipped (S : MinqSt K n) (unfix : Bool) (r count : ℕ) (k : ℤ)
    (hk : 0 ≤ k) (count' : ℕ) (k' : ℤ) (hr : 0 < r) (hc : count ≤ n)
    (h : seekIdx S unfix r count k = some (count', k')) : k' ≠ 0 := by
  induction r generalizing count k with
  | zero => omega
  | succ r ih =>
    unfold seekIdx at h
    rw [if_pos hc] at h
    simp only at h
    have hn : 1 ≤ nextIdx n k := by unfold nextIdx; split_ifs <;> omega
    split_ifs at h with h1 h2
    · cases h; omega
    · cases r with
      | zero => cases h; omega
      | succ r =>
        by_cases hcn : count + 1 ≤ n
        · exact ih (count + 1) _ (by omega) (by omega) hcn h
        · unfold seekIdx at h
          rw [if_neg hcn] at h
          cases h; omega

/-- Negation of C60 for one variable: the search always raises an index error (or reports
unboundedness in the first step). -/
theorem C60_one_variable_fails (p : MinqIn K 1) (S : MinqSt K 1) (r : ℕ) :
    coordLoop p true (r + 2) S 0 (-1) = .indexError ∨
      coordLoop p true (r + 2) S 0 (-1) = .unbounded S := by
  have e1 : ∀ (T : MinqSt K 1), seekIdx T true 2 0 (-1) = some (1, 0) := by
    intro T
    simp [seekIdx, nextIdx]
  have e2 : ∀ (T : MinqSt K 1) (c : ℕ), c ≤ 1 → seekIdx T true 2 c 0 = none := by
    intro T c hc
    unfold seekIdx
    rw [if_pos hc]
    rfl
  unfold coordLoop
  rw [e1]
  simp only
  rw [if_neg (by omega), dif_pos (by decide)]
  split
  · exact Or.inr rfl
  · left
    unfold coordLoop
    rename_i S' reset _
    rw [e2 S' _ (by cases reset <;> simp)]

/-! ### Concrete cases -/

/-- Two variables, `x0^2/2 + x1^2/2 - x0*x1 + x0 - 2*x1` on `[0,5]^2`. -/
def Ex.qpIn : MinqIn ℚ 2 where
  G := fun i j => if i = j then 1 else -1 / 2
  lo := fun _ => some 0
  hi := fun _ => some 5

def Ex.qpStart : MinqSt ℚ 2 := ⟨fun _ => 1, fun i => if i = 0 then 3 / 2 else -3 / 2, fun _ => false⟩

/-- The start meets the hypotheses for `c = (1, -2)`; the search ends at `(0, 2)`. -/
example : InTheBox Ex.qpIn.lo Ex.qpIn.hi Ex.qpStart.x ∧
    (∀ i, Ex.qpStart.g i = qpGrad Ex.qpIn.G (fun i => if i = 0 then 1 else -2) Ex.qpStart.x i) ∧
    (∀ i j, Ex.qpIn.G i j = Ex.qpIn.G j i) ∧
    ((resState (coordLoop Ex.qpIn true 10 Ex.qpStart 0 (-1))).map (fun S => (S.x 0, S.x 1))) =
      some (0, 2) := by
  refine ⟨?_, by decide +kernel, by decide +kernel, by decide +kernel⟩
  intro i
  refine ⟨fun l hl => ?_, fun l hl => ?_⟩ <;> cases hl <;> simp [Ex.qpStart]

#print axioms C46_unbounded
#print axioms C46_minimiser_partial
#print axioms C46_zero_outside
#print axioms C60_coordinate_step_partial
#print axioms C60_search_partial
#print axioms C60_first_variable_skipped
#print axioms C60_one_variable_fails

end Sqpdfo
