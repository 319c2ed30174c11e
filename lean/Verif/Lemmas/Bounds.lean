import Verif.Spec.Bounds
import Mathlib.Data.List.Forall2
import Mathlib.Tactic.Linarith
import Mathlib.Tactic.NormNum
import Mathlib.Algebra.Order.Field.Basic

/-! # Lemmas on the bounds loop -/

set_option linter.unusedSectionVars false

namespace Sqpdfo
open Spec
variable {K : Type} [Field K] [LinearOrder K] [IsStrictOrderedRing K]

theorem newDelta_spec {v : Var K} {Δ : K} (h : 0 < Δ) (hv : v.lb < v.ub) :
    0 < newDelta v Δ ∧ newDelta v Δ ≤ Δ ∧ 2 * newDelta v Δ ≤ v.ub - v.lb ∧
    ∀ D, D ≤ Δ → 2 * D ≤ v.ub - v.lb → D ≤ newDelta v Δ := by
  unfold newDelta
  split_ifs with hc
  · refine ⟨by linarith, by linarith, by linarith, fun D _ h2 => by linarith⟩
  · refine ⟨h, le_refl _, by linarith, fun D h1 _ => h1⟩

theorem moveInside_spec {v : Var K} {Δ : K} (h : 2 * Δ ≤ v.ub - v.lb) :
    v.lb + Δ ≤ moveInside v Δ ∧ moveInside v Δ ≤ v.ub - Δ := by
  unfold moveInside
  split_ifs with h1 h2
  · constructor <;> linarith
  · constructor <;> linarith
  · push Not at h1 h2
    constructor <;> linarith

/-- The loop fails exactly at crossed bounds. -/
theorem boundsLoop_none (vs : List (Var K)) : ∀ Δ : K,
    boundsLoop vs Δ = none ↔ ∃ v ∈ vs, v.ub < v.lb := by
  induction vs with
  | nil => intro Δ; simp [boundsLoop]
  | cons v vs ih =>
    intro Δ
    unfold boundsLoop
    split_ifs with h1 h2
    · simp [h1]
    · have := ih Δ
      cases hb : boundsLoop vs Δ with
      | none => simp [this.1 hb]
      | some p => simp only [reduceCtorEq, false_iff]; rw [hb] at this; simp_all
    · have := ih (newDelta v Δ)
      simp only
      cases hb : boundsLoop vs (newDelta v Δ) with
      | none => simp [this.1 hb]
      | some p => simp only [reduceCtorEq, false_iff]; rw [hb] at this; simp_all

/-- The fixed marks are exactly the variables with equal bounds. -/
theorem boundsLoop_marks (vs : List (Var K)) : ∀ (Δ : K) (D : K) (ys : List (K × Bool)),
    0 < Δ → boundsLoop vs Δ = some (D, ys) →
    List.Forall₂ (fun v y => (y.2 = true ↔ v.lb = v.ub)) vs ys := by
  induction vs with
  | nil => intro Δ D ys _ h; simp [boundsLoop] at h; obtain ⟨_, rfl⟩ := h; exact .nil
  | cons v vs ih =>
    intro Δ D ys hΔ h
    unfold boundsLoop at h
    split_ifs at h with h1 h2
    · cases hb : boundsLoop vs Δ with
      | none => simp [hb] at h
      | some p =>
        rw [hb] at h
        simp only [Option.some.injEq, Prod.mk.injEq] at h
        obtain ⟨rfl, rfl⟩ := h
        refine .cons ?_ (ih Δ _ _ hΔ hb)
        simp only [true_iff]
        linarith [h2.2]
    · simp only at h
      have hlt : v.lb < v.ub := by
        rcases lt_or_eq_of_le (not_lt.1 h1) with h3 | h3
        · exact h3
        · exact absurd (⟨by rw [h3]; linarith, by rw [h3, sub_self]⟩ : _ ∧ _) h2
      cases hb : boundsLoop vs (newDelta v Δ) with
      | none => simp [hb] at h
      | some p =>
        rw [hb] at h
        simp only [Option.some.injEq, Prod.mk.injEq] at h
        obtain ⟨rfl, rfl⟩ := h
        refine .cons ?_ (ih _ _ _ (newDelta_spec hΔ hlt).1 hb)
        simp [hlt.ne]

/-- With nondegenerate bounds the loop succeeds, its final radius is the largest one that is at
most the initial one and fits into every box, and the resulting point is at distance at least
that radius from all bounds. -/
theorem boundsLoop_free (vs : List (Var K)) : ∀ (Δ : K), 0 < Δ → (∀ v ∈ vs, v.lb < v.ub) →
    ∃ D ys, boundsLoop vs Δ = some (D, ys) ∧ 0 < D ∧ D ≤ Δ ∧
      (∀ v ∈ vs, 2 * D ≤ v.ub - v.lb) ∧
      (∀ D', D' ≤ Δ → (∀ v ∈ vs, 2 * D' ≤ v.ub - v.lb) → D' ≤ D) ∧
      InsideBy D vs (ys.map (·.1)) ∧ ∀ y ∈ ys, y.2 = false := by
  induction vs with
  | nil =>
    intro Δ hΔ _
    exact ⟨Δ, [], rfl, hΔ, le_refl _, by simp, fun D' h _ => h, .nil, by simp⟩
  | cons v vs ih =>
    intro Δ hΔ hall
    have hv : v.lb < v.ub := hall v (by simp)
    obtain ⟨n1, n2, n3, n4⟩ := newDelta_spec hΔ hv
    obtain ⟨D, ys, e, d0, d1, d2, d3, d4, d5⟩ := ih (newDelta v Δ) n1
      (fun w hw => hall w (by simp [hw]))
    refine ⟨D, (moveInside v (newDelta v Δ), false) :: ys, ?_, d0, d1.trans n2, ?_, ?_, ?_, ?_⟩
    · unfold boundsLoop
      rw [if_neg (not_lt.2 hv.le), if_neg (by intro h; linarith [h.2])]
      simp only [e]
    · intro w hw
      rcases List.mem_cons.1 hw with rfl | hw
      · linarith
      · exact d2 w hw
    · intro D' h1 h2
      exact d3 D' (n4 D' h1 (h2 v (by simp))) (fun w hw => h2 w (by simp [hw]))
    · have := moveInside_spec n3
      exact .cons ⟨by simp only; linarith [this.1], by simp only; linarith [this.2]⟩ d4
    · intro y hy
      rcases List.mem_cons.1 hy with rfl | hy
      · rfl
      · exact d5 y hy

/-- A component at distance more than the current radius from both bounds is not moved. -/
theorem boundsLoop_keep (vs : List (Var K)) : ∀ (Δ D : K) (ys : List (K × Bool)), 0 < Δ →
    (∀ v ∈ vs, v.lb < v.ub) → boundsLoop vs Δ = some (D, ys) →
    List.Forall₂ (fun v y => v.lb + Δ < v.x0 → v.x0 < v.ub - Δ → y.1 = v.x0) vs ys := by
  induction vs with
  | nil => intro Δ D ys _ _ h; simp [boundsLoop] at h; obtain ⟨_, rfl⟩ := h; exact .nil
  | cons v vs ih =>
    intro Δ D ys hΔ hall h
    have hv : v.lb < v.ub := hall v (by simp)
    obtain ⟨n1, n2, n3, n4⟩ := newDelta_spec hΔ hv
    unfold boundsLoop at h
    rw [if_neg (not_lt.2 hv.le), if_neg (by intro h; linarith [h.2])] at h
    simp only at h
    cases hb : boundsLoop vs (newDelta v Δ) with
    | none => simp [hb] at h
    | some p =>
      rw [hb] at h
      simp only [Option.some.injEq, Prod.mk.injEq] at h
      obtain ⟨rfl, rfl⟩ := h
      refine .cons ?_ ?_
      · intro h1 h2
        simp only
        unfold moveInside
        rw [if_neg (by simp only [ge_iff_le, not_le]; linarith), if_neg (by simp only [not_le]; linarith)]
      · refine List.Forall₂.imp ?_ (ih _ _ _ n1 (fun w hw => hall w (by simp [hw])) hb)
        intro w y hwy h1 h2
        exact hwy (by linarith) (by linarith)

/-- If a radius below 1 fits strictly into all boxes, a larger one does. -/
theorem boundsLoop_room (vs : List (Var K)) (D : K) (hD : D < 1)
    (h : ∀ v ∈ vs, 2 * D < v.ub - v.lb) :
    ∃ D', D < D' ∧ D' ≤ 1 ∧ ∀ v ∈ vs, 2 * D' ≤ v.ub - v.lb := by
  induction vs with
  | nil => exact ⟨1, hD, le_refl _, by simp⟩
  | cons v vs ih =>
    obtain ⟨D', g1, g2, g3⟩ := ih (fun w hw => h w (by simp [hw]))
    have hv := h v (by simp)
    refine ⟨min D' ((v.ub - v.lb) / 2), lt_min g1 (by linarith), (min_le_left _ _).trans g2, ?_⟩
    intro w hw
    have e1 := min_le_left D' ((v.ub - v.lb) / 2)
    have e2 := min_le_right D' ((v.ub - v.lb) / 2)
    rcases List.mem_cons.1 hw with rfl | hw
    · linarith
    · linarith [g3 w hw]

/-- Points of the initial simplex around a point at distance `≥ D` from the bounds. -/
theorem simplex_inside {vs : List (Var K)} {x : List K} {D : K} (hD : 0 ≤ D)
    (h : InsideBy D vs x) : ∀ y ∈ simplex x D, InsideBy 0 vs y := by
  intro y hy
  simp only [simplex, List.mem_cons, List.mem_map, List.mem_range] at hy
  rcases hy with rfl | ⟨j, _, rfl⟩
  · exact List.Forall₂.imp (fun v t ht => ⟨by linarith [ht.1], by linarith [ht.2]⟩) h
  · have hl := h.length_eq
    rw [InsideBy, List.forall₂_iff_get] at h ⊢
    refine ⟨by simp [hl], fun i h1 h2 => ?_⟩
    simp only [List.length_mapIdx] at h2
    have := h.2 i h1 h2
    simp only [List.get_eq_getElem, List.getElem_mapIdx] at this ⊢
    split_ifs <;> constructor <;> linarith [this.1, this.2]

end Sqpdfo
