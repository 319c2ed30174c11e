import Verif.Lemmas.Bounds

/-! # C04, C05: bounds and start point -/

set_option linter.unusedSectionVars false

namespace Sqpdfo
open Spec
variable {K : Type} [Field K] [LinearOrder K] [IsStrictOrderedRing K]

/-- C04: if all `lb < ub`, the set-up continues with the radius `D` which is the largest
number that is at most 1 and fits twice into each box, with a start point at distance at
least `D` from all bounds; all `n+1` initial points are within the bounds; a start point with
distance more than `D` from all bounds is kept. -/
theorem C04_initial_points (vs : List (Var K)) (h : ∀ v ∈ vs, v.lb < v.ub) :
    ∃ D ys, checkBounds vs = .ok D ys ∧ 0 < D ∧ IsFit vs D ∧
      InsideBy D vs (ys.map (·.1)) ∧
      (simplex (ys.map (·.1)) D).length = vs.length + 1 ∧
      (∀ p ∈ simplex (ys.map (·.1)) D, InsideBy 0 vs p) ∧
      ((∀ v ∈ vs, v.lb + D < v.x0 ∧ v.x0 < v.ub - D) → ys.map (·.1) = vs.map (·.x0)) := by
  obtain ⟨D, ys, e, d0, d1, d2, d3, d4, d5⟩ := boundsLoop_free vs 1 one_pos h
  refine ⟨D, ys, ?_, d0, ⟨⟨d1, d2⟩, d3⟩, d4, ?_, simplex_inside d0.le d4, ?_⟩
  · unfold checkBounds
    rw [e]
    have : ys.filter (·.2) = [] := by
      rw [List.filter_eq_nil_iff]; intro y hy; simp [d5 y hy]
    simp [this]
  · have := d4.length_eq
    simp [simplex, ← this]
  · intro hd
    have hD : D = 1 := by
      by_contra hne
      have hlt : D < 1 := lt_of_le_of_ne d1 hne
      obtain ⟨D', g1, g2, g3⟩ := boundsLoop_room vs D hlt (fun v hv => by
        have := hd v hv; linarith [this.1, this.2])
      exact absurd (d3 D' g2 g3) (not_le.2 g1)
    subst hD
    have hk := boundsLoop_keep vs 1 1 ys one_pos h e
    rw [List.forall₂_iff_get] at hk
    refine List.ext_getElem (by simpa using hk.1.symm) fun i h1 h2 => ?_
    simp only [List.length_map] at h1 h2
    have h3 := hd _ (List.getElem_mem h2)
    simpa using hk.2 i h2 h1 h3.1 h3.2

/-- The last part of C04 does not hold component by component: with bounds
`[0,10] x [0,0.8]` and start point `(0.8, 0.5)` the final radius is `0.4`; the first component
has distance `0.8` and `9.2` from its bounds and is still moved (to 1). -/
theorem C04_component_moved_without_need :
    ∃ vs : List (Var ℚ), (∀ v ∈ vs, v.lb < v.ub) ∧ ∃ D ys, checkBounds vs = .ok D ys ∧
      ∃ v y, (v, y) ∈ vs.zip ys ∧ v.lb + D < v.x0 ∧ v.x0 < v.ub - D ∧ y.1 ≠ v.x0 := by
  refine ⟨[⟨0, 10, 8/10⟩, ⟨0, 8/10, 5/10⟩], ?_, 4/10, [(1, false), (4/10, false)], ?_,
    ⟨0, 10, 8/10⟩, (1, false), ?_, ?_, ?_, ?_⟩
  · intro v hv; simp at hv; rcases hv with rfl | rfl <;> norm_num
  · simp [checkBounds, boundsLoop, newDelta, moveInside]; norm_num
  · simp
  · norm_num
  · norm_num
  · norm_num

/-- C05: the bounds check reports status 2 exactly for inconsistent bounds (for at least one
variable; without variables the set-up has already returned status 1). -/
theorem C05_status2_iff_bad (vs : List (Var K)) (hne : vs ≠ []) :
    checkBounds vs = .flag2 ↔ BadBounds vs := by
  unfold checkBounds BadBounds
  cases hb : boundsLoop vs 1 with
  | none => simp [(boundsLoop_none vs 1).1 hb]
  | some p =>
    obtain ⟨D, ys⟩ := p
    have h1 : ¬ ∃ v ∈ vs, v.ub < v.lb := by
      rw [← boundsLoop_none vs 1, hb]; simp
    have hm := boundsLoop_marks vs 1 D ys one_pos hb
    have hlen := hm.length_eq
    have key : (ys.filter (·.2)).length = ys.length ↔ ∀ v ∈ vs, v.lb = v.ub := by
      rw [List.length_filter_eq_length_iff]
      rw [List.forall₂_iff_get] at hm
      constructor
      · intro h v hv
        obtain ⟨i, hi, rfl⟩ := List.getElem_of_mem hv
        exact (hm.2 i hi (hlen ▸ hi)).1 (h _ (List.getElem_mem _))
      · intro h y hy
        obtain ⟨i, hi, rfl⟩ := List.getElem_of_mem hy
        exact (hm.2 i (hlen ▸ hi) hi).2 (h _ (List.getElem_mem _))
    have hpos : 0 < ys.length := by
      rw [← hlen]; exact List.length_pos_iff.2 hne
    have hle := List.length_filter_le (·.2) ys
    simp only [h1, false_or, ← key]
    split_ifs with h2 h3
    · simp only [true_iff]; omega
    · simp only [false_iff]; omega
    · simp only [false_iff]; omega

/-! ### Concrete cases -/

/-- Two variables, one box narrower than 2, start point outside. -/
def exampleVars : List (Var ℚ) := [⟨-5, 5, 7⟩, ⟨0, 1, 0⟩, ⟨-100, 100, 3⟩]

example : checkBounds exampleVars = .ok (1/2) [(4, false), (1/2, false), (3, false)] := by
  simp [exampleVars, checkBounds, boundsLoop, newDelta, moveInside]; norm_num

example : ∀ v ∈ exampleVars, v.lb < v.ub := by simp [exampleVars]

example : checkBounds ([⟨0, 0, 1⟩, ⟨2, 1, 1⟩] : List (Var ℚ)) = .flag2 := by
  simp [checkBounds, boundsLoop]

example : checkBounds ([⟨0, 0, 1⟩, ⟨2, 2, 1⟩] : List (Var ℚ)) = .flag2 := by
  simp [checkBounds, boundsLoop]

#print axioms C04_initial_points
#print axioms C04_component_moved_without_need
#print axioms C05_status2_iff_bad

end Sqpdfo
