import Verif.Model.StartPoint
import Mathlib.Tactic.Linarith
import Mathlib.Tactic.NormNum
import Mathlib.Algebra.Order.Floor.Ring
import Mathlib.Data.Rat.Floor
import Mathlib.Data.List.Forall2
import Mathlib.Algebra.Order.Field.Basic

/-! # C94, C95: the start point for arbitrary floating-point data and for integer arrays -/

set_option linter.unusedSectionVars false

namespace Sqpdfo
variable {K : Type} [Field K] [LinearOrder K]

/-- A start value with which the set-up can compute: no bound is infinite on the wrong side, and the start value is a number or an infinity behind a
finite bound. -/
def Spec.Usable (v : RawVar K) : Prop :=
  v.lb ≠ .pinf ∧ v.ub ≠ .ninf ∧
    ((∃ t, v.x0 = .fin t) ∨ (v.x0 = .pinf ∧ ∃ u, v.ub = .fin u) ∨ (v.x0 = .ninf ∧ ∃ l, v.lb = .fin l))

/-- The number `t` keeps the distance `d` from the finite bounds. -/
def Spec.KeepsOff (d : K) (v : RawVar K) (t : K) : Prop :=
  (∀ l, v.lb = .fin l → l + d ≤ t) ∧ ∀ u, v.ub = .fin u → t ≤ u - d

/-- Both bounds are the same number. -/
def Spec.Pinned (v : RawVar K) : Prop := ∃ q, v.lb = .fin q ∧ v.ub = .fin q

open Spec
variable [IsStrictOrderedRing K]

theorem rawDelta_fin (v : RawVar K) (d : K) (hd : 0 < d) (h : v.ub.lt v.lb = false)
    (hp : ((v.ub.sub v.lb).lt (Fl.add (.fin d) (.fin d)) && (v.ub.sub v.lb).eq (.fin 0)) = false) :
    ∃ e, rawDelta v (.fin d) = .fin e ∧ 0 < e ∧ e ≤ d ∧ (∀ l u, v.lb = .fin l → v.ub = .fin u → 2 * e ≤ u - l) ∧
      ¬ Pinned v ∧ (e = d ∨ ∃ l u, v.lb = .fin l ∧ v.ub = .fin u ∧ 2 * e = u - l) := by
  obtain ⟨lb, ub, x0⟩ := v
  unfold rawDelta Pinned
  cases lb <;> cases ub <;> simp_all [Fl.sub, Fl.add, Fl.neg, Fl.lt, Fl.half, Fl.eq]
  rename_i l u
  by_cases hc : u < d + d + l
  · rw [if_pos hc]
    have hne : ¬ u + -l = 0 := hp hc
    have : 0 < u - l := lt_of_le_of_ne (by linarith) (fun e => hne (by rw [← sub_eq_add_neg]; exact e.symm))
    exact ⟨_, rfl, by linarith, by linarith, by linarith, fun e => by linarith, Or.inr (by linarith)⟩
  · rw [if_neg hc]
    push Not at hc
    exact ⟨_, rfl, hd, le_rfl, by linarith, fun e => by linarith, Or.inl rfl⟩

theorem pinned_of (v : RawVar K) (d : K) (hp : ((v.ub.sub v.lb).lt (Fl.add (.fin d) (.fin d)) && (v.ub.sub v.lb).eq (.fin 0)) = true) : Pinned v := by
  obtain ⟨lb, ub, x0⟩ := v
  unfold Pinned
  cases lb <;> cases ub <;> simp_all [Fl.sub, Fl.add, Fl.neg, Fl.lt, Fl.eq]
  rename_i l u
  have := hp.2
  linarith

/-- What `rawMove` has to do for floating-point arrays. -/
def MoveOk (v : RawVar K) (e : K) : Prop :=
  ((∃ t, rawMove keepFloat v (.fin e) = .fin t) ↔ Usable v) ∧ (∀ t, rawMove keepFloat v (.fin e) = .fin t → KeepsOff e v t) ∧
    (∀ t, v.x0 = .fin t → v.lb ≠ .pinf → v.ub ≠ .ninf → (∀ l, v.lb = .fin l → l + e < t) → (∀ u, v.ub = .fin u → t < u - e) →
      rawMove keepFloat v (.fin e) = .fin t)

theorem move_fin_fin (l u t e : K) (hg : 2 * e ≤ u - l) : MoveOk ⟨.fin l, .fin u, .fin t⟩ e := by
  unfold MoveOk rawMove Usable KeepsOff keepFloat
  simp only [Fl.sub, Fl.add, Fl.neg, Fl.le, decide_eq_true_eq]
  split_ifs with h1 h2
  · refine ⟨by simp, fun x hx => ?_, fun x hx _ _ h3 _ => ?_⟩
    · cases hx; exact ⟨fun l' h => by cases h; exact le_rfl, fun u' h => by cases h; linarith⟩
    · cases hx; have := h3 l rfl; linarith
  · refine ⟨by simp, fun x hx => ?_, fun x hx _ _ _ h3 => ?_⟩
    · cases hx; exact ⟨fun l' h => by cases h; linarith, fun u' h => by cases h; simp [sub_eq_add_neg]⟩
    · cases hx; have := h3 u rfl; linarith
  · refine ⟨by simp, fun x hx => ?_, fun x hx _ _ _ _ => hx⟩
    cases hx; exact ⟨fun l' h => by cases h; linarith, fun u' h => by cases h; linarith⟩

theorem move_fin_none (l t e : K) (ub : Fl K) (hu : ub = .pinf ∨ ub = .nan) : MoveOk ⟨.fin l, ub, .fin t⟩ e := by
  unfold MoveOk rawMove Usable KeepsOff keepFloat
  rcases hu with rfl | rfl <;> simp only [Fl.sub, Fl.add, Fl.neg, Fl.le, decide_eq_true_eq, Bool.false_eq_true, if_false] <;> split_ifs with h1
  all_goals
    refine ⟨by simp, fun x hx => ?_, fun x hx _ _ h3 _ => ?_⟩ <;> cases hx
    · exact ⟨fun l' h => by cases h; linarith, fun u' h => (by cases h)⟩
    · first
      | rfl
      | exact absurd (h3 l rfl) (by linarith)

theorem move_none_fin (u t e : K) (lb : Fl K) (hl : lb = .ninf ∨ lb = .nan) : MoveOk ⟨lb, .fin u, .fin t⟩ e := by
  unfold MoveOk rawMove Usable KeepsOff keepFloat
  rcases hl with rfl | rfl <;> simp only [Fl.sub, Fl.add, Fl.neg, Fl.le, decide_eq_true_eq, Bool.false_eq_true, if_false] <;> split_ifs with h1
  all_goals
    refine ⟨by simp, fun x hx => ?_, fun x hx _ _ _ h3 => ?_⟩ <;> cases hx
    · exact ⟨fun l' h => (by cases h), fun u' h => by cases h; linarith⟩
    · first
      | rfl
      | exact absurd (h3 u rfl) (by linarith)

theorem move_none (t e : K) (lb ub : Fl K) (hl : lb = .ninf ∨ lb = .nan) (hu : ub = .pinf ∨ ub = .nan) : MoveOk ⟨lb, ub, .fin t⟩ e := by
  unfold MoveOk rawMove Usable KeepsOff keepFloat
  rcases hl with rfl | rfl <;> rcases hu with rfl | rfl <;> simp [Fl.sub, Fl.add, Fl.neg, Fl.le]

theorem move_pinf (e : K) (ub x0 : Fl K) (h : ub.lt (.pinf : Fl K) = false) : MoveOk ⟨.pinf, ub, x0⟩ e := by
  unfold MoveOk rawMove Usable KeepsOff keepFloat
  cases ub <;> cases x0 <;> simp_all [Fl.sub, Fl.add, Fl.neg, Fl.le, Fl.lt]

theorem move_ninf (e : K) (lb x0 : Fl K) (h : (Fl.ninf : Fl K).lt lb = false) : MoveOk ⟨lb, .ninf, x0⟩ e := by
  unfold MoveOk rawMove Usable KeepsOff keepFloat
  cases lb <;> cases x0 <;> simp_all [Fl.sub, Fl.add, Fl.neg, Fl.le, Fl.lt]

theorem move_odd (e : K) (lb ub x0 : Fl K) (hl : lb ≠ .pinf) (hu : ub ≠ .ninf) (hx : ∀ t, x0 ≠ .fin t)
    (hg : ∀ l u, lb = .fin l → ub = .fin u → 2 * e ≤ u - l) : MoveOk ⟨lb, ub, x0⟩ e := by
  unfold MoveOk rawMove Usable KeepsOff keepFloat
  cases x0 with
  | fin t => exact absurd rfl (hx t)
  | nan => cases lb <;> cases ub <;> simp_all [Fl.sub, Fl.add, Fl.neg, Fl.le]
  | pinf => cases lb <;> cases ub <;> simp_all [Fl.sub, Fl.add, Fl.neg, Fl.le]; linarith
  | ninf => cases lb <;> cases ub <;> simp_all [Fl.sub, Fl.add, Fl.neg, Fl.le]; linarith

theorem rawMove_float (v : RawVar K) (e : K) (h : v.ub.lt v.lb = false) (hg : ∀ l u, v.lb = .fin l → v.ub = .fin u → 2 * e ≤ u - l) :
    MoveOk v e := by
  obtain ⟨lb, ub, x0⟩ := v
  by_cases h1 : lb = .pinf
  · subst h1; exact move_pinf e ub x0 h
  by_cases h2 : ub = .ninf
  · subst h2; exact move_ninf e lb x0 h
  by_cases h3 : ∃ t, x0 = .fin t
  · obtain ⟨t, rfl⟩ := h3
    cases lb with
    | pinf => exact absurd rfl h1
    | fin l =>
      cases ub with
      | fin u => exact move_fin_fin l u t e (hg l u rfl rfl)
      | ninf => exact absurd rfl h2
      | pinf => exact move_fin_none l t e _ (Or.inl rfl)
      | nan => exact move_fin_none l t e _ (Or.inr rfl)
    | ninf =>
      cases ub with
      | fin u => exact move_none_fin u t e _ (Or.inl rfl)
      | ninf => exact absurd rfl h2
      | pinf => exact move_none t e _ _ (Or.inl rfl) (Or.inl rfl)
      | nan => exact move_none t e _ _ (Or.inl rfl) (Or.inr rfl)
    | nan =>
      cases ub with
      | fin u => exact move_none_fin u t e _ (Or.inr rfl)
      | ninf => exact absurd rfl h2
      | pinf => exact move_none t e _ _ (Or.inr rfl) (Or.inl rfl)
      | nan => exact move_none t e _ _ (Or.inr rfl) (Or.inr rfl)
  · exact move_odd e lb ub x0 h1 h2 (fun t ht => h3 ⟨t, ht⟩) hg

/-- What C94 says about one component: `d` is the final radius. -/
def Spec.StartOk (d : K) (v : RawVar K) (y : Fl K × Bool) : Prop :=
  (y.2 = true ↔ Pinned v) ∧
  (y.2 = false → ((∃ t, y.1 = .fin t) ↔ Usable v) ∧ (∀ t, y.1 = .fin t → KeepsOff d v t) ∧
    (∀ t, v.x0 = .fin t → v.lb ≠ .pinf → v.ub ≠ .ninf → (∀ l, v.lb = .fin l → l + 1 < t) → (∀ u, v.ub = .fin u → t < u - 1) →
      y.1 = .fin t))

/-- The number `d` fits twice between the bounds of each variable that is not pinned. -/
def Spec.Fits (vs : List (RawVar K)) (d : K) : Prop :=
  ∀ v ∈ vs, ¬ Pinned v → ∀ l u, v.lb = .fin l → v.ub = .fin u → 2 * d ≤ u - l

theorem KeepsOff_mono {d e : K} (h : d ≤ e) {v : RawVar K} {t : K} (hk : KeepsOff e v t) : KeepsOff d v t :=
  ⟨fun l hl => by linarith [hk.1 l hl], fun u hu => by linarith [hk.2 u hu]⟩

theorem rawLoop_float : ∀ (vs : List (RawVar K)) (d : K), 0 < d → d ≤ 1 → ∀ D ys, rawLoop keepFloat vs (.fin d) = some (D, ys) →
    ∃ e, D = .fin e ∧ 0 < e ∧ e ≤ d ∧ Fits vs e ∧ (∀ e', e' ≤ d → Fits vs e' → e' ≤ e) ∧ List.Forall₂ (StartOk e) vs ys
  | [], d, hd, _, D, ys, h => by
    cases h
    exact ⟨d, rfl, hd, le_rfl, fun v hv => (by cases hv), fun e' h _ => h, .nil⟩
  | v :: vs, d, hd, hd1, D, ys, h => by
    unfold rawLoop at h
    cases h1 : v.ub.lt v.lb with
    | true => rw [h1, if_pos rfl] at h; cases h
    | false =>
      rw [h1, if_neg Bool.false_ne_true] at h
      cases h2 : (v.ub.sub v.lb).lt (Fl.add (.fin d) (.fin d)) && (v.ub.sub v.lb).eq (.fin 0) with
      | true =>
        rw [h2, if_pos rfl] at h
        cases h3 : rawLoop keepFloat vs (.fin d) with
        | none => rw [h3] at h; cases h
        | some r =>
          rw [h3] at h
          cases h
          have hp := pinned_of v d h2
          obtain ⟨e, e1, e2, e3, e4, e5, e6⟩ := rawLoop_float vs d hd hd1 _ _ h3
          refine ⟨e, e1, e2, e3, fun w hw hn => ?_, fun e' q1 q2 => e5 e' q1 fun w hw => q2 w (List.mem_cons_of_mem _ hw),
            .cons ⟨⟨fun _ => hp, fun _ => rfl⟩, fun hf => (by cases hf)⟩ e6⟩
          rcases List.mem_cons.1 hw with rfl | hw
          · exact absurd hp hn
          · exact e4 w hw hn
      | false =>
        rw [h2, if_neg Bool.false_ne_true] at h
        obtain ⟨c, c1, c2, c3, c4, c5, c6⟩ := rawDelta_fin v d hd h1 h2
        rw [c1] at h
        cases h3 : rawLoop keepFloat vs (.fin c) with
        | none => rw [h3] at h; cases h
        | some r =>
          rw [h3] at h
          cases h
          obtain ⟨e, e1, e2, e3, e4, e5, e6⟩ := rawLoop_float vs c c2 (c3.trans hd1) _ _ h3
          obtain ⟨m1, m2, m3⟩ := rawMove_float v c h1 c4
          refine ⟨e, e1, e2, e3.trans c3, fun w hw hn => ?_, fun e' q1 q2 => ?_, .cons ⟨⟨fun hf => (by cases hf), fun hp => absurd hp c5⟩, fun _ => ⟨m1,
            fun t ht => KeepsOff_mono e3 (m2 t ht), fun t t1 t2 t3 t4 t5 => m3 t t1 t2 t3 (fun l hl => by linarith [t4 l hl]) fun u hu => by
              linarith [t5 u hu]⟩⟩ e6⟩
          · rcases List.mem_cons.1 hw with rfl | hw
            · exact fun l u hl hu => by linarith [c4 l u hl hu]
            · exact e4 w hw hn
          · refine e5 e' ?_ fun w hw => q2 w (List.mem_cons_of_mem _ hw)
            rcases c6 with rfl | ⟨l, u, hl, hu, hc⟩
            · exact q1
            · linarith [q2 v List.mem_cons_self c5 l u hl hu]

theorem rawLoop_none (st : Fl K → Fl K) : ∀ (vs : List (RawVar K)) (Δ : Fl K), rawLoop st vs Δ = none ↔ ∃ v ∈ vs, v.ub.lt v.lb = true
  | [], Δ => by simp [rawLoop]
  | v :: vs, Δ => by
    unfold rawLoop
    cases h1 : v.ub.lt v.lb with
    | true => rw [if_pos rfl]; exact ⟨fun _ => ⟨v, List.mem_cons_self, h1⟩, fun _ => rfl⟩
    | false =>
      rw [if_neg Bool.false_ne_true]
      have e : (∃ w ∈ v :: vs, w.ub.lt w.lb = true) ↔ ∃ w ∈ vs, w.ub.lt w.lb = true := by
        simp [h1]
      rw [e]
      split
      · rw [← rawLoop_none st vs Δ]
        cases rawLoop st vs Δ <;> simp
      · rw [← rawLoop_none st vs (rawDelta v Δ)]
        cases rawLoop st vs (rawDelta v Δ) <;> simp

/-- **C94.** For bounds and start values that are any floating-point numbers, infinite or NaN: the set-up rejects the bounds exactly if a lower bound exceeds
its upper bound. Otherwise the radius is the largest number that is at most 1 and fits twice between any two finite bounds that differ. Variables with
equal finite bounds are marked as fixed. The start value of any other variable becomes a number exactly if no bound is infinite on the wrong side and the given
value is a number or an infinity behind a finite bound. Then it keeps the radius away from finite bounds; infinite and NaN bounds have no effect. -/
theorem C94_start_point (vs : List (RawVar K)) :
    (rawLoop keepFloat vs (.fin 1) = none ↔ ∃ v ∈ vs, v.ub.lt v.lb = true) ∧
    ∀ D ys, rawLoop keepFloat vs (.fin 1) = some (D, ys) → ∃ d, D = .fin d ∧ 0 < d ∧ d ≤ 1 ∧ Fits vs d ∧
      (∀ d', d' ≤ 1 → Fits vs d' → d' ≤ d) ∧ List.Forall₂ (StartOk d) vs ys :=
  ⟨rawLoop_none _ vs _, fun D ys h => rawLoop_float vs 1 one_pos le_rfl D ys h⟩

/-- Bounds `[0.5, 1.2]`, no bounds, and an upper bound with an infinite start value. -/
example : rawLoop keepFloat [⟨.fin (1 / 2), .fin (6 / 5), .fin 0⟩, ⟨.ninf, .pinf, .fin 7⟩, ⟨.nan, .fin 3, .pinf⟩] (.fin (1 : ℚ)) =
    some (.fin (7 / 20), [(.fin (17 / 20), false), (.fin 7, false), (.fin (53 / 20), false)]) := by
  decide +kernel

/-- A NaN start value and a lower bound of plus infinity pass. -/
example : rawLoop keepFloat [⟨.fin 0, .fin 4, .nan⟩, ⟨.pinf, .pinf, .fin 0⟩] (.fin (1 : ℚ)) = some (.fin 1, [(.nan, false), (.pinf, false)]) := by
  decide +kernel

/-- A variable of `Model/Bounds` in this model. -/
def Var.raw (v : Var K) : RawVar K := ⟨.fin v.lb, .fin v.ub, .fin v.x0⟩

/-- On numbers this is the loop of `Model/Bounds`, so C04 and C05 speak of the same code. -/
theorem C94_refines : ∀ (vs : List (Var K)) (d : K), rawLoop keepFloat (vs.map Var.raw) (.fin d) =
    (boundsLoop vs d).map fun r => (.fin r.1, r.2.map fun y => (.fin y.1, y.2))
  | [], d => rfl
  | v :: vs, d => by
    have e1 : rawDelta v.raw (.fin d) = .fin (newDelta v d) := by
      simp only [rawDelta, newDelta, Var.raw, Fl.sub, Fl.neg, Fl.add, Fl.lt, Fl.half, decide_eq_true_eq, ← sub_eq_add_neg]
      split_ifs <;> rfl
    have e2 : ∀ e, rawMove keepFloat v.raw (.fin e) = .fin (moveInside v e) := by
      intro e
      simp only [rawMove, moveInside, keepFloat, Var.raw, Fl.sub, Fl.neg, Fl.add, Fl.le, decide_eq_true_eq, ← sub_eq_add_neg, ge_iff_le, id_eq]
      split_ifs <;> rfl
    have e3 : ((v.raw.ub.sub v.raw.lb).lt (Fl.add (.fin d) (.fin d)) && (v.raw.ub.sub v.raw.lb).eq (.fin 0)) = true ↔
        v.ub - v.lb < d + d ∧ v.ub - v.lb = 0 := by
      simp only [Var.raw, Fl.sub, Fl.neg, Fl.add, Fl.lt, Fl.eq, Bool.and_eq_true, decide_eq_true_eq, ← sub_eq_add_neg]
    have e4 : v.raw.ub.lt v.raw.lb = true ↔ v.lb > v.ub := by
      simp only [Var.raw, Fl.lt, decide_eq_true_eq, gt_iff_lt]
    rw [List.map_cons]
    unfold rawLoop boundsLoop
    by_cases h1 : v.lb > v.ub
    · rw [if_pos h1, if_pos (e4.2 h1)]; rfl
    rw [if_neg h1, if_neg (fun h => h1 (e4.1 h))]
    by_cases h2 : v.ub - v.lb < d + d ∧ v.ub - v.lb = 0
    · rw [if_pos h2, if_pos (e3.2 h2), C94_refines vs d]
      cases boundsLoop vs d <;> rfl
    · rw [if_neg h2, if_neg (fun h => h2 (e3.1 h)), e1, C94_refines vs]
      dsimp only
      cases boundsLoop vs (newDelta v d) with
      | none => rfl
      | some r => simp only [Option.map_some]; rw [e2]; rfl

/-! ## Integer arrays -/

variable [FloorRing K]

/-- An integer. -/
def Spec.IsWhole (q : K) : Prop := ∃ z : ℤ, q = z

theorem cutOff_whole (q : K) : IsWhole (cutOff q) := by
  unfold cutOff; split
  · exact ⟨_, rfl⟩
  · exact ⟨_, rfl⟩

theorem cutOff_id {q : K} (h : IsWhole q) : cutOff q = q := by
  obtain ⟨z, rfl⟩ := h
  unfold cutOff
  split <;> simp

/-- Towards zero, by less than one. -/
theorem cutOff_near (q : K) : |cutOff q - q| < 1 ∧ |cutOff q| ≤ |q| := by
  unfold cutOff
  split
  · rename_i h
    have h1 := Int.floor_le q
    have h2 := Int.lt_floor_add_one q
    have h3 : (0 : K) ≤ (⌊q⌋ : K) := by exact_mod_cast Int.floor_nonneg.2 h
    exact ⟨by rw [abs_lt]; constructor <;> linarith, by rw [abs_of_nonneg h3, abs_of_nonneg h]; exact h1⟩
  · rename_i h
    push Not at h
    have h1 := Int.le_ceil q
    have h2 := Int.ceil_lt_add_one q
    have h3 : (⌈q⌉ : K) ≤ 0 := by exact_mod_cast Int.ceil_nonpos.2 h.le
    exact ⟨by rw [abs_lt]; constructor <;> linarith, by rw [abs_of_nonpos h3, abs_of_neg h]; linarith⟩

/-- Component by component: the same mark, and the start value either stays in both arrays, or the integer array gets what it keeps of the other value. -/
def SameMove (st : Fl K → Fl K) (v : RawVar K) (y z : Fl K × Bool) : Prop :=
  y.2 = z.2 ∧ ((y.1 = v.x0 ∧ z.1 = v.x0) ∨ y.1 = st z.1)

theorem rawLoop_store (st : Fl K → Fl K) : ∀ (vs : List (RawVar K)) (Δ : Fl K),
    (rawLoop st vs Δ = none ∧ rawLoop keepFloat vs Δ = none) ∨
    ∃ D ys zs, rawLoop st vs Δ = some (D, ys) ∧ rawLoop keepFloat vs Δ = some (D, zs) ∧ ys.length = vs.length ∧ zs.length = vs.length ∧
      ∀ (i : ℕ) v y z, vs[i]? = some v → ys[i]? = some y → zs[i]? = some z → SameMove st v y z
  | [], Δ => Or.inr ⟨Δ, [], [], rfl, rfl, rfl, rfl, fun i v y z h => (by simp at h)⟩
  | v :: vs, Δ => by
    unfold rawLoop
    by_cases h1 : v.ub.lt v.lb = true
    · rw [if_pos h1, if_pos h1]; exact Or.inl ⟨rfl, rfl⟩
    rw [if_neg h1, if_neg h1]
    split
    · rcases rawLoop_store st vs Δ with ⟨a, b⟩ | ⟨D, ys, zs, a, b, c, c', d⟩
      · rw [a, b]; exact Or.inl ⟨rfl, rfl⟩
      · rw [a, b]
        refine Or.inr ⟨D, _, _, rfl, rfl, by simp [c], by simp [c'], fun i w y z h1 h2 h3 => ?_⟩
        cases i with
        | zero => simp at h1 h2 h3; subst h1 h2 h3; exact ⟨rfl, Or.inl ⟨rfl, rfl⟩⟩
        | succ i => exact d i w y z (by simpa using h1) (by simpa using h2) (by simpa using h3)
    · rcases rawLoop_store st vs (rawDelta v Δ) with ⟨a, b⟩ | ⟨D, ys, zs, a, b, c, c', d⟩
      · rw [a, b]; exact Or.inl ⟨rfl, rfl⟩
      · rw [a, b]
        refine Or.inr ⟨D, _, _, rfl, rfl, by simp [c], by simp [c'], fun i w y z h1 h2 h3 => ?_⟩
        cases i with
        | zero =>
          simp at h1 h2 h3; subst h1 h2 h3
          refine ⟨rfl, ?_⟩
          dsimp only
          unfold rawMove keepFloat
          split_ifs
          · exact Or.inr rfl
          · exact Or.inr rfl
          · exact Or.inl ⟨rfl, rfl⟩
        | succ i => exact d i w y z (by simpa using h1) (by simpa using h2) (by simpa using h3)

/-- **C95 (deviation).** A start point given as an array of integers: bounds are rejected as for floating-point numbers, the radius and the marks are the same, and each start
value is an integer which differs by less than 1 from the one that the same numbers as floating-point numbers give, towards zero; if that one is
an integer there is no difference. -/
theorem C95_deviation (junk : Fl K → K) (vs : List (RawVar K)) (hx : ∀ v ∈ vs, ∃ q, v.x0 = .fin q ∧ IsWhole q) :
    (rawLoop (keepInt junk) vs (.fin 1) = none ↔ rawLoop keepFloat vs (.fin 1) = none) ∧
    ∀ D ys, rawLoop (keepInt junk) vs (.fin 1) = some (D, ys) → ∃ zs, rawLoop keepFloat vs (.fin 1) = some (D, zs) ∧
      ys.length = vs.length ∧ zs.length = vs.length ∧ ∀ (i : ℕ) y z, ys[i]? = some y → zs[i]? = some z →
        y.2 = z.2 ∧ ∀ t, z.1 = .fin t → |t| < 2 ^ 63 → ∃ s, y.1 = .fin s ∧ IsWhole s ∧ |s - t| < 1 ∧ |s| ≤ |t| ∧ (IsWhole t → s = t) := by
  rcases rawLoop_store (keepInt junk) vs (.fin 1) with ⟨a, b⟩ | ⟨D, ys, zs, a, b, c, c', d⟩
  · rw [a, b]; exact ⟨Iff.rfl, fun D ys h => by cases h⟩
  · rw [a, b]
    refine ⟨by simp, fun D' ys' h => ?_⟩
    cases h
    refine ⟨zs, rfl, c, c', fun i y z hy hz => ?_⟩
    obtain ⟨hi, -⟩ := List.getElem?_eq_some_iff.1 hy
    rw [c] at hi
    obtain ⟨s1, s2⟩ := d i _ y z (List.getElem?_eq_getElem hi) hy hz
    refine ⟨s1, fun t ht h63 => ?_⟩
    rcases s2 with ⟨p, q⟩ | s2
    · obtain ⟨w, w1, w2⟩ := hx _ (List.getElem_mem hi)
      rw [q, w1] at ht
      cases ht
      exact ⟨_, p.trans w1, w2, by simp, le_rfl, fun _ => rfl⟩
    · rw [ht] at s2
      unfold keepInt at s2
      dsimp only at s2
      rw [if_pos h63] at s2
      exact ⟨_, s2, cutOff_whole t, (cutOff_near t).1, (cutOff_near t).2, fun h => cutOff_id h⟩

/-- A bound that is an integer, or is not a finite number. -/
def Spec.WholeBound (b : Fl K) : Prop := ∀ q, b = .fin q → IsWhole q

/-- **C95 (integers).** If the finite bounds are integers too, none of them one apart, and the start value stays in the range of 64-bit numbers, it makes no difference
whether the start point is given as integers or as floating-point numbers. -/
theorem C95_integers_partial (junk : Fl K → K) (vs : List (RawVar K)) (hx : ∀ v ∈ vs, ∃ q, v.x0 = .fin q ∧ IsWhole q)
    (hl : ∀ v ∈ vs, WholeBound v.lb ∧ v.lb ≠ .pinf) (hu : ∀ v ∈ vs, WholeBound v.ub ∧ v.ub ≠ .ninf)
    (h1 : ∀ v ∈ vs, ∀ l u, v.lb = .fin l → v.ub = .fin u → u - l ≠ 1)
    (hr : ∀ v ∈ vs, ∀ q, (v.lb = .fin q ∨ v.ub = .fin q) → |q| < 2 ^ 63 - 1) :
    rawLoop (keepInt junk) vs (.fin 1) = rawLoop keepFloat vs (.fin 1) := by
  induction vs with
  | nil => rfl
  | cons v vs ih =>
    have ih := ih (fun w hw => hx w (List.mem_cons_of_mem _ hw)) (fun w hw => hl w (List.mem_cons_of_mem _ hw)) (fun w hw => hu w (List.mem_cons_of_mem _ hw))
      (fun w hw => h1 w (List.mem_cons_of_mem _ hw)) (fun w hw => hr w (List.mem_cons_of_mem _ hw))
    have hv := List.mem_cons_self (a := v) (l := vs)
    have hst : ∀ q, IsWhole q → |q| < 2 ^ 63 → keepInt junk (.fin q) = .fin q := by
      intro q h3 h4
      unfold keepInt
      dsimp only
      rw [if_pos h4, cutOff_id h3]
    have hm : rawMove (keepInt junk) v (.fin 1) = rawMove keepFloat v (.fin 1) := by
      obtain ⟨q, q1, q2⟩ := hx v hv
      unfold rawMove keepFloat
      rw [q1]
      split_ifs with c1 c2
      · cases hb : v.lb with
        | fin l =>
          obtain ⟨z, hz⟩ := (hl v hv).1 l hb
          have := abs_lt.1 (hr v hv l (Or.inl hb))
          exact hst (l + 1) ⟨z + 1, by rw [hz]; push_cast; rfl⟩ (by rw [abs_lt]; constructor <;> linarith)
        | pinf => exact absurd hb (hl v hv).2
        | ninf => rw [hb] at c1; simp [Fl.neg, Fl.sub, Fl.add, Fl.le] at c1
        | nan => rw [hb] at c1; simp [Fl.neg, Fl.sub, Fl.add, Fl.le] at c1
      · cases hb : v.ub with
        | fin u =>
          obtain ⟨z, hz⟩ := (hu v hv).1 u hb
          have := abs_lt.1 (hr v hv u (Or.inr hb))
          exact hst (u + -1) ⟨z - 1, by rw [hz]; push_cast; ring⟩ (by rw [abs_lt]; constructor <;> linarith)
        | ninf => exact absurd hb (hu v hv).2
        | pinf => rw [hb] at c2; simp [Fl.neg, Fl.sub, Fl.add, Fl.le] at c2
        | nan => rw [hb] at c2; simp [Fl.neg, Fl.sub, Fl.add, Fl.le] at c2
      · rfl
    unfold rawLoop
    cases c1 : v.ub.lt v.lb with
    | true => rfl
    | false =>
    rw [if_neg Bool.false_ne_true, if_neg Bool.false_ne_true, ih]
    cases c2 : (v.ub.sub v.lb).lt (Fl.add (.fin 1) (.fin 1)) && (v.ub.sub v.lb).eq (.fin 0) with
    | true => rfl
    | false =>
      have hd : rawDelta v (.fin 1) = .fin 1 := by
        obtain ⟨e, e1, e2, e3, e4, e5, e6⟩ := rawDelta_fin v 1 one_pos c1 c2
        rcases e6 with rfl | ⟨l, u, g1, g2, g3⟩
        · exact e1
        · obtain ⟨a, ha⟩ := (hl v hv).1 l g1
          obtain ⟨b, hb⟩ := (hu v hv).1 u g2
          have k0 : u - l ≠ 1 := h1 v hv l u g1 g2
          rw [ha, hb] at k0 g3
          have k1 : b - a ≠ 1 := fun h => k0 (by exact_mod_cast h)
          have k2 : 0 < b - a := by
            have : (0 : K) < ((b - a : ℤ) : K) := by push_cast; linarith
            exact_mod_cast this
          have k3 : b - a ≤ 2 := by
            have : ((b - a : ℤ) : K) ≤ ((2 : ℤ) : K) := by push_cast; linarith
            exact_mod_cast this
          have k4 : b - a = 2 := by omega
          have k5 : ((b - a : ℤ) : K) = 2 := by rw [k4]; norm_num
          push_cast at k5
          rw [e1]
          congr 1
          linarith
      rw [hd, ih, hm]

/-- **C95 is false in general:** with bounds 0.5 and 1.2, the start point 0 given as a floating-point number is moved to 0.85, given as an integer it is
"moved" to 0, below the lower bound; all initial points are then below it. -/
theorem C95_false (junk : Fl ℚ → ℚ) :
    rawLoop keepFloat [⟨.fin (1 / 2), .fin (6 / 5), .fin 0⟩] (.fin (1 : ℚ)) = some (.fin (7 / 20), [(.fin (17 / 20), false)]) ∧
    rawLoop (keepInt junk) [⟨.fin (1 / 2), .fin (6 / 5), .fin 0⟩] (.fin (1 : ℚ)) = some (.fin (7 / 20), [(.fin 0, false)]) ∧
    ∀ p ∈ simplex [(0 : ℚ)] (7 / 20), ∀ t ∈ p, t < 1 / 2 := by
  refine ⟨by decide +kernel, ?_, by decide +kernel⟩
  have h : keepInt junk (.fin (17 / 20 : ℚ)) = .fin 0 := by
    have e : ⌊(17 / 20 : ℚ)⌋ = 0 := by norm_num
    simp only [keepInt, cutOff, e]
    norm_num
  have e : rawMove (keepInt junk) ⟨.fin (1 / 2), .fin (6 / 5), .fin 0⟩ (.fin (7 / 20 : ℚ)) = keepInt junk (.fin (17 / 20)) := by
    unfold rawMove
    rw [if_pos (by decide +kernel)]
    exact congrArg _ (by decide +kernel)
  have d : rawDelta ⟨.fin (1 / 2), .fin (6 / 5), .fin 0⟩ (.fin (1 : ℚ)) = .fin (7 / 20) := by decide +kernel
  unfold rawLoop
  rw [if_neg (by decide +kernel), if_neg (by decide +kernel), d, e, h]
  rfl

/-- Integer bounds 0 and 10, start value 0: moved to 1 in both cases. -/
example (junk : Fl ℚ → ℚ) : rawLoop (keepInt junk) [⟨.fin 0, .fin 10, .fin 0⟩] (.fin (1 : ℚ)) = some (.fin 1, [(.fin 1, false)]) := by
  rw [C95_integers_partial junk]
  · decide +kernel
  · simp [IsWhole]; exact ⟨0, by norm_num⟩
  · simp [WholeBound, IsWhole]; exact ⟨0, by norm_num⟩
  · simp [WholeBound, IsWhole]; exact ⟨10, by norm_num⟩
  · simp
  · simp
    rintro q (rfl | rfl) <;> norm_num

end Sqpdfo

#print axioms Sqpdfo.C94_start_point
#print axioms Sqpdfo.C94_refines
#print axioms Sqpdfo.C95_deviation
#print axioms Sqpdfo.C95_integers_partial
#print axioms Sqpdfo.C95_false
