import Verif.Model.InterpSet
import Verif.Spec.InterpSet
import Mathlib.Tactic.Linarith

/-! # Lemmas about the interpolation set operations -/

set_option linter.unusedSectionVars false

namespace Sqpdfo
open Spec
variable {α P C F K : Type}

theorem swapL_some (l : List α) {i j : ℕ} (hi : i < l.length) (hj : j < l.length) :
    ∃ l', swapL l i j = some l' ∧ Exchanged l l' i j := by
  refine ⟨(l.set i l[j]).set j l[i], ?_, ?_, ?_⟩
  · simp [swapL, List.getElem?_eq_getElem hi, List.getElem?_eq_getElem hj]
  · simp
  · intro k
    by_cases hkj : k = j
    · subst hkj
      rw [Equiv.swap_apply_right, List.getElem?_set_self (by simpa using hj)]
      exact (List.getElem?_eq_getElem hi).symm
    · rw [List.getElem?_set_ne (Ne.symm hkj)]
      by_cases hki : k = i
      · subst hki
        rw [Equiv.swap_apply_left, List.getElem?_set_self hi]
        exact (List.getElem?_eq_getElem hj).symm
      · rw [List.getElem?_set_ne (Ne.symm hki), Equiv.swap_apply_of_ne_of_ne hki hkj]

theorem Exchanged.unique {l l₁ l₂ : List α} {i j : ℕ} (h₁ : Exchanged l l₁ i j)
    (h₂ : Exchanged l l₂ i j) : l₁ = l₂ :=
  List.ext_getElem? fun k => by rw [h₁.2, h₂.2]

theorem Exchanged.symm {l l₁ : List α} {i j : ℕ} (h : Exchanged l l₁ i j) :
    Exchanged l₁ l i j :=
  ⟨h.1.symm, fun k => by rw [h.2, Equiv.swap_apply_self]⟩

theorem Exchanged.comm {l l₁ : List α} {i j : ℕ} (h : Exchanged l l₁ i j) :
    Exchanged l l₁ j i := ⟨h.1, fun k => by rw [h.2, Equiv.swap_comm]⟩

theorem Exchanged.refl (l : List α) (i : ℕ) : Exchanged l l i i :=
  ⟨rfl, fun k => by simp⟩

theorem swapL_eq {l l' : List α} {i j : ℕ} (hi : i < l.length) (hj : j < l.length)
    (h : Exchanged l l' i j) : swapL l i j = some l' := by
  obtain ⟨l₁, e, h₁⟩ := swapL_some l hi hj
  rw [e, Exchanged.unique h₁ h]

theorem swapOpt_some (l : List α) {i j p : ℕ} (hi : i < p) (hj : j < p)
    (hl : l = [] ∨ l.length = p) :
    ∃ l', swapOpt l i j = some l' ∧ Exchanged l l' i j ∧ (l' = [] ∨ l'.length = p) := by
  rcases hl with rfl | hl
  · exact ⟨[], by simp [swapOpt], ⟨rfl, by simp⟩, Or.inl rfl⟩
  · have hne : l ≠ [] := by rintro rfl; simp at hl; omega
    obtain ⟨l', e, h⟩ := swapL_some l (by omega : i < l.length) (by omega : j < l.length)
    exact ⟨l', by simp [swapOpt, hne, e], h, Or.inr (h.1.trans hl)⟩

theorem swapOpt_eq {l l' : List α} {i j p : ℕ} (hi : i < p) (hj : j < p)
    (hl : l = [] ∨ l.length = p) (h : Exchanged l l' i j) : swapOpt l i j = some l' := by
  obtain ⟨l₁, e, h₁, _⟩ := swapOpt_some l hi hj hl
  rw [e, Exchanged.unique h₁ h]

section order
variable [Field K] [LinearOrder K] [IsStrictOrderedRing K]

theorem argMin_spec (l : List K) :
    (l = [] ∧ argMin l = none) ∨ ∃ (i : ℕ) (b : K), argMin l = some (i, b) ∧ l[i]? = some b ∧
      (∀ (k : ℕ) (v : K), l[k]? = some v → b ≤ v) ∧
      ∀ (k : ℕ) (v : K), k < i → l[k]? = some v → b < v := by
  induction l with
  | nil => exact Or.inl ⟨rfl, rfl⟩
  | cons a l ih =>
    right
    rcases ih with ⟨rfl, h⟩ | ⟨i, b, h, hi, hm, hs⟩
    · refine ⟨0, a, by simp [argMin], rfl, ?_, by simp⟩
      intro k v hk
      cases k with
      | zero => simp at hk; exact hk.le
      | succ k => simp at hk
    · by_cases hb : b < a
      · refine ⟨i + 1, b, by simp [argMin, h, hb], by simpa using hi, ?_, ?_⟩
        · intro k v hk
          cases k with
          | zero => simp at hk; rw [← hk]; exact hb.le
          | succ k => exact hm k v (by simpa using hk)
        · intro k v hlt hk
          cases k with
          | zero => simp at hk; rw [← hk]; exact hb
          | succ k => exact hs k v (by omega) (by simpa using hk)
      · refine ⟨0, a, by simp [argMin, h, hb], rfl, ?_, by simp⟩
        intro k v hk
        cases k with
        | zero => simp at hk; exact hk.le
        | succ k => exact le_trans (not_lt.1 hb) (hm k v (by simpa using hk))

theorem mapM_some_getElem {β : Type} (f : α → Option β) :
    ∀ (l : List α) (l' : List β), l.mapM f = some l' →
      l'.length = l.length ∧ ∀ (k : ℕ) (a : α), l[k]? = some a → l'[k]? = f a := by
  intro l
  induction l with
  | nil => intro l' h; simp at h; subst h; simp
  | cons a l ih =>
    intro l' h
    rw [List.mapM_cons] at h
    cases hfa : f a with
    | none => rw [hfa] at h; simp at h
    | some b =>
      rw [hfa] at h
      cases hl : l.mapM f with
      | none => rw [hl] at h; simp at h
      | some m =>
        rw [hl] at h
        simp at h
        subst h
        obtain ⟨h1, h2⟩ := ih m hl
        refine ⟨by simp [h1], ?_⟩
        intro k c hk
        cases k with
        | zero => simp at hk; subst hk; simp [hfa]
        | succ k => simpa using h2 k c (by simpa using hk)

theorem mapM_ex {β : Type} (f : α → Option β) (l : List α) (h : ∀ a ∈ l, ∃ b, f a = some b) :
    ∃ l', l.mapM f = some l' := by
  induction l with
  | nil => exact ⟨[], rfl⟩
  | cons a l ih =>
    obtain ⟨b, hb⟩ := h a (by simp)
    obtain ⟨m, hm⟩ := ih fun c hc => h c (by simp [hc])
    exact ⟨b :: m, by simp [List.mapM_cons, hb, hm]⟩

/-- What the selection of the best point does, in terms of a predicate `I` of "inside"
positions. -/
theorem smallfChoice_spec (merit : List K) (Y : List (List K)) (xl xu : List K)
    (hlen : merit.length = Y.length) :
    let I : ℕ → Prop := fun i => ∃ y, Y[i]? = some y ∧ insideTest xl xu y = true
    (∀ b, smallfChoice merit (indInside xl xu Y) = some b →
      b ≠ 1 ∧ b ≠ 0 ∧ I b ∧ ∃ m m0, merit[b]? = some m ∧ merit[0]? = some m0 ∧ m < m0 ∧
        ∀ i mi, I i → merit[i]? = some mi → m ≤ mi) ∧
    (smallfChoice merit (indInside xl xu Y) = none →
      (∀ m0 i mi, merit[0]? = some m0 → I i → merit[i]? = some mi → m0 ≤ mi) ∨
      (I 1 ∧ ∃ m1 m0, merit[1]? = some m1 ∧ merit[0]? = some m0 ∧ m1 < m0 ∧
        ∀ i mi, I i → merit[i]? = some mi → m1 ≤ mi)) := by
  intro I
  by_cases hY : Y = []
  · subst hY
    have : merit = [] := by simpa using hlen
    subst this
    constructor
    · intro b hb; simp [smallfChoice, indInside, argMin] at hb
    · intro _; left; intro m0 i mi h; simp at h
  have hpos : 0 < merit.length := by
    rw [hlen]; exact List.length_pos_iff.2 hY
  have hget : ∀ k, k < Y.length → (indInside xl xu Y)[k]? =
      some (if insideTest xl xu (Y[k]?.getD []) then k else 0) := by
    intro k hk
    simp only [indInside, List.getElem?_map]
    rw [List.getElem?_range hk]
    simp [List.getElem?_eq_getElem hk]
  obtain ⟨vals, hvals⟩ : ∃ v, (indInside xl xu Y).mapM (fun i => merit[i]?) = some v := by
    apply mapM_ex
    intro a ha
    obtain ⟨k, hk, hk'⟩ := List.getElem_of_mem ha
    have hk2 : k < Y.length := by simpa [indInside] using hk
    have := hget k hk2
    rw [List.getElem?_eq_getElem hk, hk'] at this
    have ha' : a < merit.length := by
      simp only [Option.some.injEq] at this
      rw [this]; split_ifs <;> omega
    exact ⟨_, List.getElem?_eq_getElem ha'⟩
  obtain ⟨hvl, hvg⟩ := mapM_some_getElem _ _ _ hvals
  have hvlen : vals.length = Y.length := by rw [hvl]; simp [indInside]
  have hval : ∀ k, k < Y.length → vals[k]? =
      merit[if insideTest xl xu (Y[k]?.getD []) then k else 0]? := fun k hk =>
    hvg k _ (hget k hk)
  obtain ⟨m0, hm0⟩ : ∃ m0, merit[0]? = some m0 := ⟨_, List.getElem?_eq_getElem hpos⟩
  rcases argMin_spec vals with ⟨hnil, _⟩ | ⟨imin, fmin, hmin, hi, hle, hfst⟩
  · rw [hnil] at hvlen; exact absurd (List.length_eq_zero_iff.1 hvlen.symm) hY
  have hiY : imin < Y.length := by
    rw [← hvlen]; exact (List.getElem?_eq_some_iff.1 hi).1
  -- inside values are among the values
  have hbound : ∀ i mi, I i → merit[i]? = some mi → fmin ≤ mi := by
    rintro i mi ⟨y, hy, hin⟩ hmi
    have hiY' : i < Y.length := (List.getElem?_eq_some_iff.1 hy).1
    have := hval i hiY'
    rw [hy] at this
    simp only [Option.getD_some, hin, if_true, hmi] at this
    exact hle i mi this
  have hlt : fmin < m0 → I imin ∧ merit[imin]? = some fmin := by
    intro h
    have hv := hval imin hiY
    by_cases hin : insideTest xl xu (Y[imin]?.getD []) = true
    · rw [hin, if_pos rfl, hi] at hv
      refine ⟨⟨Y[imin], List.getElem?_eq_getElem hiY, ?_⟩, hv.symm⟩
      simpa [List.getElem?_eq_getElem hiY] using hin
    · rw [if_neg hin, hi, hm0] at hv
      cases hv
      exact absurd h (lt_irrefl _)
  have hch : smallfChoice merit (indInside xl xu Y) =
      if imin ≠ 1 ∧ fmin < m0 then some imin else none := by
    simp [smallfChoice, hvals, hmin, hm0]
  constructor
  · intro b hb
    rw [hch] at hb
    split_ifs at hb with hc
    cases hb
    obtain ⟨h1, h2⟩ := hlt hc.2
    refine ⟨hc.1, ?_, h1, fmin, m0, h2, hm0, hc.2, hbound⟩
    rintro rfl
    rw [hm0] at h2; cases h2; exact lt_irrefl _ hc.2
  · intro hn
    rw [hch] at hn
    split_ifs at hn with hc
    by_cases hlt' : fmin < m0
    · have himin : imin = 1 := by
        by_contra h; exact hc ⟨h, hlt'⟩
      subst himin
      obtain ⟨h1, h2⟩ := hlt hlt'
      exact Or.inr ⟨h1, fmin, m0, h2, hm0, hlt', hbound⟩
    · left
      intro m0' i mi h0 hI hmi
      rw [hm0] at h0; cases h0
      exact le_trans (not_lt.1 hlt') (hbound i mi hI hmi)

theorem insideTest_replicate {n : ℕ} (hn : 0 < n) (l u : K) (y : List K) (hy : y.length = n) :
    insideTest (List.replicate n l) (List.replicate n u) y = true ↔
      InBox (List.replicate n l) (List.replicate n u) y := by
  simp only [insideTest, Bool.and_eq_true, List.all_eq_true, List.mem_replicate, InBox,
    List.length_replicate, hy, true_and, Bool.not_eq_true', decide_eq_false_iff_not, not_lt, gt_iff_lt]
  constructor
  · rintro ⟨h1, h2⟩ k l' u' v hl hu hv
    obtain ⟨_, rfl⟩ := List.getElem?_eq_some_iff.1 hl
    obtain ⟨_, rfl⟩ := List.getElem?_eq_some_iff.1 hu
    have hm := List.mem_of_getElem? hv
    simp only [List.getElem_replicate]
    exact ⟨h1 l ⟨by omega, rfl⟩ v hm, h2 u ⟨by omega, rfl⟩ v hm⟩
  · intro h
    constructor
    · rintro l' ⟨_, rfl⟩ v hv
      obtain ⟨k, hk, rfl⟩ := List.getElem_of_mem hv
      exact (h k l' u y[k] (by rw [List.getElem?_replicate]; simp; omega)
        (by rw [List.getElem?_replicate]; simp; omega) (List.getElem?_eq_getElem hk)).1
    · rintro u' ⟨_, rfl⟩ v hv
      obtain ⟨k, hk, rfl⟩ := List.getElem_of_mem hv
      exact (h k l u' y[k] (by rw [List.getElem?_replicate]; simp; omega)
        (by rw [List.getElem?_replicate]; simp; omega) (List.getElem?_eq_getElem hk)).2

/-! ### pickMax -/

theorem pickMax_spec (cv : ℕ → K) : ∀ (l : List ℕ) (pos : Option ℕ) (best : K),
    (pickMax cv l pos best = pos ∧ ∀ j ∈ l, cv j ≤ best) ∨
    ∃ p, pickMax cv l pos best = some p ∧ p ∈ l ∧ best < cv p ∧ ∀ j ∈ l, cv j ≤ cv p := by
  intro l
  induction l with
  | nil => intro pos best; left; simp [pickMax]
  | cons j js ih =>
    intro pos best
    simp only [pickMax]
    by_cases h : cv j > best
    · rw [if_pos h]
      right
      rcases ih (some j) (cv j) with ⟨h1, h2⟩ | ⟨p, h1, h2, h3, h4⟩
      · refine ⟨j, h1, by simp, h, ?_⟩
        intro k hk
        rcases List.mem_cons.1 hk with rfl | hk
        · exact le_refl _
        · exact h2 k hk
      · refine ⟨p, h1, by simp [h2], lt_trans h h3, ?_⟩
        intro k hk
        rcases List.mem_cons.1 hk with rfl | hk
        · exact h3.le
        · exact h4 k hk
    · rw [if_neg h]
      rcases ih pos best with ⟨h1, h2⟩ | ⟨p, h1, h2, h3, h4⟩
      · left
        refine ⟨h1, ?_⟩
        intro k hk
        rcases List.mem_cons.1 hk with rfl | hk
        · exact not_lt.1 h
        · exact h2 k hk
      · right
        refine ⟨p, h1, by simp [h2], h3, ?_⟩
        intro k hk
        rcases List.mem_cons.1 hk with rfl | hk
        · exact le_trans (not_lt.1 h) h3.le
        · exact h4 k hk

/-! ### Repair -/

variable (dist : P → P → K) (build : List P → F) (propose : F → List P → ℕ → P × K)

/-- The invariant of the repair procedure started with `Y0`. -/
structure RepInv (Y0 : List P) (st : RepSt P F K) : Prop where
  len : st.Y.length = Y0.length
  base : st.Y[0]? = Y0[0]?
  nodup : st.replaced.Nodup
  valid : ∀ j ∈ st.replaced, 1 ≤ j ∧ j < Y0.length
  kept : ∀ k, k ∉ st.replaced → st.Y[k]? = Y0[k]?
  dist : st.d = dists dist st.Y

theorem dists_set {Y : List P} {b : P} (hb : Y[0]? = some b) {j : ℕ} (hj : 1 ≤ j) (y : P) :
    dists dist (Y.set j y) = (dists dist Y).set j (dist y b) := by
  cases Y with
  | nil => simp at hb
  | cons a l =>
    simp at hb
    subst hb
    cases j with
    | zero => omega
    | succ j => simp [dists, List.map_set]

theorem RepInv.put {Y0 : List P} {st : RepSt P F K} (h : RepInv dist Y0 st) {j : ℕ} (y : P)
    (h1 : 1 ≤ j) (h2 : j < Y0.length) (r : List ℕ) (hr : r.Nodup)
    (hmem : ∀ k, k ∈ r ↔ k ∈ st.replaced ∨ k = j) :
    RepInv dist Y0 (st.put dist build j y r) := by
  have hb : ∃ b, st.Y[0]? = some b := ⟨_, List.getElem?_eq_getElem (by rw [h.len]; omega)⟩
  obtain ⟨b, hb⟩ := hb
  have h0 : (st.Y.set j y)[0]? = some b := by
    rw [List.getElem?_set_ne (by omega)]; exact hb
  refine ⟨by simp [RepSt.put, h.len], ?_, hr, ?_, ?_, ?_⟩
  · simp only [RepSt.put]; rw [h0, ← hb, h.base]
  · intro k hk
    rcases (hmem k).1 hk with hk | rfl
    · exact h.valid k hk
    · exact ⟨h1, h2⟩
  · intro k hk
    have hkj : k ≠ j := fun e => hk ((hmem k).2 (Or.inr e))
    have hkr : k ∉ st.replaced := fun e => hk ((hmem k).2 (Or.inl e))
    simp only [RepSt.put]
    rw [List.getElem?_set_ne (Ne.symm hkj)]
    exact h.kept k hkr
  · simp only [RepSt.put, h0]
    rw [dists_set dist hb h1, h.dist]

theorem farLoop_inv {Y0 : List P} (thr : K) :
    ∀ (l : List (ℕ × K)) (st : RepSt P F K), RepInv dist Y0 st →
      (l.map (·.1)).Nodup → (∀ e ∈ l, e.1 ∉ st.replaced) →
      (∀ e ∈ l, thr < e.2 → 1 ≤ e.1 ∧ e.1 < Y0.length) →
      RepInv dist Y0 (farLoop dist build propose thr l st) := by
  intro l
  induction l with
  | nil => intro st h _ _ _; exact h
  | cons e l ih =>
    intro st h hnd hnr hv
    obtain ⟨j, dj⟩ := e
    simp only [farLoop]
    split_ifs with hd
    · have hj := hv (j, dj) (by simp) hd
      have hjr := hnr (j, dj) (by simp)
      simp only [List.map_cons, List.nodup_cons] at hnd
      have hput : RepInv dist Y0
          (st.put dist build j (propose st.fac st.Y j).1 (st.replaced ++ [j])) := by
        refine h.put dist build _ hj.1 hj.2 _ ?_ ?_
        · rw [List.nodup_append]
          exact ⟨h.nodup, by simp, fun a ha b hb => by
            simp at hb; rw [hb]; rintro rfl; exact hjr ha⟩
        · intro k; simp
      refine ih _ hput hnd.2 ?_ fun e he => hv e (by simp [he])
      intro e he
      simp only [RepSt.put, List.mem_append, List.mem_singleton, not_or]
      refine ⟨hnr e (by simp [he]), ?_⟩
      rintro rfl
      exact hnd.1 (List.mem_map_of_mem he)
    · exact h

theorem bestRepl_spec (prop : ℕ → P × K) :
    ∀ (l : List ℕ) (b : Option (ℕ × P)) (m : K),
      (bestRepl prop l b m = (b, m) ∧ ∀ j ∈ l, (prop j).2 ≤ m) ∨
      ∃ j, j ∈ l ∧ bestRepl prop l b m = (some (j, (prop j).1), (prop j).2) ∧ m < (prop j).2 ∧
        ∀ i ∈ l, (prop i).2 ≤ (prop j).2 := by
  intro l
  induction l with
  | nil => intro b m; left; simp [bestRepl]
  | cons j js ih =>
    intro b m
    simp only [bestRepl]
    by_cases h : (prop j).2 > m
    · rw [if_pos h]
      right
      rcases ih (some (j, (prop j).1)) (prop j).2 with ⟨h1, h2⟩ | ⟨k, h1, h2, h3, h4⟩
      · refine ⟨j, by simp, h1, h, ?_⟩
        intro i hi
        rcases List.mem_cons.1 hi with rfl | hi
        · exact le_refl _
        · exact h2 i hi
      · refine ⟨k, by simp [h1], h2, lt_trans h h3, ?_⟩
        intro i hi
        rcases List.mem_cons.1 hi with rfl | hi
        · exact h3.le
        · exact h4 i hi
    · rw [if_neg h]
      rcases ih b m with ⟨h1, h2⟩ | ⟨k, h1, h2, h3, h4⟩
      · left
        refine ⟨h1, ?_⟩
        intro i hi
        rcases List.mem_cons.1 hi with rfl | hi
        · exact not_lt.1 h
        · exact h2 i hi
      · right
        refine ⟨k, by simp [h1], h2, h3, ?_⟩
        intro i hi
        rcases List.mem_cons.1 hi with rfl | hi
        · exact le_trans (not_lt.1 h) h3.le
        · exact h4 i hi

theorem mem_range_tail {n j : ℕ} : j ∈ (List.range n).tail ↔ 1 ≤ j ∧ j < n := by
  cases n with
  | zero => simp
  | succ n =>
    rw [List.range_succ_eq_map]
    simp only [List.tail_cons, List.mem_map, List.mem_range]
    constructor
    · rintro ⟨a, ha, rfl⟩; omega
    · rintro ⟨h1, h2⟩; exact ⟨j - 1, by omega, by omega⟩

/-- An additional property `Q` of the state that is kept by replacements of non-base points by
proposals. -/
theorem rounds_inv {Y0 : List P} (closethr : K) (Q : RepSt P F K → Prop)
    (hQ : ∀ st j r, RepInv dist Y0 st → Q st → 1 ≤ j → j < Y0.length →
      Q (st.put dist build j (propose st.fac st.Y j).1 r)) :
    ∀ (k r : ℕ) (last : K) (st : RepSt P F K), RepInv dist Y0 st → Q st →
      RepInv dist Y0 (rounds dist build propose closethr k r last st).st ∧
      Q (rounds dist build propose closethr k r last st).st ∧
      (rounds dist build propose closethr k r last st).rounds ≤ r + k ∧
      (rounds dist build propose closethr k r last st).radius =
        maxOf (rounds dist build propose closethr k r last st).st.d ∧
      (∀ c, (rounds dist build propose closethr k r last st).rounds < r + k → 0 < closethr → 
        (rounds dist build propose closethr k r last st).st.Y.length = c →
        ∀ j, 1 ≤ j → j < c → (propose (rounds dist build propose closethr k r last st).st.fac
          (rounds dist build propose closethr k r last st).st.Y j).2 < closethr) := by
  intro k
  induction k with
  | zero => intro r last st h q; exact ⟨h, q, by simp [rounds], rfl, fun c hc => by simp [rounds] at hc⟩
  | succ k ih =>
    intro r last st h q
    simp only [rounds]
    rcases bestRepl_spec (propose st.fac st.Y) ((List.range st.Y.length).tail) none 0 with
      ⟨h1, h2⟩ | ⟨j, h1, h2, h3, h4⟩
    · simp only [h1]
      refine ⟨h, q, by omega, trivial, ?_⟩
      rintro c - h0 rfl j hj1 hj2
      exact lt_of_le_of_lt (h2 j (mem_range_tail.2 ⟨hj1, hj2⟩)) h0
    · simp only [h2]
      rw [mem_range_tail, h.len] at h1
      by_cases hc : (propose st.fac st.Y j).2 < closethr ∨ j = 0
      · simp only [if_pos hc]
        refine ⟨h, q, by omega, trivial, ?_⟩
        rintro c - h0 rfl i hi1 hi2
        have hj0 : j ≠ 0 := by omega
        have := hc.resolve_right hj0
        exact lt_of_le_of_lt (h4 i (mem_range_tail.2 ⟨hi1, hi2⟩)) this
      · simp only [if_neg hc]
        have hput : RepInv dist Y0 (st.put dist build j (propose st.fac st.Y j).1
            (if j ∈ st.replaced then st.replaced else st.replaced ++ [j])) := by
          refine h.put dist build _ h1.1 h1.2 _ ?_ ?_
          · split_ifs with hm
            · exact h.nodup
            · rw [List.nodup_append]
              exact ⟨h.nodup, by simp, fun a ha b hb => by
                simp at hb; rw [hb]; rintro rfl; exact hm ha⟩
          · intro i
            split_ifs with hm
            · constructor
              · exact Or.inl
              · rintro (h | rfl); exacts [h, hm]
            · simp
        obtain ⟨g1, g2, g3, g4, g5⟩ := ih (r + 1) (propose st.fac st.Y j).2 _ hput
          (hQ st j _ h q h1.1 h1.2)
        refine ⟨g1, g2, by omega, g4, ?_⟩
        intro c hlt
        exact g5 c (by omega)

theorem maxOf_spec (l : List K) (hl : l ≠ []) : maxOf l ∈ l ∧ ∀ a ∈ l, a ≤ maxOf l := by
  induction l with
  | nil => exact absurd rfl hl
  | cons a l ih =>
    cases l with
    | nil => simp [maxOf]
    | cons b l =>
      obtain ⟨h1, h2⟩ := ih (by simp)
      simp only [maxOf] at *
      constructor
      · rcases max_choice a (maxOf (b :: l)) with h | h
        · rw [h]; simp
        · rw [h]; exact List.mem_cons_of_mem _ h1
      · intro c hc
        rcases List.mem_cons.1 hc with rfl | hc
        · exact le_max_left _ _
        · exact le_trans (h2 c hc) (le_max_right _ _)

end order
end Sqpdfo
