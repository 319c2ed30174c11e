import Verif.Model.Runtime
import Verif.Model.Main
import Verif.Lemmas.InterpSet
import Mathlib.Data.List.Sort
import Mathlib.Tactic.NormNum
import Mathlib.Tactic.Linarith

/-!
# C105, C106: the array helpers of `runtime.py`

C105: `concatenate_` puts the blocks one after the other and ignores empty ones.
C106: `find_` gives the positions of the true entries in increasing order; `min_` and `max_` give
an extreme entry and its first position, and ignore NaN.
-/

set_option linter.unusedSectionVars false

namespace Sqpdfo
variable {α : Type}

namespace Spec

/-- The entries of an array, row by row. -/
def entries : Arr α → List α
  | .d1 l => l
  | .d2 _ rows => rows.flatten

/-- Number of columns; a one-dimensional array counts as one row. -/
def width : Arr α → ℕ
  | .d1 l => l.length
  | .d2 c _ => c

/-- The array holds at least one number. -/
def Filled (a : Arr α) : Prop := entries a ≠ []

end Spec

namespace Arr

theorem isEmpty_iff {a : Arr α} (h : a.WF) : a.isEmpty = true ↔ Spec.entries a = [] := by
  cases a with
  | d1 l =>
    simp [isEmpty, shape, Spec.entries, eq_comm]
  | d2 c rows =>
    simp only [isEmpty, shape, Spec.entries, List.mem_cons, List.not_mem_nil, or_false,
      decide_eq_true_eq, List.flatten_eq_nil_iff]
    simp only [WF] at h
    constructor
    · rintro (h0 | h0) r hr
      · rw [List.eq_nil_of_length_eq_zero h0.symm] at hr; cases hr
      · exact List.eq_nil_of_length_eq_zero (by rw [h r hr, ← h0])
    · intro hall
      cases rows with
      | nil => left; rfl
      | cons r rs =>
        right
        have := hall r (by simp)
        rw [← h r (by simp), this]; rfl

theorem filled_iff {a : Arr α} (h : a.WF) : Spec.Filled a ↔ a.isEmpty = false := by
  rw [Spec.Filled, Ne, ← isEmpty_iff h]; simp

theorem delFirstEmpty_filter (l : List (Arr α)) :
    (delFirstEmpty l).filter (fun a => !a.isEmpty) = l.filter (fun a => !a.isEmpty) := by
  induction l with
  | nil => rfl
  | cons a l ih =>
    by_cases h : a.isEmpty
    · simp [delFirstEmpty, h]
    · simp [delFirstEmpty, h, ih]

theorem delFirstEmpty_count (l : List (Arr α)) :
    (delFirstEmpty l).countP isEmpty = l.countP isEmpty - 1 := by
  induction l with
  | nil => rfl
  | cons a l ih =>
    by_cases h : a.isEmpty
    · simp [delFirstEmpty, h]
    · simp [delFirstEmpty, h, ih]

theorem filter_of_count {l : List (Arr α)} (h : l.countP isEmpty = 0) :
    l = l.filter (fun a => !a.isEmpty) := by
  rw [List.countP_eq_zero] at h
  refine (List.filter_eq_self.2 fun a ha => ?_).symm
  simpa using h a ha

/-- The two nested loops remove exactly the empty arrays. -/
theorem delLoop_filter : ∀ (k : ℕ) (l : List (Arr α)), l.countP isEmpty ≤ k →
    delLoop k l = l.filter (fun a => !a.isEmpty)
  | 0, _, h => filter_of_count (Nat.le_zero.1 h)
  | k + 1, l, h => by
    rw [delLoop, delLoop_filter k _ (by rw [delFirstEmpty_count]; omega), delFirstEmpty_filter]

theorem delLoop_length (l : List (Arr α)) :
    delLoop l.length l = l.filter (fun a => !a.isEmpty) :=
  delLoop_filter _ _ List.countP_le_length

theorem concatenate_nil {l : List (Arr α)} (h : l.filter (fun a => !a.isEmpty) = [])
    (axis : ℕ) : concatenate l axis = some (.d1 []) := by
  rw [concatenate, delLoop_length, h]; rfl

theorem concatenate_cons {l r : List (Arr α)} {a : Arr α}
    (h : l.filter (fun a => !a.isEmpty) = a :: r) (axis : ℕ) :
    concatenate l axis = if axis = 0 then vstack (a :: r) else hstack (a :: r) := by
  rw [concatenate, delLoop_length, h]; simp

theorem mem_kept {l : List (Arr α)} (hw : ∀ a ∈ l, a.WF) {a : Arr α} :
    a ∈ l.filter (fun a => !a.isEmpty) ↔ a ∈ l ∧ Spec.Filled a := by
  rw [List.mem_filter]
  constructor
  · rintro ⟨h1, h2⟩
    exact ⟨h1, (filled_iff (hw a h1)).2 (by simpa using h2)⟩
  · rintro ⟨h1, h2⟩
    exact ⟨h1, by simpa using (filled_iff (hw a h1)).1 h2⟩

theorem kept_ne {l : List (Arr α)} (hw : ∀ a ∈ l, a.WF) (h : ∃ a ∈ l, Spec.Filled a) :
    l.filter (fun a => !a.isEmpty) ≠ [] := by
  obtain ⟨a, ha, hf⟩ := h
  exact List.ne_nil_of_mem ((mem_kept hw).2 ⟨ha, hf⟩)

theorem kept_nil {l : List (Arr α)} (hw : ∀ a ∈ l, a.WF) (h : ∀ a ∈ l, ¬ Spec.Filled a) :
    l.filter (fun a => !a.isEmpty) = [] := by
  rw [List.filter_eq_nil_iff]
  intro a ha hf
  exact h a ha ((filled_iff (hw a ha)).2 (by simpa using hf))

/-- Dropping empty arrays changes nothing that is computed from entries. -/
theorem flatMap_kept {β : Type} {l : List (Arr α)} {f : Arr α → List β}
    (h : ∀ a ∈ l, a.isEmpty = true → f a = []) :
    (l.filter (fun a => !a.isEmpty)).flatMap f = l.flatMap f := by
  induction l with
  | nil => rfl
  | cons a l ih =>
    have ih := ih fun b hb => h b (List.mem_cons_of_mem _ hb)
    by_cases ha : a.isEmpty
    · simp [ha, ih, h a (by simp) ha]
    · simp [ha, ih]

theorem entries_rows2 (a : Arr α) : a.rows2.flatten = Spec.entries a := by
  cases a <;> simp [rows2, Spec.entries]

theorem rows2_length {a : Arr α} (h : a.WF) : ∀ r ∈ a.rows2, r.length = a.cols2 := by
  cases a with
  | d1 l => simp [rows2, cols2]
  | d2 c rows => exact h

theorem flatten_flatMap_rows2 (l : List (Arr α)) :
    (l.flatMap rows2).flatten = l.flatMap Spec.entries := by
  induction l with
  | nil => rfl
  | cons a l ih => simp [ih, entries_rows2]

end Arr

open Arr

/-- All blocks empty: the result is the one-dimensional empty array, along both axes. -/
theorem C105_empty {ls : List (Arr α)} (hw : ∀ a ∈ ls, a.WF) (h : ∀ a ∈ ls, ¬ Spec.Filled a)
    (axis : ℕ) : concatenate ls axis = some (.d1 []) :=
  concatenate_nil (kept_nil hw h) axis

/-- **C105** (axis 0): if there is a result and some block holds a number, then the result is a
two-dimensional array; read row by row its entries are those of the blocks one after the other;
all blocks that are not empty have its width; its rows all have this width. -/
theorem C105_vertical {ls : List (Arr α)} (hw : ∀ a ∈ ls, a.WF) (hf : ∃ a ∈ ls, Spec.Filled a)
    {R : Arr α} (h : concatenate ls 0 = some R) :
    ∃ c rows, R = .d2 c rows ∧ Spec.entries R = ls.flatMap Spec.entries ∧
      (∀ r ∈ rows, r.length = c) ∧ (∀ a ∈ ls, Spec.Filled a → Spec.width a = c) := by
  have hk := kept_ne hw hf
  rcases hl : ls.filter (fun a => !a.isEmpty) with _ | ⟨a, l⟩
  · exact absurd hl hk
  rw [concatenate_cons hl, if_pos rfl, vstack] at h
  split_ifs at h with hc
  obtain rfl := Option.some.inj h
  have hcols : ∀ b ∈ a :: l, b.cols2 = a.cols2 := by
    intro b hb
    rcases List.mem_cons.1 hb with rfl | hb
    · rfl
    · simpa using List.all_eq_true.1 hc b hb
  have hmem : ∀ b ∈ a :: l, b ∈ ls ∧ Spec.Filled b := fun b hb =>
    (mem_kept hw).1 (hl ▸ hb)
  refine ⟨_, _, rfl, ?_, ?_, ?_⟩
  · show ((a :: l).flatMap rows2).flatten = _
    rw [flatten_flatMap_rows2, ← hl]
    refine flatMap_kept fun b hb he => ?_
    exact (isEmpty_iff (hw b hb)).1 he
  · intro r hr
    obtain ⟨b, hb, hrb⟩ := List.mem_flatMap.1 hr
    rw [rows2_length (hw b (hmem b hb).1) r hrb, hcols b hb]
  · intro b hb hfb
    have hb' : b ∈ a :: l := hl ▸ (mem_kept hw).2 ⟨hb, hfb⟩
    have := hcols b hb'
    cases b <;> exact this

/-- **C105** (axis 0, success): there is a result exactly if all blocks that are not empty have
the same width (a one-dimensional block counts as one row). -/
theorem C105_vertical_iff {ls : List (Arr α)} (hw : ∀ a ∈ ls, a.WF) :
    (concatenate ls 0).isSome ↔
      ∃ c, ∀ a ∈ ls, Spec.Filled a → Spec.width a = c := by
  have hwid : ∀ a : Arr α, Spec.width a = a.cols2 := by intro a; cases a <;> rfl
  simp only [hwid]
  rcases hl : ls.filter (fun a => !a.isEmpty) with _ | ⟨a, l⟩
  · rw [concatenate_nil hl]
    simp only [Option.isSome_some, true_iff]
    refine ⟨0, fun a ha hf => ?_⟩
    have := (mem_kept hw).2 ⟨ha, hf⟩
    rw [hl] at this; cases this
  · rw [concatenate_cons hl, if_pos rfl, vstack]
    constructor
    · intro h
      split_ifs at h with hc
      swap
      · simp at h
      refine ⟨a.cols2, fun b hb hf => ?_⟩
      have := (mem_kept hw).2 ⟨hb, hf⟩
      rw [hl] at this
      rcases List.mem_cons.1 this with rfl | hb
      · rfl
      · simpa using List.all_eq_true.1 hc b hb
    · rintro ⟨c, hc⟩
      have hm : ∀ b ∈ a :: l, b.cols2 = c := fun b hb =>
        hc b ((mem_kept hw).1 (hl ▸ hb)).1 ((mem_kept hw).1 (hl ▸ hb)).2
      rw [if_pos]
      · rfl
      · rw [List.all_eq_true]
        intro b hb
        simp [hm b (List.mem_cons_of_mem _ hb), hm a (by simp)]

theorem all1_map (ls : List (List α)) : all1 (ls.map Arr.d1) = some ls := by
  induction ls with
  | nil => rfl
  | cons a l ih => simp [all1, ih]

/-- **C105** (axis 1, one dimension): the result is the concatenation of the lists. -/
theorem C105_line (ls : List (List α)) :
    concatenate (ls.map Arr.d1) 1 = some (.d1 ls.flatten) := by
  have hk : (ls.map Arr.d1).filter (fun a => !a.isEmpty) =
      (ls.filter fun l => !l.isEmpty).map Arr.d1 := by
    rw [List.filter_map]
    congr 1
    apply List.filter_congr
    intro l _
    cases l <;> simp [Arr.isEmpty, shape]
  have hflat : (ls.filter fun l => !l.isEmpty).flatten = ls.flatten := by
    rw [List.flatten_filter_not_isEmpty]
  rcases hl : ls.filter (fun l => !l.isEmpty) with _ | ⟨a, l⟩
  · rw [hl] at hflat hk
    rw [concatenate_nil hk, ← hflat]; rfl
  · rw [hl] at hflat hk
    rw [concatenate_cons hk, if_neg one_ne_zero, hstack, ← List.map_cons, all1_map, Option.map_some,
      hflat]

theorem all2_of {n : ℕ} : ∀ {l : List (Arr α)},
    (∀ a ∈ l, ∃ c rows, a = .d2 c rows ∧ rows.length = n) →
    all2 n l = some ((l.map cols2).sum, l.map rows2)
  | [], _ => rfl
  | a :: l, h => by
    obtain ⟨c, rows, rfl, hr⟩ := h a (by simp)
    rw [all2, if_pos hr, all2_of fun b hb => h b (List.mem_cons_of_mem _ hb)]
    simp [cols2, rows2]

theorem beside_length {n : ℕ} : ∀ {l : List (List (List α))}, l ≠ [] →
    (∀ b ∈ l, b.length = n) → (beside l).length = n
  | [], h, _ => absurd rfl h
  | [b], _, h => h b (by simp)
  | b :: b' :: l, _, h => by
    rw [beside, List.length_zipWith, h b (by simp),
      beside_length (by simp) fun x hx => h x (List.mem_cons_of_mem _ hx), min_self]
    simp

theorem beside_get {n : ℕ} : ∀ {l : List (List (List α))}, l ≠ [] →
    (∀ b ∈ l, b.length = n) → ∀ i < n, (beside l).getD i [] = l.flatMap fun b => b.getD i []
  | [], h, _, _, _ => absurd rfl h
  | [b], _, _, i, _ => by simp [beside]
  | b :: b' :: l, _, h, i, hi => by
    have ih := beside_get (l := b' :: l) (by simp)
      (fun x hx => h x (List.mem_cons_of_mem _ hx)) i hi
    have hlen := beside_length (l := b' :: l) (n := n) (by simp)
      (fun x hx => h x (List.mem_cons_of_mem _ hx))
    have hb := h b (by simp)
    rw [beside]
    · rw [List.flatMap_cons, ← ih]
      simp [List.getD_eq_getElem?_getD, hb, hlen, hi]
    · simp

/-- **C105** (axis 1, two dimensions): if all blocks that are not empty have `n` rows, then the
result has `n` rows, and its row `i` consists of the rows `i` of the blocks one after the
other. -/
theorem C105_side {ls : List (Arr α)} {n : ℕ} (hw : ∀ a ∈ ls, a.WF)
    (hf : ∃ a ∈ ls, Spec.Filled a)
    (hn : ∀ a ∈ ls, Spec.Filled a → ∃ c rows, a = .d2 c rows ∧ rows.length = n) :
    ∃ c rows, concatenate ls 1 = some (.d2 c rows) ∧ rows.length = n ∧
      (∀ i < n, rows.getD i [] = ls.flatMap fun a =>
        match a with
        | .d1 _ => []
        | .d2 _ rs => rs.getD i []) ∧
      (∀ r ∈ rows, r.length = c) := by
  have hk := kept_ne hw hf
  set l := ls.filter (fun a => !a.isEmpty) with hl
  have hmem : ∀ b ∈ l, ∃ c rows, b = .d2 c rows ∧ rows.length = n := fun b hb =>
    hn b ((mem_kept hw).1 hb).1 ((mem_kept hw).1 hb).2
  have hlen : ∀ b ∈ l.map rows2, b.length = n := by
    intro b hb
    obtain ⟨a, ha, rfl⟩ := List.mem_map.1 hb
    obtain ⟨c, rows, rfl, hr⟩ := hmem a ha
    exact hr
  have hne : l.map rows2 ≠ [] := by simpa using hk
  have hres : concatenate ls 1 = some (.d2 (l.map cols2).sum (beside (l.map rows2))) := by
    rcases hl' : l with _ | ⟨a, r⟩
    · exact absurd hl' hk
    · obtain ⟨c, rows, rfl, hr⟩ := hmem a (by rw [hl']; simp)
      rw [concatenate_cons (hl.symm.trans hl'), if_neg one_ne_zero, hstack, hr,
        all2_of (by rw [← hl']; exact hmem)]
      simp
  have hrow : ∀ i < n, (beside (l.map rows2)).getD i [] = ls.flatMap fun a =>
      match a with
      | .d1 _ => []
      | .d2 _ rs => rs.getD i [] := by
    intro i hi
    rw [beside_get hne hlen i hi, List.flatMap_map]
    have h1 : l.flatMap (fun a => a.rows2.getD i []) = l.flatMap fun a =>
        match a with
        | .d1 _ => []
        | .d2 _ rs => rs.getD i [] := by
      refine List.flatMap_congr fun a ha => ?_
      obtain ⟨c, rows, rfl, _⟩ := hmem a ha
      rfl
    rw [h1, hl]
    refine flatMap_kept fun a ha he => ?_
    have he := (isEmpty_iff (hw a ha)).1 he
    cases a with
    | d1 _ => rfl
    | d2 c rs =>
      simp only [Spec.entries, List.flatten_eq_nil_iff] at he
      show rs.getD i [] = []
      by_cases hi : i < rs.length
      · rw [List.getD_eq_getElem _ _ hi]; exact he _ (List.getElem_mem hi)
      · rw [List.getD_eq_default _ _ (by omega)]
  refine ⟨_, _, hres, beside_length hne hlen, hrow, ?_⟩
  intro r hr
  obtain ⟨i, hi, rfl⟩ := List.mem_iff_getElem.1 hr
  have hi' : i < n := by rwa [beside_length hne hlen] at hi
  rw [← List.getD_eq_getElem _ [] hi, beside_get hne hlen i hi', List.length_flatMap,
    List.map_map]
  congr 1
  refine List.map_congr_left fun a ha => ?_
  have hwa := hw a ((mem_kept hw).1 ha).1
  obtain ⟨c, rows, rfl, hrows⟩ := hmem a ha
  have : i < rows.length := by omega
  show (rows.getD i []).length = c
  rw [List.getD_eq_getElem _ _ this]
  exact hwa _ (List.getElem_mem this)

theorem all1_none {l : List (Arr α)} {c : ℕ} {rows : List (List α)} (h : .d2 c rows ∈ l) :
    all1 l = none := by
  induction l with
  | nil => cases h
  | cons a l ih =>
    cases a with
    | d2 _ _ => rfl
    | d1 m =>
      rw [all1, ih (by simpa using h)]; rfl

theorem all2_none {l : List (Arr α)} {n : ℕ} {m : List α} (h : .d1 m ∈ l) :
    all2 n l = none := by
  induction l with
  | nil => cases h
  | cons a l ih =>
    cases a with
    | d1 _ => rfl
    | d2 c rows =>
      rw [all2, ih (by simpa using h)]; simp

/-- **C105** (axis 1, mixed): a one-dimensional block and a two-dimensional block, both not
empty, cannot be put side by side: the call raises. -/
theorem C105_mixed {ls : List (Arr α)} (hw : ∀ a ∈ ls, a.WF) {m : List α} {c : ℕ}
    {rows : List (List α)} (h1 : .d1 m ∈ ls) (hf1 : m ≠ []) (h2 : .d2 c rows ∈ ls)
    (hf2 : Spec.Filled (.d2 c rows)) : concatenate ls 1 = none := by
  have m1 := (mem_kept hw).2 ⟨h1, (show Spec.Filled (Arr.d1 m) from hf1)⟩
  have m2 := (mem_kept hw).2 ⟨h2, hf2⟩
  rcases hl : ls.filter (fun a => !a.isEmpty) with _ | ⟨a, r⟩
  · rw [hl] at m1; cases m1
  · rw [hl] at m1 m2
    rw [concatenate_cons hl, if_neg one_ne_zero]
    cases a with
    | d1 l => rw [hstack, all1_none m2]; rfl
    | d2 c' rs => rw [hstack, all2_none m1]; rfl

/-- The width of empty blocks is lost: two `(0, 3)` arrays give an array of shape `(0,)`, whose
second dimension counts as 1. -/
theorem C105_width_false :
    ¬ ∀ (ls : List (Arr ℚ)) (R : Arr ℚ), (∀ a ∈ ls, a.WF) → ls ≠ [] →
      (∀ a ∈ ls, a.size 2 = 3) → concatenate ls 0 = some R → R.size 2 = 3 := by
  intro h
  have := h [.d2 3 [], .d2 3 []] (.d1 []) (by simp [WF]) (by simp) (by simp [Arr.size, shape])
    (by rfl)
  simp [Arr.size, shape] at this

/-! ## `find_` -/

theorem mem_flatnonzero : ∀ {k : ℕ} {a : List Bool} {j : ℕ},
    j ∈ flatnonzero k a ↔ ∃ i, j = k + i ∧ a[i]? = some true
  | k, [], j => by simp [flatnonzero]
  | k, b :: l, j => by
    have key : (∃ i, j = k + i ∧ (b :: l)[i]? = some true) ↔
        (j = k ∧ b = true) ∨ ∃ i, j = k + 1 + i ∧ l[i]? = some true := by
      constructor
      · rintro ⟨i, rfl, hi⟩
        cases i with
        | zero => left; simpa using hi
        | succ i => right; exact ⟨i, by omega, by simpa using hi⟩
      · rintro (⟨rfl, hb⟩ | ⟨i, rfl, hi⟩)
        · exact ⟨0, rfl, by simp [hb]⟩
        · exact ⟨i + 1, by omega, by simpa using hi⟩
    rw [key, flatnonzero]
    cases b <;> simp [mem_flatnonzero (k := k + 1) (a := l)]

theorem flatnonzero_sorted : ∀ (k : ℕ) (a : List Bool),
    (flatnonzero k a).Pairwise (· < ·)
  | k, [] => by simp [flatnonzero]
  | k, b :: l => by
    rw [flatnonzero]
    split_ifs
    · refine List.pairwise_cons.2 ⟨fun j hj => ?_, flatnonzero_sorted _ _⟩
      obtain ⟨i, rfl, _⟩ := mem_flatnonzero.1 hj
      omega
    · exact flatnonzero_sorted _ _

theorem entries_column (l : List ℕ) : Spec.entries (.d2 1 (l.map fun j => [j])) = l := by
  rw [Spec.entries]
  induction l with
  | nil => rfl
  | cons a l ih => simp [ih]

/-- **C106** (`find_`): without a count the call always has a result; its entries are strictly
increasing and they are exactly the positions of the true entries; it is a column, except that
without a true entry it is one-dimensional. -/
theorem C106_find (a : List Bool) :
    ∃ R, find a none = some R ∧ (Spec.entries R).Pairwise (· < ·) ∧
      (∀ j, j ∈ Spec.entries R ↔ a[j]? = some true) ∧
      R.shape = if true ∈ a then [(Spec.entries R).length, 1] else [0] := by
  have hmem : ∀ j, j ∈ flatnonzero 0 a ↔ a[j]? = some true := by
    intro j
    rw [mem_flatnonzero]
    constructor
    · rintro ⟨i, rfl, h⟩; simpa using h
    · intro h; exact ⟨j, by omega, h⟩
  have htrue : true ∈ a ↔ flatnonzero 0 a ≠ [] := by
    rw [List.mem_iff_getElem?]
    constructor
    · rintro ⟨j, hj⟩; exact List.ne_nil_of_mem ((hmem j).2 hj)
    · intro h
      obtain ⟨j, hj⟩ := List.exists_mem_of_ne_nil _ h
      exact ⟨j, (hmem j).1 hj⟩
  by_cases he : flatnonzero 0 a = []
  · refine ⟨.d1 [], by simp [find, he], by simp [Spec.entries], fun j => ?_, ?_⟩
    · rw [← hmem, he]; simp [Spec.entries]
    · rw [if_neg (by rw [htrue, not_not]; exact he)]; rfl
  · refine ⟨.d2 1 ((flatnonzero 0 a).map fun j => [j]), by simp only [find, he, if_false], ?_,
      fun j => ?_, ?_⟩
    · rw [entries_column]; exact flatnonzero_sorted _ _
    · rw [entries_column]; exact hmem j
    · rw [if_pos (htrue.2 he), entries_column]; simp [shape]

/-- **C106** (`find_` with a count): the call raises exactly if there is a true entry but fewer
than `n` of them; otherwise the result consists of the first `n` positions (none if there is no
true entry). -/
theorem C106_count (a : List Bool) (n : ℕ) {R : Arr ℕ} (hR : find a none = some R) :
    (find a (some n) = none ↔ true ∈ a ∧ (Spec.entries R).length < n) ∧
      ∀ S, find a (some n) = some S → Spec.entries S = (Spec.entries R).take n := by
  obtain ⟨R', hR', -, hm, -⟩ := C106_find a
  obtain rfl : R' = R := Option.some.inj (hR'.symm.trans hR)
  have hent : Spec.entries R' = flatnonzero 0 a := by
    by_cases he : flatnonzero 0 a = []
    · have : R' = .d1 [] := by simpa [find, he] using hR.symm
      rw [this, he]; rfl
    · have : R' = .d2 1 ((flatnonzero 0 a).map fun j => [j]) := by
        simpa [find, he] using hR.symm
      rw [this, entries_column]
  rw [hent] at hm ⊢
  have htrue : true ∈ a ↔ flatnonzero 0 a ≠ [] := by
    rw [List.mem_iff_getElem?]
    constructor
    · rintro ⟨j, hj⟩; exact List.ne_nil_of_mem ((hm j).2 hj)
    · intro h
      obtain ⟨j, hj⟩ := List.exists_mem_of_ne_nil _ h
      exact ⟨j, (hm j).1 hj⟩
  rw [htrue]
  by_cases he : flatnonzero 0 a = []
  · simp only [find, he, if_true]
    refine ⟨by simp, fun S hS => ?_⟩
    rw [← Option.some.inj hS]; simp [Spec.entries]
  · simp only [find, he, if_false]
    refine ⟨?_, fun S hS => ?_⟩
    · split_ifs with h
      · simp; omega
      · simp only [true_iff]; exact ⟨he, by omega⟩
    · split_ifs at hS with h
      rw [← Option.some.inj hS]; rfl

/-- MATLAB's `find(a, n)` gives at most `n` positions; here the call fails although there is a
true entry. -/
theorem C106_count_false :
    ¬ ∀ (a : List Bool) (n : ℕ), ∃ S, find a (some n) = some S := by
  intro h
  obtain ⟨S, hS⟩ := h [false, true] 2
  simp [find, flatnonzero] at hS

theorem flatnonzero_eq (a : List Bool) : ∀ k, flatnonzero k a =
    ((List.range a.length).filter fun j => a[j]? == some true).map (k + ·) := by
  induction a with
  | nil => intro k; rfl
  | cons b l ih =>
    intro k
    rw [flatnonzero, ih (k + 1), List.length_cons, List.range_succ_eq_map, List.filter_cons,
      List.filter_map]
    have : ((fun j => (b :: l)[j]? == some true) ∘ Nat.succ) = fun j => l[j]? == some true := by
      funext j; simp
    rw [this]
    cases b <;> simp [Function.comp_def, Nat.add_comm, Nat.add_left_comm]

/-- The positions used by the main loop (far and close points) are those that `find_` gives. -/
theorem C106_findIdx {K : Type} (p : K → Bool) (d : List K) {R : Arr ℕ}
    (hR : find (d.map p) none = some R) : findIdx p d = Spec.entries R := by
  have h : findIdx p d = flatnonzero 0 (d.map p) := by
    rw [flatnonzero_eq, findIdx]
    simp only [List.length_map, Nat.zero_add, List.map_id']
    apply List.filter_congr
    intro j hj
    rw [List.getElem?_map]
    cases d[j]? with
    | none => rfl
    | some v => simp
  by_cases he : flatnonzero 0 (d.map p) = []
  · have : R = .d1 [] := by simpa [find, he] using hR.symm
    rw [h, he, this]; rfl
  · have : R = .d2 1 ((flatnonzero 0 (d.map p)).map fun j => [j]) := by
      simpa [find, he] using hR.symm
    rw [h, this, entries_column]

/-! ## `max_` and `min_` with the position -/

namespace Fl
variable {K : Type} [LinearOrder K]

/-- The order of the numbers; NaN is put at the bottom (only used in proofs). -/
def ord : Fl K → WithBot (WithTop K)
  | nan => ⊥
  | ninf => ⊥
  | pinf => ((⊤ : WithTop K) : WithBot (WithTop K))
  | fin q => ((q : WithTop K) : WithBot (WithTop K))

theorem lt_iff_ord {a b : Fl K} (ha : a ≠ nan) (hb : b ≠ nan) :
    a.lt b = true ↔ a.ord < b.ord := by
  cases a <;> cases b <;> simp_all [lt, ord]
  exact WithBot.coe_lt_coe.2 (WithTop.coe_lt_top _)

theorem le_iff_ord {a b : Fl K} (ha : a ≠ nan) (hb : b ≠ nan) :
    a.le b = true ↔ a.ord ≤ b.ord := by
  cases a <;> cases b <;> simp_all [le, ord]

theorem ord_inj {a b : Fl K} (ha : a ≠ nan) (hb : b ≠ nan) (h : a.ord = b.ord) : a = b := by
  cases a <;> cases b <;> simp_all [ord]

theorem isNan_iff {a : Fl K} : a.isNan = true ↔ a = nan := by cases a <;> simp [isNan]

theorem fmax_cases (a b : Fl K) : fmax a b = a ∨ fmax a b = b := by
  unfold fmax; split_ifs <;> simp

theorem fmax_nan (a b : Fl K) (h : a ≠ nan ∨ b ≠ nan) : fmax a b ≠ nan := by
  unfold fmax
  split_ifs with h1 h2 h3
  · rw [isNan_iff] at h1; rcases h with h | h
    · exact absurd h1 h
    · exact h
  · rwa [isNan_iff] at h1
  · rwa [isNan_iff] at h1
  · rwa [isNan_iff] at h2

theorem le_fmax (a b : Fl K) : (a ≠ nan → a.ord ≤ (fmax a b).ord) ∧
    (b ≠ nan → b.ord ≤ (fmax a b).ord) := by
  unfold fmax
  split_ifs with h1 h2 h3
  · rw [isNan_iff] at h1
    exact ⟨fun h => absurd h1 h, fun _ => le_rfl⟩
  · rw [isNan_iff] at h2
    exact ⟨fun _ => le_rfl, fun h => absurd h2 h⟩
  · rw [isNan_iff] at h1 h2
    exact ⟨fun _ => le_rfl, fun _ => (le_iff_ord h2 h1).1 h3⟩
  · rw [isNan_iff] at h1 h2
    rw [le_iff_ord h2 h1] at h3
    exact ⟨fun _ => (not_le.1 h3).le, fun _ => le_rfl⟩

theorem foldl_fmax : ∀ (l : List (Fl K)) (a : Fl K),
    l.foldl fmax a ∈ a :: l ∧ ((∃ b ∈ a :: l, b ≠ nan) → l.foldl fmax a ≠ nan) ∧
      ∀ b ∈ a :: l, b ≠ nan → b.ord ≤ (l.foldl fmax a).ord
  | [], a => by simp
  | c :: l, a => by
    obtain ⟨h1, h2, h3⟩ := foldl_fmax l (fmax a c)
    rw [List.foldl_cons]
    refine ⟨?_, ?_, ?_⟩
    · rcases List.mem_cons.1 h1 with h | h
      · rw [h]; rcases fmax_cases a c with h | h <;> rw [h] <;> simp
      · simp [h]
    · rintro ⟨b, hb, hn⟩
      apply h2
      rcases List.mem_cons.1 hb with rfl | hb
      · exact ⟨fmax b c, by simp, fmax_nan _ _ (Or.inl hn)⟩
      · rcases List.mem_cons.1 hb with rfl | hb
        · exact ⟨fmax a b, by simp, fmax_nan _ _ (Or.inr hn)⟩
        · exact ⟨b, by simp [hb], hn⟩
    · intro b hb hn
      rcases List.mem_cons.1 hb with rfl | hb
      · exact ((le_fmax b c).1 hn).trans (h3 _ (by simp) (fmax_nan _ _ (Or.inl hn)))
      · rcases List.mem_cons.1 hb with rfl | hb
        · exact ((le_fmax a b).2 hn).trans (h3 _ (by simp) (fmax_nan _ _ (Or.inr hn)))
        · exact h3 b (by simp [hb]) hn

theorem scanMax_spec : ∀ (l : List (Fl K)) (b : Fl K) (i k : ℕ), b ≠ nan → (∀ a ∈ l, a ≠ nan) →
    (scanMax b i k l = i ∧ ∀ a ∈ l, a.ord ≤ b.ord) ∨
    ∃ t v, scanMax b i k l = k + t ∧ l[t]? = some v ∧ b.ord < v.ord ∧ (∀ a ∈ l, a.ord ≤ v.ord) ∧
      ∀ s < t, ∀ w, l[s]? = some w → w.ord < v.ord
  | [], b, i, k, _, _ => by left; simp [scanMax]
  | a :: l, b, i, k, hb, hl => by
    have ha := hl a (by simp)
    have hl' : ∀ c ∈ l, c ≠ nan := fun c hc => hl c (List.mem_cons_of_mem _ hc)
    rw [scanMax]
    split_ifs with h
    · rw [lt_iff_ord hb ha] at h
      right
      rcases scanMax_spec l a k (k + 1) ha hl' with ⟨h1, h2⟩ | ⟨t, v, h1, h2, h3, h4, h5⟩
      · refine ⟨0, a, by rw [h1]; rfl, rfl, h, ?_, fun s hs => absurd hs (Nat.not_lt_zero _)⟩
        intro c hc
        rcases List.mem_cons.1 hc with rfl | hc
        · exact le_rfl
        · exact h2 c hc
      · refine ⟨t + 1, v, by rw [h1]; omega, by simpa using h2, h.trans h3, ?_, ?_⟩
        · intro c hc
          rcases List.mem_cons.1 hc with rfl | hc
          · exact h3.le
          · exact h4 c hc
        · intro s hs w hw
          cases s with
          | zero => obtain rfl : a = w := by simpa using hw
                    exact h3
          | succ s => exact h5 s (by omega) w (by simpa using hw)
    · rw [lt_iff_ord hb ha, not_lt] at h
      rcases scanMax_spec l b i (k + 1) hb hl' with ⟨h1, h2⟩ | ⟨t, v, h1, h2, h3, h4, h5⟩
      · left
        refine ⟨h1, fun c hc => ?_⟩
        rcases List.mem_cons.1 hc with rfl | hc
        · exact h
        · exact h2 c hc
      · right
        refine ⟨t + 1, v, by rw [h1]; omega, by simpa using h2, h3, ?_, ?_⟩
        · intro c hc
          rcases List.mem_cons.1 hc with rfl | hc
          · exact h.trans h3.le
          · exact h4 c hc
        · intro s hs w hw
          cases s with
          | zero => obtain rfl : a = w := by simpa using hw
                    exact h.trans_lt h3
          | succ s => exact h5 s (by omega) w (by simpa using hw)

theorem ord_fill (a : Fl K) : (if a.isNan then ninf else a).ord = a.ord := by
  cases a <;> simp [isNan, ord]

theorem fill_ne (a : Fl K) : (if a.isNan then ninf else a) ≠ nan := by
  cases a <;> simp [isNan]

/-- The position found by `np.nanargmax` carries the largest value of the order in which NaN is at
the bottom, and it is the first such position. -/
theorem nanargmax_spec {l : List (Fl K)} {i : ℕ} (h : nanargmax l = some i) :
    (∃ b ∈ l, b ≠ nan) ∧ ∃ v, l[i]? = some v ∧ (∀ a ∈ l, a.ord ≤ v.ord) ∧
      ∀ s < i, ∀ w, l[s]? = some w → w.ord < v.ord := by
  rw [nanargmax] at h
  split_ifs at h with hn
  refine ⟨by simpa [isNan_iff] using hn, ?_⟩
  cases l with
  | nil => simp at hn
  | cons a l =>
    simp only [List.map_cons] at h
    have h := Option.some.inj h
    have hord : ∀ c ∈ l.map (fun a : Fl K => if a.isNan then ninf else a), c ≠ nan := by
      intro c hc
      obtain ⟨x, -, rfl⟩ := List.mem_map.1 hc
      exact fill_ne x
    rcases scanMax_spec _ _ 0 1 (fill_ne a) hord with ⟨h1, h2⟩ | ⟨t, v, h1, h2, h3, h4, h5⟩
    · rw [h1] at h
      subst h
      refine ⟨a, rfl, fun c hc => ?_, fun s hs => absurd hs (Nat.not_lt_zero _)⟩
      rcases List.mem_cons.1 hc with rfl | hc
      · exact le_rfl
      · have := h2 _ (List.mem_map_of_mem hc)
        rwa [ord_fill, ord_fill] at this
    · rw [h1] at h
      subst h
      rw [List.getElem?_map, Option.map_eq_some_iff] at h2
      obtain ⟨x, hx, rfl⟩ := h2
      rw [ord_fill, ord_fill] at h3
      refine ⟨x, by rw [Nat.add_comm]; simpa using hx, fun c hc => ?_, fun s hs w hw => ?_⟩
      · rcases List.mem_cons.1 hc with rfl | hc
        · exact h3.le
        · have := h4 _ (List.mem_map_of_mem hc)
          rwa [ord_fill, ord_fill] at this
      · cases s with
        | zero => obtain rfl : a = w := by simpa using hw
                  exact h3
        | succ s =>
          have := h5 s (by omega) (if w.isNan then ninf else w) (by
            rw [List.getElem?_map]
            have : l[s]? = some w := by simpa using hw
            rw [this]; rfl)
          rwa [ord_fill, ord_fill] at this

theorem nanargmax_none {l : List (Fl K)} : nanargmax l = none ↔ ∀ b ∈ l, b = nan := by
  rw [nanargmax]
  split_ifs with h
  · simpa [isNan_iff] using h
  · cases l with
    | nil => simp at h
    | cons a l =>
      simp only [List.map_cons]
      simpa [isNan_iff] using h

/-! ### The same for the minimum, by reflection -/

/-- Reflection (only used in proofs). -/
def mirror : Fl K → Fl Kᵒᵈ
  | nan => nan
  | ninf => pinf
  | pinf => ninf
  | fin q => fin (OrderDual.toDual q)

theorem mirror_inj {a b : Fl K} (h : mirror a = mirror b) : a = b := by
  cases a <;> cases b <;> simp_all [mirror]

theorem mirror_lt (a b : Fl K) : (mirror a).lt (mirror b) = b.lt a := by
  cases a <;> cases b <;> simp [mirror, lt]

theorem mirror_le (a b : Fl K) : (mirror a).le (mirror b) = b.le a := by
  cases a <;> cases b <;> simp [mirror, le]

theorem mirror_isNan (a : Fl K) : (mirror a).isNan = a.isNan := by cases a <;> rfl

theorem mirror_eq_nan {a : Fl K} : mirror a = nan ↔ a = nan := by cases a <;> simp [mirror]

theorem mirror_fmin (a b : Fl K) : mirror (fmin a b) = fmax (mirror a) (mirror b) := by
  unfold fmin fmax
  rw [mirror_isNan, mirror_isNan, mirror_le]
  split_ifs <;> rfl

theorem mirror_foldl : ∀ (l : List (Fl K)) (a : Fl K),
    mirror (l.foldl fmin a) = (l.map mirror).foldl fmax (mirror a)
  | [], a => rfl
  | b :: l, a => by
    rw [List.foldl_cons, mirror_foldl l, List.map_cons, List.foldl_cons, mirror_fmin]

theorem mirror_scan : ∀ (l : List (Fl K)) (b : Fl K) (i k : ℕ),
    scanMin b i k l = scanMax (mirror b) i k (l.map mirror)
  | [], b, i, k => rfl
  | a :: l, b, i, k => by
    rw [scanMin, List.map_cons, scanMax, mirror_lt, mirror_scan l, mirror_scan l]

theorem mirror_argmin (l : List (Fl K)) : nanargmin l = nanargmax (l.map mirror) := by
  rw [nanargmin, nanargmax]
  have h : (l.map mirror).all isNan = l.all isNan := by
    rw [List.all_map]; congr 1; funext a; exact mirror_isNan a
  rw [h]
  split_ifs
  · rfl
  · have hfill : (l.map mirror).map (fun a => if a.isNan then ninf else a) =
        (l.map fun a : Fl K => if a.isNan then pinf else a).map mirror := by
      rw [List.map_map, List.map_map]
      refine List.map_congr_left fun a _ => ?_
      simp only [Function.comp, mirror_isNan]
      split_ifs <;> rfl
    rw [hfill]
    cases l with
    | nil => rfl
    | cons a l => simp only [List.map_cons, mirror_scan]

theorem mirror_min2 (l : List (Fl K)) :
    (min2 l).map (fun p => (mirror p.1, p.2)) = max2 (l.map mirror) := by
  rw [min2, max2, mirror_argmin, Option.map_map]
  congr 1
  funext i
  simp only [Function.comp]
  cases l with
  | nil => rfl
  | cons a l => simp only [nanmin, nanmax, List.map_cons, mirror_foldl]

end Fl

open Fl

variable {K : Type} [LinearOrder K]

/-- **C106** (`max_`): the value is a number of the array and no number of the array is larger;
NaN entries do not matter.  If the value is not `-inf`, then the position is the first one that
carries it. -/
theorem C106_max {l : List (Fl K)} {v : Fl K} {i : ℕ} (h : max2 l = some (v, i)) :
    v ∈ l ∧ v ≠ nan ∧ (∀ b ∈ l, b ≠ nan → b.le v = true) ∧ i < l.length ∧
      (v ≠ ninf → l[i]? = some v ∧ ∀ j < i, l[j]? ≠ some v) := by
  rw [max2, Option.map_eq_some_iff] at h
  obtain ⟨j, hj, h⟩ := h
  obtain ⟨h1, rfl⟩ := Prod.mk.inj h
  obtain ⟨hex, w, hw, hmax, hfirst⟩ := nanargmax_spec hj
  cases l with
  | nil => simp at hw
  | cons a l =>
    obtain ⟨f1, f2, f3⟩ := foldl_fmax l a
    rw [nanmax] at h1
    rw [h1] at f1 f2 f3
    have hv := f2 hex
    refine ⟨f1, hv, fun b hb hn => (le_iff_ord hn hv).2 (f3 b hb hn), ?_, fun hne => ?_⟩
    · by_contra hlt
      rw [List.getElem?_eq_none (by omega)] at hw; cases hw
    · have hvw := hmax v f1
      have hwn : w ≠ nan := by
        rintro rfl
        have : v.ord = ⊥ := le_bot_iff.1 hvw
        exact hne (ord_inj hv (by simp) (this.trans rfl))
      have hwv := f3 w (List.mem_of_getElem? hw) hwn
      obtain rfl : v = w := ord_inj hv hwn (le_antisymm hvw hwv)
      exact ⟨hw, fun s hs hc => absurd (hfirst s hs v hc) (lt_irrefl _)⟩

/-- **C106** (`min_`): as `C106_max`, with the smallest number. -/
theorem C106_min {l : List (Fl K)} {v : Fl K} {i : ℕ} (h : min2 l = some (v, i)) :
    v ∈ l ∧ v ≠ nan ∧ (∀ b ∈ l, b ≠ nan → v.le b = true) ∧ i < l.length ∧
      (v ≠ pinf → l[i]? = some v ∧ ∀ j < i, l[j]? ≠ some v) := by
  have h' : max2 (l.map mirror) = some (mirror v, i) := by rw [← mirror_min2, h]; rfl
  obtain ⟨h1, h2, h3, h4, h5⟩ := C106_max h'
  have hg : ∀ j : ℕ, (l.map mirror)[j]? = some (mirror v) ↔ l[j]? = some v := by
    intro j
    rw [List.getElem?_map, Option.map_eq_some_iff]
    constructor
    · rintro ⟨x, hx, hxv⟩; rw [hx, mirror_inj hxv]
    · intro hx; exact ⟨v, hx, rfl⟩
  refine ⟨?_, fun hc => h2 (mirror_eq_nan.2 hc), fun b hb hn => ?_, by simpa using h4, fun hne => ?_⟩
  · obtain ⟨x, hx, hxv⟩ := List.mem_map.1 h1
    rwa [← mirror_inj hxv]
  · have := h3 (mirror b) (List.mem_map_of_mem hb) fun hc => hn (mirror_eq_nan.1 hc)
    rwa [Fl.mirror_le] at this
  · obtain ⟨g1, g2⟩ := h5 (by cases v <;> simp_all [mirror])
    exact ⟨(hg i).1 g1, fun j hj hc => g2 j hj ((hg j).2 hc)⟩

/-- With two results both functions raise exactly if every entry is NaN. -/
theorem C106_raise (l : List (Fl K)) :
    (max2 l = none ↔ ∀ b ∈ l, b = nan) ∧ (min2 l = none ↔ ∀ b ∈ l, b = nan) := by
  have h : ∀ {L : Type} [LinearOrder L] (l : List (Fl L)), max2 l = none ↔ ∀ b ∈ l, b = nan := by
    intro L _ l
    rw [max2, Option.map_eq_none_iff, nanargmax_none]
  refine ⟨h l, ?_⟩
  have h' := h (l.map mirror)
  rw [← mirror_min2, Option.map_eq_none_iff] at h'
  rw [h']
  simp [mirror_eq_nan]

/-- The position need not carry the value: for `[nan, -inf]` the value is `-inf` and the position
is that of the NaN. -/
theorem C106_position_false :
    ¬ ∀ (l : List (Fl ℚ)) (v : Fl ℚ) (i : ℕ), max2 l = some (v, i) → l[i]? = some v := by
  intro h
  have := h [nan, ninf] ninf 0 (by rfl)
  simp at this

/-- The selection of the best point (`argMin` of the interpolation-set model) is `min_` with two
results. -/
theorem C106_argMin {K : Type} [Field K] [LinearOrder K] [IsStrictOrderedRing K] (l : List K) :
    min2 (l.map Fl.fin) = (argMin l).map fun p => (Fl.fin p.2, p.1) := by
  rcases argMin_spec l with ⟨rfl, h⟩ | ⟨i, b, h, hi, hm, hs⟩
  · rfl
  rw [h, Option.map_some]
  rcases hr : min2 (l.map Fl.fin) with _ | ⟨v, j⟩
  · exfalso
    have := (C106_raise _).2.1 hr (Fl.fin b) (List.mem_map_of_mem (List.mem_of_getElem? hi))
    cases this
  obtain ⟨h1, h2, h3, h4, h5⟩ := C106_min hr
  obtain ⟨x, hx, rfl⟩ := List.mem_map.1 h1
  obtain ⟨g1, g2⟩ := h5 (by simp)
  have hjx : l[j]? = some x := by simpa using g1
  obtain rfl : x = b := by
    apply le_antisymm
    · simpa [Fl.le] using h3 (Fl.fin b) (List.mem_map_of_mem (List.mem_of_getElem? hi)) (by simp)
    · exact hm j x hjx
  obtain rfl : i = j := by
    rcases lt_trichotomy i j with hlt | he | hlt
    · exact absurd (by simpa using hi) (g2 i hlt)
    · exact he
    · exact absurd (hs j x hlt hjx) (lt_irrefl _)
  rfl

/-! ## Examples -/

/-- Two rows above a further row; an empty block in between does not matter. -/
example : concatenate [.d2 2 [[1, 2], [3, 4]], .d1 [], .d2 2 [[5, (6 : ℚ)]]] 0 =
    some (.d2 2 [[1, 2], [3, 4], [5, 6]]) := by rfl

example : ∃ c rows, concatenate [.d2 2 [[1, 2], [3, 4]], .d2 0 [[], []], .d2 1 [[7], [(8 : ℚ)]]] 1 =
    some (.d2 c rows) ∧ rows.length = 2 ∧ rows.getD 1 [] = [3, 4, 8] := by
  obtain ⟨c, rows, h, hl, hr, -⟩ := C105_side (n := 2)
    (ls := [.d2 2 [[1, 2], [3, 4]], .d2 0 [[], []], .d2 1 [[7], [(8 : ℚ)]]])
    (by simp [WF]) ⟨.d2 1 [[7], [8]], by simp, by simp [Spec.Filled, Spec.entries]⟩ (by simp)
  exact ⟨c, rows, h, hl, by rw [hr 1 (by omega)]; rfl⟩

/-- Blocks of different widths. -/
example : concatenate [.d2 2 [[1, 2]], .d2 1 [[(3 : ℚ)]]] 0 = none := by rfl

/-- `concatenate_([fY[i,:], zeros_(1, n+1)], axis=1)` (`bcdfo_computeP.py` L101) raises: the first
block has one dimension, the second has two. -/
example : concatenate [.d1 [4, 5], .d2 3 [[0, 0, (0 : ℚ)]]] 1 = none :=
  C105_mixed (by simp [WF]) (m := [4, 5]) (c := 3) (rows := [[0, 0, 0]]) (by simp) (by simp)
    (by simp) (by simp [Spec.Filled, Spec.entries])

example : find [false, true, false, true] none = some (.d2 1 [[1], [3]]) := by rfl
example : find [false, true, false, true] (some 1) = some (.d1 [1]) := by rfl
example : find [false, true, false, true] (some 3) = none := by rfl
example : find [false, false] (some 3) = some (.d1 []) := by rfl

example : max2 [nan, fin 2, fin 5, nan, fin (5 : ℚ)] = some (fin 5, 2) := by
  decide +kernel
example : min2 [nan, fin 7, ninf, pinf, (ninf : Fl ℚ)] = some (ninf, 2) := by
  decide +kernel
example : max2 [nan, (nan : Fl ℚ)] = none := by rfl

#print axioms C105_empty
#print axioms C105_vertical
#print axioms C105_vertical_iff
#print axioms C105_line
#print axioms C105_side
#print axioms C105_mixed
#print axioms C105_width_false
#print axioms C106_find
#print axioms C106_count
#print axioms C106_count_false
#print axioms C106_findIdx
#print axioms C106_max
#print axioms C106_min
#print axioms C106_raise
#print axioms C106_position_false
#print axioms C106_argMin

end Sqpdfo
