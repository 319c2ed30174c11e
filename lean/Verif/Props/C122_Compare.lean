import Verif.Model.Compare
import Mathlib.Tactic.Ring
import Mathlib.Tactic.Linarith
import Mathlib.Tactic.NormNum
import Mathlib.Tactic.FieldSimp

/-!
# C122: what `compare_array` accepts

`compare_array` (`runtime.py` L510-L537) decides nearly all assertions of the test suite.  For arrays with the same number of entries it returns `True` exactly if every pair
of entries is close (`Close`, stated without the model).  It ignores shapes, combines a single entry with all entries of the other array, and
measures the relative error with respect to its first argument only.
-/

namespace Sqpdfo
namespace Spec

/-- Two numbers agree: the same infinity, or finite numbers that differ by less than the absolute tolerance `a` and, unless one of them is
at most `a` in absolute value, by less than `r` times the first number.  (The first number is shifted by the smallest normal number `2 ^ (-1022)`.) -/
def Close {K : Type} [Field K] [LinearOrder K] (a r : K) (u v : Fl K) : Prop :=
  (u = .pinf ∧ v = .pinf) ∨ (u = .ninf ∧ v = .ninf) ∨
    ∃ p q, u = .fin p ∧ v = .fin q ∧ |p - q| < a ∧ (|p| ≤ a ∨ |q| ≤ a ∨ |p - q| < r * |p + 1 / 2 ^ 1022|)

/-- The numbers of an array in the order of `flat`, by position. -/
def entry {α : Type} (x : Arr α) (i : ℕ) : Option α :=
  match x with
  | .d1 l => l[i]?
  | .d2 c rows => (rows[i / c]?).bind fun row => row[i % c]?

/-- The number of entries of an array: the product of its dimensions. -/
def count {α : Type} : Arr α → ℕ
  | .d1 l => l.length
  | .d2 c rows => rows.length * c

end Spec

open Spec
variable {K : Type} [Field K] [LinearOrder K]

/-- The rows of an array, one after the other, are read by position. -/
theorem flatten_entry {α : Type} (c : ℕ) (rows : List (List α)) (h : ∀ r ∈ rows, r.length = c) (i : ℕ) :
    rows.flatten[i]? = (rows[i / c]?).bind fun row => row[i % c]? := by
  induction rows generalizing i with
  | nil => simp
  | cons r rows ih =>
    have hr : r.length = c := h r (by simp)
    have ih := ih (fun s hs => h s (by simp [hs]))
    rcases Nat.lt_or_ge i c with hi | hi
    · rw [List.flatten_cons, List.getElem?_append_left (by omega), Nat.div_eq_of_lt hi, Nat.mod_eq_of_lt hi]
      simp
    · rw [List.flatten_cons, List.getElem?_append_right (by omega), hr, ih]
      rcases Nat.eq_zero_or_pos c with rfl | hc
      · have : ∀ s ∈ r :: rows, s = [] := fun s hs => List.eq_nil_of_length_eq_zero (h s hs)
        simp only [Nat.div_zero, Nat.mod_zero, Nat.sub_zero]
        have hr0 : r = [] := this r (by simp)
        subst hr0
        cases rows with
        | nil => simp
        | cons s rows => have hs : s = [] := this s (by simp)
                         subst hs; simp
      · have e1 : i / c = (i - c) / c + 1 := by
          conv_lhs => rw [show i = (i - c) + c by omega]
          rw [Nat.add_div_right _ hc]
        have e2 : i % c = (i - c) % c := by
          conv_lhs => rw [show i = (i - c) + c by omega]
          rw [Nat.add_mod_right]
        rw [e1, e2]; simp

theorem flat_entry {α : Type} (x : Arr α) (hx : x.WF) (i : ℕ) : x.flat[i]? = entry x i := by
  cases x with
  | d1 l => rfl
  | d2 c rows => exact flatten_entry c rows hx i

theorem flat_count {α : Type} (x : Arr α) (hx : x.WF) : x.flat.length = count x := by
  cases x with
  | d1 l => rfl
  | d2 c rows =>
    show rows.flatten.length = rows.length * c
    have hx : ∀ r ∈ rows, r.length = c := hx
    induction rows with
    | nil => simp
    | cons r rows ih =>
      rw [List.flatten_cons, List.length_append, hx r (by simp), ih (fun s hs => hx s (by simp [hs])) (fun s hs => hx s (by simp [hs]))]
      simp; ring

theorem bcastWith_eq {α β γ : Type} (f : α → β → γ) {xs : List α} {ys : List β} (h : xs.length = ys.length) :
    bcastWith f xs ys = some (List.zipWith f xs ys) := by
  simp [bcastWith, h]

/-- The entries that `np.delete` leaves, for two arrays with the same number of entries. -/
theorem delAt_pair {α β : Type} (f : α → β → Bool) : ∀ {xs : List α} {ys : List β}, xs.length = ys.length →
    ∃ xs' ys', delAt xs (List.zipWith f xs ys) = some xs' ∧ delAt ys (List.zipWith f xs ys) = some ys' ∧ xs'.length = ys'.length ∧
      xs'.zip ys' = (xs.zip ys).filter fun p => !(f p.1 p.2)
  | [], [], _ => ⟨[], [], rfl, rfl, rfl, rfl⟩
  | x :: xs, y :: ys, h => by
    obtain ⟨xs', ys', h1, h2, h3, h4⟩ := delAt_pair f (xs := xs) (ys := ys) (by simpa using h)
    cases hf : f x y with
    | true => exact ⟨xs', ys', by simp [delAt, h1, hf], by simp [delAt, h2, hf], h3, by simp [hf, h4]⟩
    | false => exact ⟨x :: xs', y :: ys', by simp [delAt, h1, hf], by simp [delAt, h2, hf], by simp [h3], by simp [hf, h4]⟩

/-- The test of one pair of entries. -/
def pairTest (a r : K) (u v : Fl K) : Bool :=
  (u.sub v).absF.lt (.fin a) &&
    ((if u.absF.le (.fin a) || v.absF.le (.fin a) then Fl.fin 0 else (u.sub v).quot (u.add (.fin (1 / 2 ^ 1022)))).absF.lt (.fin r))

theorem compare_tail (a r : K) : ∀ {xs ys : List (Fl K)}, xs.length = ys.length →
    ((bcastWith Fl.sub xs ys).bind fun e =>
      (bcastWith Fl.quot e (xs.map fun u => u.add (.fin (1 / 2 ^ 1022)))).bind fun q =>
      (bcastWith (fun u v : Fl K => u.absF.le (.fin a) || v.absF.le (.fin a)) xs ys).map fun small =>
      (e.all fun u => u.absF.lt (.fin a)) && (List.zipWith (fun (b : Bool) u => if b then Fl.fin 0 else u) small q).all fun u => u.absF.lt (.fin r)) =
      some ((xs.zip ys).all fun p => pairTest a r p.1 p.2) := by
  intro xs ys h
  rw [bcastWith_eq _ h, Option.bind_some, bcastWith_eq _ (by simp [h]), Option.bind_some, bcastWith_eq _ h, Option.map_some]
  congr 1
  induction xs generalizing ys with
  | nil => cases ys <;> simp
  | cons x xs ih =>
    cases ys with
    | nil => simp at h
    | cons y ys =>
      have := ih (ys := ys) (by simpa using h)
      simp only [List.zipWith_cons_cons, List.map_cons, List.all_cons, List.zip_cons_cons]
      rw [← this, pairTest]
      simp only [Bool.and_assoc, Bool.and_left_comm]

theorem compare_flat (x y : Arr (Fl K)) (a r : K) (h : x.flat.length = y.flat.length) :
    compareArray x y a r = some ((x.flat.zip y.flat).all fun p => sameInf p.1 p.2 || pairTest a r p.1 p.2) := by
  obtain ⟨xs, ys, h1, h2, h3, h4⟩ := delAt_pair sameInf h
  unfold compareArray
  rw [bcastWith_eq _ h, Option.bind_some, h1, Option.bind_some, h2, Option.bind_some, compare_tail a r h3, h4]
  congr 1
  rw [List.all_filter]
  congr 1
  funext p
  cases sameInf p.1 p.2 <;> rfl

theorem quot_lt [IsStrictOrderedRing K] (e d r : K) : (((Fl.fin e).quot (.fin d)).absF.lt (.fin r) = true) ↔ |e| < r * |d| := by
  by_cases hd : d = 0
  · subst hd
    have : ¬ |e| < 0 := not_lt.2 (abs_nonneg e)
    simp only [Fl.quot, if_true, abs_zero, mul_zero, this, iff_false]
    split_ifs <;> simp [Fl.absF, Fl.lt]
  · have : 0 < |d| := abs_pos.2 hd
    simp only [Fl.quot, hd, if_false, Fl.absF, Fl.lt, decide_eq_true_eq, abs_div]
    exact div_lt_iff₀ this

theorem pair_close [IsStrictOrderedRing K] (a r : K) (hr : 0 < r) (u v : Fl K) :
    (sameInf u v || pairTest a r u v) = true ↔ Close a r u v := by
  by_cases hf : ∃ p q, u = .fin p ∧ v = .fin q
  · obtain ⟨p, q, rfl, rfl⟩ := hf
    have hc : Close a r (.fin p) (.fin q) ↔ |p - q| < a ∧ (|p| ≤ a ∨ |q| ≤ a ∨ |p - q| < r * |p + 1 / 2 ^ 1022|) := by
      simp [Close]
    have h1 : sameInf (Fl.fin p) (.fin q) = false := rfl
    have h2 : (Fl.fin p).sub (.fin q) = .fin (p - q) := by rw [sub_eq_add_neg]; rfl
    have h3 : (Fl.fin p).add (.fin (1 / 2 ^ 1022)) = .fin (p + 1 / 2 ^ 1022) := rfl
    have h4 : ((Fl.fin (p - q)).absF.lt (.fin a) = true) ↔ |p - q| < a := by simp [Fl.absF, Fl.lt]
    have h5 : (Fl.fin (0 : K)).absF.lt (.fin r) = true := by simp [Fl.absF, Fl.lt, hr]
    rw [hc, h1, Bool.false_or, pairTest, h2, h3, Bool.and_eq_true, h4]
    refine and_congr_right fun _ => ?_
    by_cases hp : |p| ≤ a
    · simp [show (Fl.fin p).absF.le (.fin a) = true by simpa [Fl.absF, Fl.le] using hp, h5, hp]
    by_cases hq : |q| ≤ a
    · simp [show (Fl.fin q).absF.le (.fin a) = true by simpa [Fl.absF, Fl.le] using hq, h5, hq]
    rw [show (Fl.fin p).absF.le (.fin a) = false by simpa [Fl.absF, Fl.le] using hp,
      show (Fl.fin q).absF.le (.fin a) = false by simpa [Fl.absF, Fl.le] using hq]
    simp only [Bool.or_self, Bool.false_eq_true, if_false, quot_lt, hp, hq, false_or]
  · cases u <;> cases v <;> first | exact absurd ⟨_, _, rfl, rfl⟩ hf | simp [sameInf, pairTest, Close, Fl.eq, Fl.sub, Fl.add, Fl.neg, Fl.absF, Fl.lt]

theorem all_zip_entry {α : Type} (t : α → α → Bool) {P : α → α → Prop} (ht : ∀ u v, t u v = true ↔ P u v) (xs ys : List α) :
    ((xs.zip ys).all fun p => t p.1 p.2) = true ↔ ∀ (i : ℕ) u v, xs[i]? = some u → ys[i]? = some v → P u v := by
  rw [List.all_eq_true]
  constructor
  · intro h i u v hu hv
    exact (ht u v).1 (h (u, v) (List.mem_of_getElem? (i := i) (List.getElem?_zip_eq_some.2 ⟨hu, hv⟩)))
  · rintro h ⟨u, v⟩ hp
    obtain ⟨i, hi⟩ := List.getElem?_of_mem hp
    obtain ⟨hu, hv⟩ := List.getElem?_zip_eq_some.1 hi
    exact (ht u v).2 (h i u v hu hv)

/-- **C122.** For two arrays with the same number of entries (whatever their shapes) `compare_array` raises no exception, and it returns `True` exactly if
all entries at the same position are close. -/
theorem C122_compare_partial [IsStrictOrderedRing K] (x y : Arr (Fl K)) (hx : x.WF) (hy : y.WF) (hc : count x = count y) (a r : K) (hr : 0 < r) :
    ∃ b, compareArray x y a r = some b ∧ (b = true ↔ ∀ i u v, entry x i = some u → entry y i = some v → Close a r u v) := by
  refine ⟨_, compare_flat x y a r (by rw [flat_count x hx, flat_count y hy, hc]), ?_⟩
  rw [all_zip_entry (fun u v => sameInf u v || pairTest a r u v) (pair_close a r hr)]
  simp only [flat_entry x hx, flat_entry y hy]

theorem C122_true [IsStrictOrderedRing K] {x y : Arr (Fl K)} (hx : x.WF) (hy : y.WF) (hc : count x = count y) {a r : K} (hr : 0 < r) :
    compareArray x y a r = some true ↔ ∀ i u v, entry x i = some u → entry y i = some v → Close a r u v := by
  obtain ⟨b, h1, h2⟩ := C122_compare_partial x y hx hy hc a r hr
  rw [h1, ← h2]; simp

/-- An array is close to itself exactly if it contains no NaN.  (The absolute tolerance must not be below the smallest normal number.) -/
theorem C122_self [IsStrictOrderedRing K] (x : Arr (Fl K)) (hx : x.WF) (a r : K) (ha : 1 / 2 ^ 1022 ≤ a) (hr : 0 < r) :
    compareArray x x a r = some true ↔ ∀ i, entry x i ≠ some .nan := by
  rw [C122_true hx hx rfl hr]
  have ht : (0 : K) < 1 / 2 ^ 1022 := by positivity
  constructor
  · intro h i hi
    rcases h i _ _ hi hi with h | h | ⟨p, q, h, _⟩
    · exact absurd h.1 (by simp)
    · exact absurd h.1 (by simp)
    · exact absurd h (by simp)
  · intro h i u v hu hv
    obtain rfl : u = v := Option.some.inj (hu.symm.trans hv)
    cases u with
    | nan => exact absurd hu (h i)
    | pinf => exact Or.inl ⟨rfl, rfl⟩
    | ninf => exact Or.inr (Or.inl ⟨rfl, rfl⟩)
    | fin p =>
      refine Or.inr (Or.inr ⟨p, p, rfl, rfl, by simpa using ht.trans_le ha, ?_⟩)
      by_cases hp : |p| ≤ a
      · exact Or.inl hp
      · refine Or.inr (Or.inr ?_)
        rw [sub_self, abs_zero]
        refine mul_pos hr (abs_pos.2 fun h0 => hp ?_)
        rw [eq_neg_of_add_eq_zero_left h0, abs_neg, abs_of_pos ht]
        exact ha

/-- Larger tolerances accept more. -/
theorem C122_looser [IsStrictOrderedRing K] (x y : Arr (Fl K)) (hx : x.WF) (hy : y.WF) (hc : count x = count y) (a a' r r' : K) (hr : 0 < r)
    (haa : a ≤ a') (hrr : r ≤ r') (h : compareArray x y a r = some true) : compareArray x y a' r' = some true := by
  rw [C122_true hx hy hc hr] at h
  rw [C122_true hx hy hc (hr.trans_le hrr)]
  intro i u v hu hv
  rcases h i u v hu hv with h | h | ⟨p, q, h1, h2, h3, h4⟩
  · exact Or.inl h
  · exact Or.inr (Or.inl h)
  · refine Or.inr (Or.inr ⟨p, q, h1, h2, h3.trans_le haa, ?_⟩)
    rcases h4 with h4 | h4 | h4
    · exact Or.inl (h4.trans haa)
    · exact Or.inr (Or.inl (h4.trans haa))
    · exact Or.inr (Or.inr (h4.trans_le (mul_le_mul_of_nonneg_right hrr (abs_nonneg _))))

/-- Exchanging the arrays needs the relative tolerance `r / (1 - r)` (see `C122_symmetric_false`). -/
theorem C122_swap [IsStrictOrderedRing K] (x y : Arr (Fl K)) (hx : x.WF) (hy : y.WF) (hc : count x = count y) (a r : K) (hr : 0 < r) (hr1 : r < 1)
    (h : compareArray x y a r = some true) : compareArray y x a (r / (1 - r)) = some true := by
  have h1r : 0 < 1 - r := sub_pos.2 hr1
  rw [C122_true hx hy hc hr] at h
  rw [C122_true hy hx hc.symm (div_pos hr h1r)]
  intro i u v hu hv
  rcases h i v u hv hu with h | h | ⟨p, q, h1, h2, h3, h4⟩
  · exact Or.inl ⟨h.2, h.1⟩
  · exact Or.inr (Or.inl ⟨h.2, h.1⟩)
  · refine Or.inr (Or.inr ⟨q, p, h2, h1, by rwa [abs_sub_comm], ?_⟩)
    rcases h4 with h4 | h4 | h4
    · exact Or.inr (Or.inl h4)
    · exact Or.inl h4
    · refine Or.inr (Or.inr ?_)
      generalize (1 : K) / 2 ^ 1022 = t at h4 ⊢
      have hpq : |p + t| ≤ |p - q| + |q + t| := by
        have := abs_add_le (p - q) (q + t)
        rwa [show p - q + (q + t) = p + t by ring] at this
      rw [abs_sub_comm q p, div_mul_eq_mul_div, lt_div_iff₀ h1r]
      nlinarith [mul_le_mul_of_nonneg_left hpq hr.le]

/-- Numbers of entries that differ and are not 1 raise an exception. -/
theorem C122_raises (x y : Arr (Fl K)) (hx : x.WF) (hy : y.WF) (a r : K) (hc : count x ≠ count y) (hx1 : count x ≠ 1) (hy1 : count y ≠ 1) :
    compareArray x y a r = none := by
  rw [← flat_count x hx, ← flat_count y hy] at hc
  rw [← flat_count x hx] at hx1
  rw [← flat_count y hy] at hy1
  have : bcastWith sameInf x.flat y.flat = none := by
    generalize x.flat = xs at hc hx1 ⊢
    generalize y.flat = ys at hc hy1 ⊢
    unfold bcastWith
    rw [if_neg hc]
    match xs, ys with
    | [_], _ => exact absurd rfl hx1
    | _, [_] => exact absurd rfl hy1
    | [], [] => exact absurd rfl hc
    | [], _ :: _ :: _ => rfl
    | _ :: _ :: _, [] => rfl
    | _ :: _ :: _, _ :: _ :: _ => rfl
  rw [compareArray, this]; rfl

theorem delAt_false {α : Type} : ∀ (l : List α) (m : List Bool), (∀ b ∈ m, b = false) → delAt l m = some l
  | l, [], _ => by cases l <;> rfl
  | [], b :: m, h => by
    have h1 : b = false := h b (by simp)
    have h2 : m.any id = false := by
      rw [List.any_eq_false]; intro c hc; simp [h c (by simp [hc])]
    simp [delAt, h1, h2]
  | u :: l, b :: m, h => by
    rw [delAt, delAt_false l m (fun c hc => h c (by simp [hc])), h b (by simp)]; rfl

theorem bcastWith_single {α β γ : Type} (f : α → β → γ) (xs : List α) (y : β) : bcastWith f xs [y] = some (xs.map (f · y)) := by
  match xs with
  | [] => rfl
  | [x] => rfl
  | x :: x' :: xs => rfl

theorem bcastWith_replicate {α β γ : Type} (f : α → β → γ) (xs : List α) (y : β) :
    bcastWith f xs (List.replicate xs.length y) = some (xs.map (f · y)) := by
  rw [bcastWith_eq _ (by simp)]
  congr 1
  induction xs with
  | nil => rfl
  | cons x xs ih => simp only [List.length_cons, List.replicate_succ, List.zipWith_cons_cons, ih, List.map_cons]

/-- A single finite number in the second array stands for all entries: the result is that of the array of the same length filled with it. -/
theorem C122_single (x : Arr (Fl K)) (hx : x.WF) (v a r : K) :
    compareArray x (.d1 [.fin v]) a r = compareArray x (.d1 (List.replicate (count x) (.fin v))) a r := by
  rw [← flat_count x hx]
  have hm : ∀ b ∈ x.flat.map (fun u => sameInf u (Fl.fin v)), b = false := by
    intro b hb
    obtain ⟨u, _, rfl⟩ := List.mem_map.1 hb
    cases u <;> rfl
  have f1 : (Arr.d1 [Fl.fin v]).flat = [.fin v] := rfl
  have f2 : (Arr.d1 (List.replicate x.flat.length (Fl.fin v))).flat = List.replicate x.flat.length (.fin v) := rfl
  unfold compareArray
  rw [f1, f2, bcastWith_single, bcastWith_replicate, Option.bind_some, Option.bind_some, delAt_false _ _ hm, Option.bind_some, Option.bind_some,
    delAt_false _ _ hm, delAt_false _ _ hm, Option.bind_some, Option.bind_some, bcastWith_single, bcastWith_replicate, bcastWith_single, bcastWith_replicate]

/-- The claim for all arrays is false: a result `True` does not mean that the arrays have the same number of entries, or that some pair of
entries was compared at all. -/
theorem C122_shape_false :
    ¬ ∀ (x y : Arr (Fl ℚ)) (a r : ℚ), x.WF → y.WF → 0 < a → 0 < r → compareArray x y a r = some true → count x = count y := by
  intro h
  exact absurd (h (.d1 []) (.d1 [.fin 5]) 1 1 trivial trivial (by norm_num) (by norm_num) (by decide +kernel)) (by decide)

/-- With a common infinity in front, everything else in the longer array is ignored or the call raises, depending on the position. -/
theorem C122_infinite_false :
    compareArray (K := ℚ) (.d1 [.pinf, .fin 7]) (.d1 [.pinf]) (1 / 10 ^ 9) (1 / 10 ^ 9) = some true ∧
      compareArray (K := ℚ) (.d1 [.fin 7, .pinf]) (.d1 [.pinf]) (1 / 10 ^ 9) (1 / 10 ^ 9) = none := by
  decide +kernel

/-- The shape does not count: a matrix is accepted as equal to another matrix with other rows. -/
theorem C122_transposed_false :
    ¬ ∀ (x y : Arr (Fl ℚ)) (a r : ℚ), x.WF → y.WF → 0 < a → 0 < r → compareArray x y a r = some true → x.shape = y.shape := by
  intro h
  exact absurd (h (.d2 3 [[.fin 1, .fin 2, .fin 3], [.fin 4, .fin 5, .fin 6]]) (.d2 2 [[.fin 1, .fin 2], [.fin 3, .fin 4], [.fin 5, .fin 6]]) 1 1
    (by simp [Arr.WF]) (by simp [Arr.WF]) (by norm_num) (by norm_num) (by decide +kernel)) (by decide)

/-- The order of the two arrays counts, since the relative error is measured with respect to the first one. -/
theorem C122_symmetric_false :
    ¬ ∀ (x y : Arr (Fl ℚ)) (a r : ℚ), x.WF → y.WF → count x = count y → 0 < a → 0 < r → compareArray x y a r = compareArray y x a r := by
  intro h
  exact absurd (h (.d1 [.fin 3]) (.d1 [.fin 4]) 2 (3 / 10) trivial trivial rfl (by norm_num) (by norm_num)) (by decide +kernel)

/-! ### Cases that meet the hypotheses -/

/-- Two matrices with an infinite, a small and a large entry. -/
def cmpA : Arr (Fl ℚ) := .d2 2 [[.pinf, .fin 1000], [.fin (1 / 10 ^ 7), .ninf]]
/-- The same up to rounding. -/
def cmpB : Arr (Fl ℚ) := .d2 2 [[.pinf, .fin (1000 + 1 / 10 ^ 7)], [.fin 0, .ninf]]

example : cmpA.WF ∧ cmpB.WF ∧ count cmpA = count cmpB ∧ compareArray cmpA cmpB (1 / 10 ^ 6) (1 / 10 ^ 9) = some true ∧
    compareArray cmpA cmpB (1 / 10 ^ 6) (1 / 10 ^ 11) = some false ∧ compareArray cmpA cmpB (1 / 10 ^ 7) (1 / 10 ^ 9) = some false := by
  refine ⟨by simp [cmpA, Arr.WF], by simp [cmpB, Arr.WF], rfl, ?_⟩
  decide +kernel

example : compareArray cmpB cmpA (1 / 10 ^ 6) (1 / 10 ^ 9 / (1 - 1 / 10 ^ 9)) = some true :=
  C122_swap cmpA cmpB (by simp [cmpA, Arr.WF]) (by simp [cmpB, Arr.WF]) rfl _ _ (by norm_num) (by norm_num) (by decide +kernel)

example : compareArray cmpA cmpB 1 1 = some true :=
  C122_looser cmpA cmpB (by simp [cmpA, Arr.WF]) (by simp [cmpB, Arr.WF]) rfl (1 / 10 ^ 6) 1 (1 / 10 ^ 9) 1 (by norm_num) (by norm_num) (by norm_num) (by decide +kernel)

example : compareArray cmpA cmpA (1 / 10 ^ 9) (1 / 10 ^ 9) = some true ∧ compareArray (K := ℚ) (.d1 [.nan]) (.d1 [.nan]) 1 1 = some false := by
  decide +kernel

example : compareArray (.d1 [.fin 1, .fin 1, .fin 1]) (.d1 [.fin 1]) (1 / 10) (1 / 10 : ℚ) = some true := by
  rw [C122_single (.d1 [.fin 1, .fin 1, .fin 1]) trivial]
  decide +kernel

example : compareArray (K := ℚ) (.d1 [.fin 1, .fin 1]) (.d1 []) 1 1 = none :=
  C122_raises (.d1 [.fin 1, .fin 1]) (.d1 []) trivial trivial _ _ (by decide) (by decide) (by decide)

#print axioms C122_compare_partial
#print axioms C122_true
#print axioms C122_self
#print axioms C122_looser
#print axioms C122_swap
#print axioms C122_raises
#print axioms C122_single
#print axioms C122_shape_false
#print axioms C122_infinite_false
#print axioms C122_transposed_false
#print axioms C122_symmetric_false

end Sqpdfo
