import Verif.Lemmas.InterpSet
import Mathlib.Tactic.NormNum
import Mathlib.Data.List.Perm.Subperm
import Mathlib.Algebra.Order.Ring.Rat

/-! # C24 - C27: swapping, selecting, including and repairing interpolation points -/

set_option linter.unusedSectionVars false

namespace Sqpdfo
open Spec
variable {P C F K : Type}

/-- The interpolation data have `p` entries each; the constraint arrays may be empty. -/
structure Sized (p : ℕ) (s : IntSet P C F K) : Prop where
  Y : s.Y.length = p
  ind : s.ind.length = p
  fY : s.fY.length = p
  ciY : s.ciY = [] ∨ s.ciY.length = p
  ceY : s.ceY = [] ∨ s.ceY.length = p

/-- C24: for valid positions the swap succeeds, exchanges exactly the two positions in all
five arrays, rebuilds the factorisation for the new set, and a second swap (in either
argument order) restores the original data. -/
theorem C24_swap [DecidableEq C] (build : List P → F) (s : IntSet P C F K) (p i j : ℕ)
    (hs : Sized p s) (hi : i < p) (hj : j < p) :
    ∃ s', swapInY build i j s = some s' ∧ Sized p s' ∧
      Exchanged s.Y s'.Y i j ∧ Exchanged s.ind s'.ind i j ∧ Exchanged s.fY s'.fY i j ∧
      Exchanged s.ciY s'.ciY i j ∧ Exchanged s.ceY s'.ceY i j ∧
      (i ≠ j → s'.fac = build s'.Y) ∧ swapInY build j i s = some s' ∧
      (s.fac = build s.Y → swapInY build i j s' = some s ∧ swapInY build j i s' = some s) := by
  by_cases hij : i = j
  · subst hij
    exact ⟨s, by simp [swapInY], hs, Exchanged.refl _ _, Exchanged.refl _ _, Exchanged.refl _ _, Exchanged.refl _ _, Exchanged.refl _ _,
      fun h => absurd rfl h, by simp [swapInY], fun _ => by simp [swapInY]⟩
  -- the ordered pair
  have key : ∀ a b : ℕ, a < b → a < p → b < p → ∃ s', swapInY build a b s = some s' ∧
      swapInY build b a s = some s' ∧ Sized p s' ∧
      Exchanged s.Y s'.Y a b ∧ Exchanged s.ind s'.ind a b ∧ Exchanged s.fY s'.fY a b ∧
      Exchanged s.ciY s'.ciY a b ∧ Exchanged s.ceY s'.ceY a b ∧ s'.fac = build s'.Y ∧
      (s.fac = build s.Y → swapInY build a b s' = some s ∧ swapInY build b a s' = some s) := by
    intro a b hab ha hb
    obtain ⟨Y', e1, x1⟩ := swapL_some s.Y (by rw [hs.Y]; exact ha) (by rw [hs.Y]; exact hb)
    obtain ⟨I', e2, x2⟩ := swapL_some s.ind (by rw [hs.ind]; exact ha) (by rw [hs.ind]; exact hb)
    obtain ⟨f', e3, x3⟩ := swapL_some s.fY (by rw [hs.fY]; exact ha) (by rw [hs.fY]; exact hb)
    obtain ⟨ci', e4, x4, l4⟩ := swapOpt_some s.ciY ha hb hs.ciY
    obtain ⟨ce', e5, x5, l5⟩ := swapOpt_some s.ceY ha hb hs.ceY
    have hne : ¬ a = b := by omega
    have hne' : ¬ b = a := by omega
    have hgt : ¬ a > b := by omega
    have hgt' : b > a := by omega
    refine ⟨⟨Y', I', f', ci', ce', build Y'⟩, ?_, ?_,
      ⟨x1.1.trans hs.Y, x2.1.trans hs.ind, x3.1.trans hs.fY, l4, l5⟩, x1, x2, x3, x4, x5, rfl, ?_⟩
    · simp [swapInY, hne, hgt, e1, e2, e3, e4, e5]
    · simp [swapInY, hne', hgt', e1, e2, e3, e4, e5]
    · intro hf
      have b1 := swapL_eq (by rw [x1.1, hs.Y]; exact ha) (by rw [x1.1, hs.Y]; exact hb)
        (Exchanged.symm x1)
      have b2 := swapL_eq (by rw [x2.1, hs.ind]; exact ha) (by rw [x2.1, hs.ind]; exact hb)
        (Exchanged.symm x2)
      have b3 := swapL_eq (by rw [x3.1, hs.fY]; exact ha) (by rw [x3.1, hs.fY]; exact hb)
        (Exchanged.symm x3)
      have b4 := swapOpt_eq ha hb l4 (Exchanged.symm x4)
      have b5 := swapOpt_eq ha hb l5 (Exchanged.symm x5)
      constructor
      · simp [swapInY, hne, hgt, b1, b2, b3, b4, b5, ← hf]
      · simp [swapInY, hne', hgt', b1, b2, b3, b4, b5, ← hf]
  rcases Nat.lt_or_gt_of_ne hij with h | h
  · obtain ⟨s', a1, a2, a3, a4, a5, a6, a7, a8, a9, a10⟩ := key i j h hi hj
    exact ⟨s', a1, a3, a4, a5, a6, a7, a8, fun _ => a9, a2, a10⟩
  · obtain ⟨s', a1, a2, a3, a4, a5, a6, a7, a8, a9, a10⟩ := key j i h hj hi
    exact ⟨s', a2, a3, Exchanged.comm a4, Exchanged.comm a5, Exchanged.comm a6,
      Exchanged.comm a7, Exchanged.comm a8, fun _ => a9, a1, fun hf => (a10 hf).symm⟩

/-- A concrete instance of C24. -/
def exSet : IntSet ℕ (List ℕ) (List ℕ) ℚ :=
  ⟨[10, 20, 30], [4, 7, 2], [1, 2, 3], [], [[1], [0], [5]], [10, 20, 30]⟩

example : Sized 3 exSet := ⟨rfl, rfl, rfl, Or.inl rfl, Or.inr rfl⟩

example : swapInY id 2 0 exSet =
    some ⟨[30, 20, 10], [2, 7, 4], [3, 2, 1], [], [[5], [0], [1]], [30, 20, 10]⟩ := by
  decide +kernel

section order
variable [Field K] [LinearOrder K] [IsStrictOrderedRing K]

/-- The position `b` of the point that becomes the base point. -/
def newBase (choice : Option ℕ) : ℕ := choice.getD 0

/-- C25, the part that always holds (with the merit values the code computes): the new base
point is the old one or a point that passed the bounds test and has a strictly smaller merit
value; all data are exchanged consistently; `info.f` is the recorded value of the new base
point, and so are `fx` and `i_xbest` if the base point changed. -/
theorem C25_never_worse_partial [DecidableEq C] (build : List (List K) → F) (xl xu : List K)
    (merit : List K) (t : SmallfSt (List K) C F K) (p : ℕ) (hp : 0 < p) (hs : Sized p t.s)
    (hm : merit.length = p) :
    ∃ b t', b = newBase (smallfChoice merit (indInside xl xu t.s.Y)) ∧ b < p ∧
      findSmallf build (smallfChoice merit (indInside xl xu t.s.Y)) t = some t' ∧
      Sized p t'.s ∧
      Exchanged t.s.Y t'.s.Y 0 b ∧ Exchanged t.s.ind t'.s.ind 0 b ∧
      Exchanged t.s.fY t'.s.fY 0 b ∧ Exchanged t.s.ciY t'.s.ciY 0 b ∧
      Exchanged t.s.ceY t'.s.ceY 0 b ∧
      (∀ m m0, merit[b]? = some m → merit[0]? = some m0 → m ≤ m0) ∧
      t.s.fY[b]? = some t'.infoF ∧ t'.s.fY[0]? = some t'.infoF ∧
      (b = 0 → t'.s = t.s ∧ t'.fx = t.fx ∧ t'.ixbest = t.ixbest) ∧
      (b ≠ 0 → t'.fx = t'.infoF ∧ t.s.ind[b]? = some t'.ixbest ∧
        ∃ m m0, merit[b]? = some m ∧ merit[0]? = some m0 ∧ m < m0) := by
  obtain ⟨hsome, -⟩ := smallfChoice_spec merit t.s.Y xl xu (by rw [hm, hs.Y])
  cases hc : smallfChoice merit (indInside xl xu t.s.Y) with
  | none =>
    have hf : 0 < t.s.fY.length := by rw [hs.fY]; exact hp
    refine ⟨0, { t with infoF := t.s.fY[0] }, rfl, hp, ?_, hs, Exchanged.refl _ _, Exchanged.refl _ _, Exchanged.refl _ _,
      Exchanged.refl _ _, Exchanged.refl _ _, ?_, ?_, ?_, ?_, ?_⟩
    · simp [findSmallf, List.getElem?_eq_getElem hf]
    · intro m m0 h h'; rw [h] at h'; cases h'; exact le_refl _
    · simp [List.getElem?_eq_getElem hf]
    · simp [List.getElem?_eq_getElem hf]
    · intro _; exact ⟨rfl, rfl, rfl⟩
    · intro h; exact absurd rfl h
  | some b =>
    obtain ⟨-, hb0, ⟨y, hy, -⟩, m, m0, hm1, hm2, hlt, -⟩ := hsome b hc
    have hbp : b < p := by
      rw [← hs.Y]; exact (List.getElem?_eq_some_iff.1 hy).1
    obtain ⟨s', e, hs', x1, x2, x3, x4, x5, -⟩ := C24_swap build t.s p 0 b hs hp hbp
    have hf : 0 < s'.fY.length := by rw [hs'.fY]; exact hp
    have hi : 0 < s'.ind.length := by rw [hs'.ind]; exact hp
    have g1 : t.s.fY[b]? = some s'.fY[0] := by
      have := x3.2 0
      rw [Equiv.swap_apply_left, List.getElem?_eq_getElem hf] at this
      exact this.symm
    have g2 : t.s.ind[b]? = some s'.ind[0] := by
      have := x2.2 0
      rw [Equiv.swap_apply_left, List.getElem?_eq_getElem hi] at this
      exact this.symm
    refine ⟨b, ⟨s', s'.fY[0], s'.ind[0], s'.fY[0]⟩, rfl, hbp, ?_, hs', x1, x2, x3, x4, x5, ?_,
      g1, List.getElem?_eq_getElem hf, fun h => absurd h hb0, fun _ => ⟨rfl, g2, m, m0, hm1, hm2, hlt⟩⟩
    · simp [findSmallf, e, List.getElem?_eq_getElem hf, List.getElem?_eq_getElem hi]
    · intro a a0 ha ha0
      rw [hm1] at ha; rw [hm2] at ha0; cases ha; cases ha0; exact hlt.le

/-- C25, full statement: *the new base point has the least merit value `f + sigma*‖ce‖` of
all points within the bounds*.  False in general (the three negations below).  Proved
(`_partial`): it holds if all variables have the same bounds, `sigma` is an integer, the
constraint values do not all vanish unless their norms do, and the second point is not the
unique way to improve (if it is better than the base point then another point inside is
strictly better than it). -/
theorem C25_least_merit_partial (trunc : K → K) (sigma : K) (anyCe : Bool) (n : ℕ) (hn : 0 < n)
    (l u : K) (Y : List (List K)) (fY nrmCe : List K)
    (hY : ∀ y ∈ Y, y.length = n) (hf : fY.length = Y.length) (hce : nrmCe.length = Y.length)
    (hsig : trunc sigma = sigma) (hany : anyCe = false → ∀ c ∈ nrmCe, c = 0)
    (merit : List K) (hmerit : merit = List.zipWith (fun f c => f + sigma * c) fY nrmCe)
    (h1 : ∀ y m1 m0, Y[1]? = some y → InBox (List.replicate n l) (List.replicate n u) y →
      merit[1]? = some m1 → merit[0]? = some m0 → m1 < m0 →
      ∃ (i : ℕ) (y' : List K) (m' : K), Y[i]? = some y' ∧ InBox (List.replicate n l) (List.replicate n u) y' ∧
        merit[i]? = some m' ∧ m' < m1) :
    ∀ b, b = newBase (smallfChoice (meritY trunc sigma anyCe fY nrmCe)
        (indInside (List.replicate n l) (List.replicate n u) Y)) →
      ∀ (i : ℕ) (y : List K) (m mb : K), Y[i]? = some y → InBox (List.replicate n l) (List.replicate n u) y →
        merit[i]? = some m → merit[b]? = some mb → mb ≤ m := by
  intro b hb i y m mb hy hin hmi hmb
  have hmer : meritY trunc sigma anyCe fY nrmCe = merit := by
    rw [hmerit, meritY, hsig]
    cases anyCe with
    | true => rfl
    | false =>
      have : nrmCe.map (fun _ => (0 : K)) = nrmCe := by
        conv_rhs => rw [← List.map_id nrmCe]
        apply List.map_congr_left
        intro c hc; exact (hany rfl c hc).symm
      simp [this]
  have hlen : merit.length = Y.length := by rw [hmerit]; simp [hf, hce]
  rw [hmer] at hb
  have hI : ∀ (i : ℕ) (y : List K), Y[i]? = some y →
      InBox (List.replicate n l) (List.replicate n u) y →
      insideTest (List.replicate n l) (List.replicate n u) y = true := fun i y hy h =>
    (insideTest_replicate hn l u y (hY y (List.mem_of_getElem? hy))).2 h
  have hI' : ∀ (i : ℕ) (y : List K), Y[i]? = some y →
      insideTest (List.replicate n l) (List.replicate n u) y = true →
      InBox (List.replicate n l) (List.replicate n u) y := fun i y hy h =>
    (insideTest_replicate hn l u y (hY y (List.mem_of_getElem? hy))).1 h
  obtain ⟨hs, hno⟩ := smallfChoice_spec merit Y (List.replicate n l) (List.replicate n u) hlen
  cases hc : smallfChoice merit (indInside (List.replicate n l) (List.replicate n u) Y) with
  | some b' =>
    rw [hc] at hb
    simp only [newBase, Option.getD_some] at hb
    subst hb
    obtain ⟨-, -, -, m', m0, e1, -, -, hall⟩ := hs b hc
    rw [e1] at hmb; cases hmb
    exact hall i m ⟨y, hy, hI i y hy hin⟩ hmi
  | none =>
    rw [hc] at hb
    simp only [newBase, Option.getD_none] at hb
    subst hb
    rcases hno hc with h | ⟨⟨y1, hy1, hin1⟩, m1, m0, e1, e2, hlt, hall⟩
    · exact h mb i m hmb ⟨y, hy, hI i y hy hin⟩ hmi
    · exfalso
      obtain ⟨k, y', m', a1, a2, a3, a4⟩ := h1 y1 m1 m0 hy1 (hI' 1 y1 hy1 hin1) e1 e2 hlt
      exact absurd (hall k m' ⟨y', a1, hI k y' a1 a2⟩ a3) (not_le.2 a4)

/-- The truncation `int` for rational numbers. -/
def ratInt (q : ℚ) : ℚ := (Int.tdiv q.num q.den : ℤ)

/-- Negation of C25 (i): the second point is never selected, although it has the least merit
value and lies within the bounds. -/
theorem C25_second_point_ignored :
    let Y : List (List ℚ) := [[0], [1], [2]]
    let fY : List ℚ := [5, 1, 7]
    newBase (smallfChoice (meritY ratInt 1 false fY [0, 0, 0]) (indInside [-10] [10] Y)) = 0 ∧
    (∀ y ∈ Y, InBox [-10] [10] y) := by
  refine ⟨by decide +kernel, ?_⟩
  intro y hy
  simp only [List.mem_cons, List.not_mem_nil, or_false] at hy
  have : ∀ v : ℚ, -10 ≤ v → v ≤ 10 → InBox [-10] [10] [v] := by
    intro v h1 h2
    refine ⟨rfl, rfl, ?_⟩
    intro k l u w hl hu hw
    cases k with
    | zero => simp at hl hu hw; subst hl hu hw; exact ⟨h1, h2⟩
    | succ k => simp at hl
  rcases hy with rfl | rfl | rfl <;> exact this _ (by norm_num) (by norm_num)

/-- Negation of C25 (ii): with different bounds per variable, a point within its bounds (here
every point of the box `[0,1] × [2,3]`, in particular the third one, the best) is discarded. -/
theorem C25_bounds_mixed :
    let Y : List (List ℚ) := [[1, 2], [0, 2], [1 / 2, 5 / 2]]
    newBase (smallfChoice (meritY ratInt 1 false [5, 6, 1] [0, 0, 0])
      (indInside [0, 2] [1, 3] Y)) = 0 ∧
    InBox [0, 2] [1, 3] [1 / 2, (5 / 2 : ℚ)] := by
  refine ⟨by decide +kernel, rfl, rfl, ?_⟩
  intro k l u w hl hu hw
  match k with
  | 0 => simp at hl hu hw; subst hl hu hw; norm_num
  | 1 => simp at hl hu hw; subst hl hu hw; norm_num
  | k + 2 => simp at hl

/-- Negation of C25 (iii): the penalty 3/2 is truncated to 1; the new base point has a larger
merit value `f + 3/2 ‖ce‖` than the old one. -/
theorem C25_penalty_truncated :
    let Y : List (List ℚ) := [[0], [1], [2]]
    let fY : List ℚ := [1, 5, 0]
    let nrm : List ℚ := [0, 0, 9 / 10]
    newBase (smallfChoice (meritY ratInt (3 / 2) true fY nrm) (indInside [-10] [10] Y)) = 2 ∧
    (1 : ℚ) + 3 / 2 * 0 < 0 + 3 / 2 * (9 / 10) := by
  refine ⟨by decide +kernel, by norm_num⟩

/-- A case that meets the hypotheses of `C25_least_merit_partial` with a change of base. -/
example : newBase (smallfChoice (meritY ratInt 2 true [3, 9, 1, 2] [0, 1, 1 / 4, 1])
    (indInside [-10, -10] [10, 10] [[0, 0], [1, 0], [0, 1], [2, 2]])) = 2 := by decide +kernel

/-! ### C26 -/

/-- C26: the inclusion of a new point.  `crit j` is the value of the selection criterion for
position `j`. Either a position is reported, which is a candidate, whose Lagrange polynomial
exceeds the threshold at the new point, and which maximises the (positive) criterion among
all such candidates, and exactly this point is replaced; or nothing is changed, and then no
candidate above the threshold has a positive criterion. -/
theorem C26_include (dist : P → P → K) (build : List P → F) (lval : ℕ → K) (choice : List ℕ)
    (thr : K) (hthr : 0 ≤ thr) (c : Crit) (x ref : P) (Y : List P) (fac : F) (crit : ℕ → K)
    (hcrit : ∀ j y, Y[j]? = some y → crit j = match c with
      | .weighted => dist y ref ^ 2 * |lval j|
      | .standard => |lval j|
      | .distance => dist y ref) :
    match includeInY dist build lval choice thr c x ref Y fac with
    | (some pos, Y', fac') =>
      pos ∈ choice ∧ pos < Y.length ∧ thr < |lval pos| ∧ 0 < crit pos ∧
        (∀ j ∈ choice, j < Y.length → thr < |lval j| → crit j ≤ crit pos) ∧
        Y'.length = Y.length ∧ Y'[pos]? = some x ∧ (∀ k, k ≠ pos → Y'[k]? = Y[k]?) ∧
        fac' = build Y'
    | (none, Y', fac') =>
      Y' = Y ∧ fac' = fac ∧ ∀ j ∈ choice, j < Y.length → thr < |lval j| → crit j ≤ 0 := by
  unfold includeInY
  by_cases h0 : choice = []
  · simp [h0]
  simp only [h0, if_false]
  have hsuit : ∀ j, j ∈ (List.range Y.length).filter
      (fun j => decide (|if j ∈ choice then lval j else 0| > thr)) ↔
      j < Y.length ∧ j ∈ choice ∧ thr < |lval j| := by
    intro j
    simp only [List.mem_filter, List.mem_range, decide_eq_true_eq, gt_iff_lt]
    constructor
    · rintro ⟨h1, h2⟩
      by_cases hj : j ∈ choice
      · rw [if_pos hj] at h2; exact ⟨h1, hj, h2⟩
      · rw [if_neg hj, abs_zero] at h2; exact absurd hthr (not_le.2 h2)
    · rintro ⟨h1, h2, h3⟩
      rw [if_pos h2]; exact ⟨h1, h3⟩
  by_cases h1 : (List.range Y.length).filter
      (fun j => decide (|if j ∈ choice then lval j else 0| > thr)) = []
  · simp only [h1, if_true]
    refine ⟨trivial, trivial, ?_⟩
    intro j hj hl ht
    have := (hsuit j).2 ⟨hl, hj, ht⟩
    rw [h1] at this; simp at this
  simp only [h1, if_false]
  have hcv : ∀ j, j < Y.length → j ∈ choice →
      candCrit dist c ref (fun j => if j ∈ choice then lval j else 0) Y j = crit j := by
    intro j hj hjc
    rw [candCrit, List.getElem?_eq_getElem hj, if_pos hjc, hcrit j _ (List.getElem?_eq_getElem hj)]
    cases c <;> rfl
  rcases pickMax_spec
      (candCrit dist c ref (fun j => if j ∈ choice then lval j else 0) Y) ((List.range Y.length).filter
      (fun j => decide (|if j ∈ choice then lval j else 0| > thr))) none 0 with
    ⟨e, hall⟩ | ⟨pos, e, hmem, hpos, hall⟩
  · simp only [e]
    refine ⟨trivial, trivial, ?_⟩
    intro j hj hl ht
    have := hall j ((hsuit j).2 ⟨hl, hj, ht⟩)
    rwa [hcv j hl hj] at this
  · simp only [e]
    obtain ⟨h2, h3, h4⟩ := (hsuit pos).1 hmem
    rw [hcv pos h2 h3] at hpos
    refine ⟨h3, h2, h4, hpos, ?_, by simp, by simp [h2], ?_, trivial⟩
    · intro j hj hl ht
      have := hall j ((hsuit j).2 ⟨hl, hj, ht⟩)
      rwa [hcv j hl hj, hcv pos h2 h3] at this
    · intro k hk
      rw [List.getElem?_set_ne (Ne.symm hk)]

/-- Instance: four points on a line, candidates 1..3, the farthest suitable one goes. -/
example : includeInY (fun a b : ℚ => |a - b|) (fun Y => Y) (fun j => [1, 1 / 2, 2, 0].getD j 0)
    [1, 2, 3] (1 / 10) .distance 1 1 [0, -3, 2, 50] [] =
    (some 1, [0, 1, 2, 50], [0, 1, 2, 50]) := by decide +kernel

/-- Instance without a suitable candidate. -/
example : includeInY (fun a b : ℚ => |a - b|) (fun Y => Y) (fun _ => 1 / 20)
    [1, 2] (1 / 10) .standard 1 1 [0, -3, 2] [] = (none, [0, -3, 2], []) := by decide +kernel

/-! ### C27 -/

/-- C27: the repair of the geometry, for every proposal procedure and every order of equal
distances.  With a nonnegative distance threshold: the base point stays, the reported indices
are distinct and between 1 and `p-1` (so at most `p-1`), unreported points are unchanged, at
most 20 rounds are made, the reported radius is the largest distance of a point of the new
set to the base point.  Moreover, if the proposals lie in a ball of radius `ρ`, then in the new set
every point lies within `max far ρ` of the base point, and if fewer than 20 rounds were made
no point can be improved by the factor `closethr` any more. -/
theorem C27_repair (dist : P → P → K) (build : List P → F) (propose : F → List P → ℕ → P × K)
    (closethr far : K) (hc : 0 < closethr) (hfar : 0 ≤ far) (order : List ℕ) (Y : List P)
    (hY : Y ≠ []) (fac : F)
    (hsort : SortedDesc (dists dist Y) order) :
    ∀ r, r = repairY dist build propose closethr far order Y fac →
      r.st.Y.length = Y.length ∧ r.st.Y[0]? = Y[0]? ∧ r.st.replaced.Nodup ∧
      (∀ j ∈ r.st.replaced, 1 ≤ j ∧ j < Y.length) ∧ r.st.replaced.length ≤ Y.length - 1 ∧
      (∀ k, k ∉ r.st.replaced → r.st.Y[k]? = Y[k]?) ∧ r.rounds ≤ 20 ∧
      (∀ b, Y[0]? = some b →
        (∀ k y, 1 ≤ k → r.st.Y[k]? = some y → dist y b ≤ r.radius) ∧
        (r.radius = 0 ∨ ∃ (k : ℕ) (y : P), 1 ≤ k ∧ r.st.Y[k]? = some y ∧ r.radius = dist y b) ∧
        (∀ ρ, (∀ g Z j, Z[0]? = some b → 1 ≤ j → dist (propose g Z j).1 b ≤ ρ) →
          ∀ k y, 1 ≤ k → r.st.Y[k]? = some y → dist y b ≤ max far ρ)) ∧
      (r.rounds < 20 → ∀ j, 1 ≤ j → j < Y.length → (propose r.st.fac r.st.Y j).2 < closethr) := by
  intro r hr
  obtain ⟨b0, l0, rfl⟩ := List.exists_cons_of_ne_nil hY
  set Y0 : List P := b0 :: l0 with hY0
  have hdl : (dists dist Y0).length = Y0.length := by simp [hY0, dists]
  obtain ⟨hperm, hdesc⟩ := hsort
  rw [hdl] at hperm
  have hd0 : (dists dist Y0)[0]? = some 0 := by simp [hY0, dists]
  set l : List (ℕ × K) := order.map fun j =>
    (j, match (dists dist Y0)[j]? with | some v => v | none => 0) with hl
  have hmap : l.map (·.1) = order := by
    rw [hl, List.map_map]; conv_rhs => rw [← List.map_id order]
    rfl
  set st0 : RepSt P F K := ⟨Y0, fac, dists dist Y0, []⟩ with hst0
  have hinv0 : RepInv dist Y0 st0 :=
    ⟨rfl, rfl, List.nodup_nil, by simp [hst0], fun _ _ => rfl, rfl⟩
  have hvalid : ∀ e ∈ l, far < e.2 → 1 ≤ e.1 ∧ e.1 < Y0.length := by
    intro e he hlt
    rw [hl] at he
    obtain ⟨j, hj, rfl⟩ := List.mem_map.1 he
    have hjp : j < Y0.length := by simpa using hperm.mem_iff.1 hj
    refine ⟨?_, hjp⟩
    by_contra h0
    have : j = 0 := by simp only at h0; omega
    subst this
    simp only [hd0] at hlt
    exact absurd hfar (not_le.2 hlt)
  have hnd : (l.map (·.1)).Nodup := by
    rw [hmap]; exact hperm.nodup_iff.2 List.nodup_range
  set st1 := farLoop dist build propose far l st0 with hst1
  have hinv1 : RepInv dist Y0 st1 :=
    farLoop_inv dist build propose far l st0 hinv0 hnd (by simp [hst0]) hvalid
  have hr' : r = rounds dist build propose closethr 20 0 0 st1 := by
    rw [hr]; rfl
  obtain ⟨g1, -, g3, g4, g5⟩ := rounds_inv dist build propose (Y0 := Y0) closethr (fun _ => True)
    (fun _ _ _ _ _ _ _ => trivial) 20 0 0 st1 hinv1 trivial
  rw [← hr'] at g1 g3 g4 g5
  have hcount : r.st.replaced.length ≤ Y0.length - 1 := by
    have hsub : r.st.replaced ⊆ (List.range Y0.length).tail := fun j hj =>
      mem_range_tail.2 (g1.valid j hj)
    have := (List.subperm_of_subset g1.nodup hsub).length_le
    simpa using this
  refine ⟨g1.len, g1.base, g1.nodup, g1.valid, hcount, g1.kept, by omega, ?_, ?_⟩
  · intro b hb
    have hb0 : r.st.Y[0]? = some b := by rw [g1.base]; exact hb
    -- entries of d
    have hdget : ∀ (k : ℕ) (y : P), 1 ≤ k → r.st.Y[k]? = some y → r.st.d[k]? = some (dist y b) := by
      intro k y hk hy
      rw [g1.dist]
      cases hYr : r.st.Y with
      | nil => rw [hYr] at hb0; simp at hb0
      | cons b' l' =>
        rw [hYr] at hb0 hy
        simp at hb0; subst hb0
        cases k with
        | zero => omega
        | succ k =>
          simp only [List.getElem?_cons_succ] at hy
          simp [dists, hy]
    have hdne : r.st.d ≠ [] := by
      rw [g1.dist]
      cases hYr : r.st.Y with
      | nil => rw [hYr] at hb0; simp at hb0
      | cons b' l' => simp [dists]
    obtain ⟨m1, m2⟩ := maxOf_spec r.st.d hdne
    refine ⟨?_, ?_, ?_⟩
    · intro k y hk hy
      rw [g4]
      exact m2 _ (List.mem_of_getElem? (hdget k y hk hy))
    · rw [g4]
      obtain ⟨k, hk, hk'⟩ := List.getElem_of_mem m1
      cases k with
      | zero =>
        left
        have : r.st.d[0]? = some (maxOf r.st.d) := by rw [List.getElem?_eq_getElem hk, hk']
        rw [g1.dist] at this
        cases hYr : r.st.Y with
        | nil => rw [hYr] at hb0; simp at hb0
        | cons b' l' =>
          rw [hYr] at this
          simp only [dists, List.getElem?_cons_zero, Option.some.injEq] at this
          rw [g1.dist, hYr]; exact this.symm
      | succ k =>
        right
        have hkY : k + 1 < r.st.Y.length := by
          rw [g1.dist] at hk
          cases hYr : r.st.Y with
          | nil => rw [hYr] at hb0; simp at hb0
          | cons b' l' => rw [hYr] at hk; simpa [dists] using hk
        refine ⟨k + 1, r.st.Y[k + 1], by omega, List.getElem?_eq_getElem hkY, ?_⟩
        have := hdget (k + 1) _ (by omega) (List.getElem?_eq_getElem hkY)
        rw [List.getElem?_eq_getElem hk, hk'] at this
        simpa using this
    · intro ρ hρ
      -- far loop: all points with index outside the remaining list are close
      let Near : RepSt P F K → Prop := fun st =>
        ∀ k y, 1 ≤ k → st.Y[k]? = some y → dist y b ≤ max far ρ
      have hputQ : ∀ (st : RepSt P F K) (j : ℕ) (rr : List ℕ), RepInv dist Y0 st → 1 ≤ j →
          j < Y0.length → ∀ k y, 1 ≤ k →
          (st.put dist build j (propose st.fac st.Y j).1 rr).Y[k]? = some y →
          (k = j ∧ dist y b ≤ ρ) ∨ (k ≠ j ∧ st.Y[k]? = some y) := by
        intro st j rr hI hj hjl k y hk hy
        simp only [RepSt.put] at hy
        by_cases hkj : k = j
        · left
          refine ⟨hkj, ?_⟩
          rw [hkj, List.getElem?_set_self (by rw [hI.len]; exact hjl)] at hy
          cases hy
          exact hρ _ _ _ (by rw [hI.base]; exact hb) hj
        · right
          rw [List.getElem?_set_ne (Ne.symm hkj)] at hy
          exact ⟨hkj, hy⟩
      have hfarQ : ∀ (l : List (ℕ × K)) (st : RepSt P F K), RepInv dist Y0 st →
          (l.map (·.1)).Nodup → (∀ e ∈ l, e.1 ∉ st.replaced) →
          (∀ e ∈ l, far < e.2 → 1 ≤ e.1 ∧ e.1 < Y0.length) →
          l.Pairwise (fun e e' => e'.2 ≤ e.2) →
          (∀ e ∈ l, ∀ y, st.Y[e.1]? = some y → 1 ≤ e.1 → dist y b ≤ e.2) →
          (∀ k y, 1 ≤ k → st.Y[k]? = some y → (∀ e ∈ l, e.1 ≠ k) → dist y b ≤ max far ρ) →
          Near (farLoop dist build propose far l st) := by
        intro l
        induction l with
        | nil =>
          intro st _ _ _ _ _ _ h k y hk hy
          exact h k y hk hy (by simp)
        | cons e l ih =>
          intro st hI hn hnr hv hpw hdist hrest
          obtain ⟨j, dj⟩ := e
          simp only [farLoop]
          rw [List.pairwise_cons] at hpw
          simp only [List.map_cons, List.nodup_cons] at hn
          split_ifs with hgt
          · have hj := hv (j, dj) (by simp) hgt
            have hjr := hnr (j, dj) (by simp)
            have hput := hI.put dist build (propose st.fac st.Y j).1 hj.1 hj.2 (st.replaced ++ [j])
              (by
                rw [List.nodup_append]
                exact ⟨hI.nodup, by simp, fun a ha b hb => by
                  simp at hb; rw [hb]; rintro rfl; exact hjr ha⟩) (by intro k; simp)
            refine ih _ hput hn.2 ?_ (fun e he => hv e (by simp [he])) hpw.2 ?_ ?_
            · intro e he
              simp only [RepSt.put, List.mem_append, List.mem_singleton, not_or]
              refine ⟨hnr e (by simp [he]), ?_⟩
              rintro rfl
              exact hn.1 (List.mem_map_of_mem he)
            · intro e he y hy he1
              have hne : e.1 ≠ j := by
                rintro rfl; exact hn.1 (List.mem_map_of_mem he)
              rcases hputQ st j _ hI hj.1 hj.2 e.1 y he1 hy with ⟨h, _⟩ | ⟨_, h⟩
              · exact absurd h hne
              · exact hdist e (by simp [he]) y h he1
            · intro k y hk hy hke
              rcases hputQ st j _ hI hj.1 hj.2 k y hk hy with ⟨_, h⟩ | ⟨hkj, h⟩
              · exact le_trans h (le_max_right _ _)
              · refine hrest k y hk h ?_
                intro e he
                rcases List.mem_cons.1 he with rfl | he
                · exact Ne.symm hkj
                · exact hke e he
          · intro k y hk hy
            by_cases hex : ∃ e ∈ (j, dj) :: l, e.1 = k
            · obtain ⟨e, he, rfl⟩ := hex
              have h1 := hdist e he y hy hk
              have h2 : e.2 ≤ dj := by
                rcases List.mem_cons.1 he with rfl | he
                · exact le_refl _
                · exact hpw.1 e he
              exact le_trans h1 (le_trans h2 (le_trans (not_lt.1 hgt) (le_max_left _ _)))
            · push Not at hex
              exact hrest k y hk hy hex
      have hd1 : ∀ (k : ℕ) (y : P), 1 ≤ k → Y0[k]? = some y →
          (dists dist Y0)[k]? = some (dist y b) := by
        intro k y hk hy
        have : b0 = b := by simpa [hY0] using hb
        subst this
        cases k with
        | zero => omega
        | succ k =>
          simp only [hY0, List.getElem?_cons_succ] at hy
          simp [hY0, dists, hy]
      have hnear1 : Near st1 := by
        apply hfarQ l st0 hinv0 hnd (by simp [hst0]) hvalid
        · rw [List.pairwise_iff_getElem]
          intro i j hi hj hij
          have hi' : i < order.length := by simpa [hl] using hi
          have hj' : j < order.length := by simpa [hl] using hj
          have hio : order[i] < Y0.length := by
            simpa using hperm.mem_iff.1 (List.getElem_mem hi')
          have hjo : order[j] < Y0.length := by
            simpa using hperm.mem_iff.1 (List.getElem_mem hj')
          rw [← hdl] at hio hjo
          simp only [hl, List.getElem_map, List.getElem?_eq_getElem hio,
            List.getElem?_eq_getElem hjo]
          exact hdesc i j _ _ _ _ hij (List.getElem?_eq_getElem hi') (List.getElem?_eq_getElem hj')
            (List.getElem?_eq_getElem hio) (List.getElem?_eq_getElem hjo)
        · intro e he y hy h1
          rw [hl] at he
          obtain ⟨j, hj, rfl⟩ := List.mem_map.1 he
          simp only at hy h1 ⊢
          rw [hd1 j y h1 hy]
        · intro k y hk hy hne
          exfalso
          have hkl : k < Y0.length := (List.getElem?_eq_some_iff.1 hy).1
          have hko : k ∈ order := hperm.mem_iff.2 (by simpa using hkl)
          rw [← hmap] at hko
          obtain ⟨e, he, rfl⟩ := List.mem_map.1 hko
          exact hne e he rfl
      have := (rounds_inv dist build propose (Y0 := Y0) closethr Near
        (fun st j rr hI hN hj hjl k y hk hy => by
          rcases hputQ st j rr hI hj hjl k y hk hy with ⟨_, h⟩ | ⟨_, h⟩
          · exact le_trans h (le_max_right _ _)
          · exact hN k y hk h) 20 0 0 st1 hinv1 hnear1).2.1
      rw [← hr'] at this
      exact this
  · intro hlt j h1 h2
    exact g5 Y0.length (by omega) hc g1.len j h1 h2

/-- Instance of C27 on a line: proposals of size 1; the far point 30 is replaced, then point 1
once; then no improvement above 6/5 is left. -/
example :
    let dist := fun a b : ℚ => |a - b|
    let prop : List ℚ → List ℚ → ℕ → ℚ × ℚ := fun _ Y j =>
      (if j = 1 then 1 else -1, if Y[j]? = some 1 ∨ Y[j]? = some (-1) then 1 else 2)
    let r := repairY dist (fun Y => Y) prop (6 / 5) 10 [2, 1, 0] [0, 3, 30] []
    r.st.Y = [0, 1, -1] ∧ r.st.replaced = [2, 1] ∧ r.radius = 1 ∧ r.rounds = 2 ∧
      r.maximprove = 1 := by decide +kernel

example : SortedDesc (dists (fun a b : ℚ => |a - b|) [0, 3, 30]) [2, 1, 0] := by
  refine ⟨by decide, ?_⟩
  intro a b i j u v hab ha hb hu hv
  have hd : dists (fun a b : ℚ => |a - b|) [0, 3, 30] = [0, 3, 30] := by decide +kernel
  rw [hd] at hu hv
  rcases b with _ | _ | _ | b <;> rcases a with _ | _ | _ | a <;>
    first
    | omega
    | (simp at ha hb; subst ha hb; simp at hu hv; subst hu hv; norm_num)
    | (simp at hb)

#print axioms C24_swap
#print axioms C25_never_worse_partial
#print axioms C25_least_merit_partial
#print axioms C25_second_point_ignored
#print axioms C25_bounds_mixed
#print axioms C25_penalty_truncated
#print axioms C26_include
#print axioms C27_repair

end order
end Sqpdfo
