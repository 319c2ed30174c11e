import Verif.Model.Blls
import Mathlib.Tactic.Linarith
import Mathlib.Tactic.Positivity
import Mathlib.Tactic.FieldSimp
import Mathlib.Tactic.Ring
import Mathlib.Tactic.NormNum
import Mathlib.LinearAlgebra.Matrix.Notation
import Mathlib.Analysis.Real.Sqrt
import Mathlib.Tactic.FinCases

/-! # C45, C59: the bounded least-squares solver -/

set_option linter.unusedSectionVars false

namespace Sqpdfo
variable {K : Type} [Field K] [LinearOrder K] [IsStrictOrderedRing K] {m n : ℕ}

/-- `x` lies in the interval. -/
def Spec.InB (lo hi : Option K) (x : K) : Prop :=
  (∀ l, lo = some l → l ≤ x) ∧ ∀ u, hi = some u → x ≤ u

/-- The point lies within the bounds. -/
def Spec.Within (lb ub : Fin n → Option K) (s : Fin n → K) : Prop :=
  ∀ i, Spec.InB (lb i) (ub i) (s i)

/-- No lower bound exceeds an upper bound. -/
def Spec.Consistent (lb ub : Fin n → Option K) : Prop :=
  ∀ i l u, lb i = some l → ub i = some u → l ≤ u

open Spec

theorem inB_clip (lo hi : Option K) (h : ∀ l u, lo = some l → hi = some u → l ≤ u) (x : K) :
    InB lo hi (atMost hi (atLeast lo x)) := by
  cases lo with
  | none =>
    cases hi with
    | none => exact ⟨fun _ h => (by cases h), fun _ h => (by cases h)⟩
    | some u =>
      refine ⟨fun _ h => (by cases h), fun v hv => ?_⟩
      simp only [Option.some.injEq] at hv; subst hv; exact min_le_right _ _
  | some l =>
    cases hi with
    | none =>
      refine ⟨fun v hv => ?_, fun _ h => (by cases h)⟩
      simp only [Option.some.injEq] at hv; subst hv; exact le_max_right _ _
    | some u =>
      have hlu := h l u rfl rfl
      refine ⟨fun v hv => ?_, fun v hv => ?_⟩
      · simp only [Option.some.injEq] at hv; subst hv
        exact le_min (le_max_right _ _) hlu
      · simp only [Option.some.injEq] at hv; subst hv
        exact min_le_right _ _

theorem clip_within (p : BllsIn K m n) (hc : Consistent p.lb p.ub) (v : Fin n → K) :
    Within p.lb p.ub (p.clip v) := fun i => inB_clip _ _ (hc i) _

theorem inB_lo {lo hi : Option K} (h : ∀ l u, lo = some l → hi = some u → l ≤ u)
    (hf : lo ≠ none) : InB lo hi (bval lo) := by
  cases lo with
  | none => exact absurd rfl hf
  | some l =>
    exact ⟨fun v hv => (by simp only [Option.some.injEq] at hv; subst hv; exact le_refl _),
      fun u hu => h l u rfl hu⟩

theorem inB_hi {lo hi : Option K} (h : ∀ l u, lo = some l → hi = some u → l ≤ u)
    (hf : hi ≠ none) : InB lo hi (bval hi) := by
  cases hi with
  | none => exact absurd rfl hf
  | some u =>
    exact ⟨fun l hl => h l u hl rfl,
      fun v hv => by simp only [Option.some.injEq] at hv; subst hv; exact le_refl _⟩

theorem inB_convex {lo hi : Option K} {x y a : K} (hx : InB lo hi x) (hy : InB lo hi y)
    (h0 : 0 ≤ a) (h1 : a ≤ 1) : InB lo hi (x + a * (y - x)) := by
  refine ⟨fun l hl => ?_, fun u hu => ?_⟩
  · have := hx.1 l hl; have := hy.1 l hl; nlinarith
  · have := hx.2 u hu; have := hy.2 u hu; nlinarith

/-- The invariant of the loops. -/
structure BInv (p : BllsIn K m n) (S : BState K m n) : Prop where
  res : S.res = p.resid S.s
  resn : S.resn = p.nrmM S.res
  atlb : ∀ i ∈ S.atlb, p.lb i ≠ none
  atub : ∀ i ∈ S.atub, p.ub i ≠ none
  natlbt : ∀ i ∈ S.natlbt, p.lb i ≠ none
  natubt : ∀ i ∈ S.natubt, p.ub i ≠ none
  within : S.tiny = false → Within p.lb p.ub S.s

theorem belowB_finite {lo : Option K} {x : K} (h : belowB lo x = true) : lo ≠ none := by
  rintro rfl; cases h

theorem aboveB_finite {lo : Option K} {x : K} (h : aboveB lo x = true) : lo ≠ none := by
  rintro rfl; cases h

theorem nearB_finite {lo : Option K} {x : K} (h : nearB lo x = true) : lo ≠ none := by
  rintro rfl; cases h

theorem putBounds_within (p : BllsIn K m n) (hc : Consistent p.lb p.ub) (atlb atub : List (Fin n))
    (v : Fin n → K) (h1 : ∀ i ∈ atlb, p.lb i ≠ none) (h2 : ∀ i ∈ atub, p.ub i ≠ none)
    (i : Fin n) (h : i ∉ atlb → i ∉ atub → InB (p.lb i) (p.ub i) (v i)) :
    InB (p.lb i) (p.ub i) (putBounds p atlb atub v i) := by
  unfold putBounds
  split
  · rename_i hu; exact inB_hi (hc i) (h2 i hu)
  · rename_i hu
    split
    · rename_i hl; exact inB_lo (hc i) (h1 i hl)
    · rename_i hl; exact h hl hu

/-- The backtracking keeps the invariant, leaves `tiny` alone and, if not successful, the point and
the sets. -/
theorem backtrack_inv (p : BllsIn K m n) (hc : Consistent p.lb p.ub) (ssub : Fin n → K)
    (rred : K) : ∀ (r kb : ℕ) (α : K) (S : BState K m n), BInv p S →
      BInv p (backtrack p ssub rred r kb α S).1 ∧
      ((backtrack p ssub rred r kb α S).2 = false →
        (backtrack p ssub rred r kb α S).1.s = S.s ∧
        (backtrack p ssub rred r kb α S).1.atlb = S.atlb ∧
        (backtrack p ssub rred r kb α S).1.atub = S.atub) ∧
      (backtrack p ssub rred r kb α S).1.backs ≤ S.backs + r ∧
      (backtrack p ssub rred r kb α S).1.subs = S.subs ∧
      (backtrack p ssub rred r kb α S).1.trials = S.trials ∧
      (backtrack p ssub rred r kb α S).1.tiny = S.tiny := by
  intro r
  induction r with
  | zero => intro kb α S h; exact ⟨h, fun _ => ⟨rfl, rfl, rfl⟩, le_refl _, rfl, rfl, rfl⟩
  | succ r ih =>
    intro kb α S h
    have hl : ∀ i ∈ S.free.filter (fun i =>
        belowB (p.lb i) ((1 - α) * S.s i + α * ssub i)), p.lb i ≠ none := fun i hi =>
      belowB_finite (List.mem_filter.1 hi).2
    have hu : ∀ i ∈ S.free.filter (fun i =>
        aboveB (p.ub i) ((1 - α) * S.s i + α * ssub i)), p.ub i ≠ none := fun i hi =>
      aboveB_finite (List.mem_filter.1 hi).2
    unfold backtrack
    simp only
    split
    · exact ⟨⟨h.res, h.resn, h.atlb, h.atub, hl, hu, h.within⟩, fun _ => ⟨rfl, rfl, rfl⟩,
        by simp, rfl, rfl, rfl⟩
    · split
      · refine ⟨⟨rfl, rfl, fun i hi => ?_, fun i hi => ?_, hl, hu, fun _ => clip_within p hc _⟩,
          fun h => (by cases h), by simp, rfl, rfl, rfl⟩
        · rcases List.mem_append.1 hi with hi | hi
          · exact h.atlb i hi
          · exact hl i hi
        · rcases List.mem_append.1 hi with hi | hi
          · exact h.atub i hi
          · exact hu i hi
      · obtain ⟨a1, a2, a3, a4, a5, a6⟩ := ih (kb + 1) (1 / 2 * α)
          { S with
            natlbt := S.free.filter (fun i => belowB (p.lb i) ((1 - α) * S.s i + α * ssub i))
            natubt := S.free.filter (fun i => aboveB (p.ub i) ((1 - α) * S.s i + α * ssub i))
            kb := kb
            backs := S.backs + 1 }
          ⟨h.res, h.resn, h.atlb, h.atub, hl, hu, h.within⟩
        exact ⟨a1, a2, by simp only at a3 ⊢; omega, a4, a5, a6⟩

theorem foldl_min_le {α : Type} (f : K → α → K) (hf : ∀ a i, f a i ≤ a) (l : List α) :
    ∀ a, l.foldl f a ≤ a ∧ ∀ i ∈ l, ∃ a', l.foldl f a ≤ f a' i := by
  induction l with
  | nil => intro a; exact ⟨le_refl _, fun i hi => by cases hi⟩
  | cons j l ih =>
    intro a
    obtain ⟨h1, h2⟩ := ih (f a j)
    refine ⟨le_trans h1 (hf a j), fun i hi => ?_⟩
    rcases List.mem_cons.1 hi with rfl | hi
    · exact ⟨a, h1⟩
    · exact h2 i hi

theorem cDzer_pos : (0 : K) < cDzer := by unfold cDzer; positivity

theorem stepTo_le (bd : Option K) (s d a : K) : stepTo bd s d a ≤ a := by
  unfold stepTo; split
  · exact le_refl _
  · exact min_le_left _ _

/-- The step length for a feasible point without negligible components. -/
theorem maxStep_spec (p : BllsIn K m n) (free : List (Fin n)) (s d : Fin n → K)
    (hs : Within p.lb p.ub s) :
    0 ≤ maxStep p free s d ∧ maxStep p free s d ≤ 1 ∧
      ∀ i ∈ free, (d i = 0 ∨ cDzer ≤ |d i|) →
        InB (p.lb i) (p.ub i) (s i + maxStep p free s d * d i) := by
  have hz := cDzer_pos (K := K)
  have hf : ∀ (a : K) (i : Fin n), (if d i ≥ cDzer then stepTo (p.ub i) (s i) (d i) a
    else if d i ≤ - cDzer then stepTo (p.lb i) (s i) (d i) a else a) ≤ a := by
    intro a i
    split
    · exact stepTo_le _ _ _ _
    · split
      · exact stepTo_le _ _ _ _
      · exact le_refl _
  have h0 : ∀ (l : List (Fin n)) (a : K), 0 ≤ a → 0 ≤ l.foldl (fun α i =>
    if d i ≥ cDzer then stepTo (p.ub i) (s i) (d i) α
    else if d i ≤ - cDzer then stepTo (p.lb i) (s i) (d i) α
    else α) a := by
    intro l
    induction l with
    | nil => intro a ha; exact ha
    | cons j l ih =>
      intro a ha
      apply ih
      simp only
      split
      · rename_i hd
        unfold stepTo
        split
        · exact ha
        · rename_i u hu
          exact le_min ha (div_nonneg (by have := (hs j).2 u hu; linarith) (by linarith))
      · split
        · rename_i hd
          unfold stepTo
          split
          · exact ha
          · rename_i u hu
            exact le_min ha (div_nonneg_of_nonpos (by have := (hs j).1 u hu; linarith)
              (by linarith))
        · exact ha
  obtain ⟨g1, g2⟩ := foldl_min_le _ hf free 1
  have hnn : 0 ≤ maxStep p free s d := h0 free 1 zero_le_one
  refine ⟨hnn, g1, fun i hi hd => ?_⟩
  obtain ⟨a', ha'⟩ := g2 i hi
  change maxStep p free s d ≤ _ at ha'
  rcases hd with hd | hd
  · rw [hd, mul_zero, add_zero]; exact hs i
  rcases le_or_gt 0 (d i) with hp | hp
  · rw [abs_of_nonneg hp] at hd
    rw [if_pos hd] at ha'
    refine ⟨fun l hl => ?_, fun u hu => ?_⟩
    · have := (hs i).1 l hl
      have := mul_nonneg hnn hp
      linarith
    · rw [hu] at ha'
      have h2 : maxStep p free s d ≤ (u - s i) / d i := le_trans ha' (min_le_right _ _)
      rw [le_div_iff₀ (by linarith)] at h2
      linarith
  · rw [abs_of_neg hp] at hd
    rw [if_neg (by linarith), if_pos (by linarith)] at ha'
    refine ⟨fun l hl => ?_, fun u hu => ?_⟩
    · rw [hl] at ha'
      have h2 : maxStep p free s d ≤ (l - s i) / d i := le_trans ha' (min_le_right _ _)
      rw [le_div_iff_of_neg hp] at h2
      linarith
    · have := (hs i).2 u hu
      have := mul_nonpos_of_nonneg_of_nonpos hnn hp.le
      linarith

theorem mem_free (S : BState K m n) (i : Fin n) : i ∈ S.free ↔ i ∉ S.atlb ∧ i ∉ S.atub := by
  simp [BState.free]

theorem blockStep_inv (p : BllsIn K m n) (hc : Consistent p.lb p.ub) (v : Fin n → K)
    (S : BState K m n) (h : BInv p S) :
    BInv p (blockStep p (putBounds p S.atlb S.atub v)
      (p.resid (putBounds p S.atlb S.atub v)) S) := by
  have hal : ∀ i ∈ S.atlb ++ S.natlbt, p.lb i ≠ none := fun i hi =>
    (List.mem_append.1 hi).elim (h.atlb i) (h.natlbt i)
  have hau : ∀ i ∈ S.atub ++ S.natubt, p.ub i ≠ none := fun i hi =>
    (List.mem_append.1 hi).elim (h.atub i) (h.natubt i)
  refine ⟨?_, rfl, hal, hau, h.natlbt, h.natubt, fun ht => ?_⟩
  · unfold blockStep
    simp only
    generalize maxStep p S.free S.s _ = α
    rw [h.res]
    unfold BllsIn.resid
    rw [Matrix.mulVec_add, Matrix.mulVec_smul, Matrix.mulVec_sub]
    funext j
    simp only [Pi.add_apply, Pi.sub_apply, Pi.smul_apply, smul_eq_mul]
    ring
  · unfold blockStep at ht ⊢
    simp only [Bool.or_eq_false_iff] at ht ⊢
    have hs := h.within ht.1
    have hno : ∀ i ∈ S.free, ¬ ((putBounds p S.atlb S.atub v - S.s) i ≠ 0 ∧
        |(putBounds p S.atlb S.atub v - S.s) i| < cDzer) := by
      have := ht.2
      rw [List.any_eq_false] at this
      intro i hi
      simpa using this i hi
    obtain ⟨m0, m1, m2⟩ := maxStep_spec p S.free S.s (putBounds p S.atlb S.atub v - S.s) hs
    intro i
    simp only [Pi.add_apply, Pi.smul_apply, smul_eq_mul]
    by_cases hi : i ∈ S.free
    · refine m2 i hi ?_
      by_contra hcon
      push Not at hcon
      exact hno i hi hcon
    · have hin : i ∈ S.atlb ∨ i ∈ S.atub := by
        by_contra hcon
        push Not at hcon
        exact hi ((mem_free S i).2 hcon)
      have hb : InB (p.lb i) (p.ub i) (putBounds p S.atlb S.atub v i) :=
        putBounds_within p hc _ _ _ h.atlb h.atub i (fun a b => absurd hin (by tauto))
      exact inB_convex (hs i) hb m0 m1

theorem subLoop_inv (p : BllsIn K m n) (hc : Consistent p.lb p.ub) :
    ∀ (r : ℕ) (S : BState K m n), BInv p S → BInv p (subLoop p r S) ∧
      (subLoop p r S).subs ≤ S.subs + r ∧ (subLoop p r S).trials = S.trials ∧
      (subLoop p r S).backs + 4 * S.subs ≤ S.backs + 4 * (subLoop p r S).subs := by
  intro r
  induction r with
  | zero => intro S h; exact ⟨h, le_refl _, rfl, le_refl _⟩
  | succ r ih =>
    intro S h
    unfold subLoop
    simp only
    have h' : BInv p S.countSub :=
      ⟨h.res, h.resn, h.atlb, h.atub, h.natlbt, h.natubt, h.within⟩
    have e1 : S.countSub.subs = S.subs + 1 := rfl
    have e2 : S.countSub.trials = S.trials := rfl
    have e3 : S.countSub.backs = S.backs := rfl
    generalize S.countSub = S' at *
    generalize hv : p.pinv S'.free (p.rhs S'.atlb S'.atub) = v
    split
    · obtain ⟨b1, b2, b3, b4, b5, b6⟩ := backtrack_inv p hc (putBounds p S'.atlb S'.atub v)
        (p.nrmM (p.resid (putBounds p S'.atlb S'.atub v)) - S'.resn) (4 * (1 - S'.nuns)) 1 1 S' h'
      generalize hB : backtrack p (putBounds p S'.atlb S'.atub v)
        (p.nrmM (p.resid (putBounds p S'.atlb S'.atub v)) - S'.resn) (4 * (1 - S'.nuns)) 1 1 S'
        = B at *
      split
      · exact ⟨b1, by omega, by omega, by omega⟩
      · rename_i hf
        obtain ⟨c1, c2, c3⟩ := b2 (by simpa using hf)
        generalize hT : (if B.1.kb ≥ 4 * (1 - S'.nuns) then
          { B.1 with nuns := B.1.nuns + 1 } else B.1) = T
        have hTi : BInv p T ∧ T.atlb = B.1.atlb ∧ T.atub = B.1.atub ∧ T.subs = B.1.subs ∧
            T.trials = B.1.trials ∧ T.backs = B.1.backs := by
          subst hT
          split
          · exact ⟨⟨b1.res, b1.resn, b1.atlb, b1.atub, b1.natlbt, b1.natubt, b1.within⟩, rfl, rfl,
              rfl, rfl, rfl⟩
          · exact ⟨b1, rfl, rfl, rfl, rfl, rfl⟩
        obtain ⟨t1, t2, t3, t4, t5, t6⟩ := hTi
        have hbl := blockStep_inv p hc v T t1
        rw [t2, t3, c2, c3] at hbl
        obtain ⟨i1, i2, i3, i4⟩ := ih _ hbl
        have f1 : (blockStep p (putBounds p S'.atlb S'.atub v)
          (p.resid (putBounds p S'.atlb S'.atub v)) T).subs = T.subs := rfl
        have f2 : (blockStep p (putBounds p S'.atlb S'.atub v)
          (p.resid (putBounds p S'.atlb S'.atub v)) T).trials = T.trials := rfl
        have f3 : (blockStep p (putBounds p S'.atlb S'.atub v)
          (p.resid (putBounds p S'.atlb S'.atub v)) T).backs = T.backs := rfl
        rw [f1] at i2 i4
        rw [f2] at i3
        rw [f3] at i4
        exact ⟨i1, by omega, by omega, by omega⟩
    · rename_i hn
      have hw : ∀ i ∈ S'.free, InB (p.lb i) (p.ub i) (putBounds p S'.atlb S'.atub v i) := by
        simp only [gt_iff_lt, not_lt, Nat.le_zero, Nat.add_eq_zero_iff, List.length_eq_zero_iff,
          List.filter_eq_nil_iff] at hn
        intro i hi
        refine ⟨fun l hl => ?_, fun u hu => ?_⟩
        · have := hn.1 i hi
          rw [hl] at this
          simpa [belowB] using this
        · have := hn.2 i hi
          rw [hu] at this
          simpa [aboveB] using this
      refine ⟨⟨rfl, rfl, h'.atlb, h'.atub, h'.natlbt, h'.natubt, fun _ i => ?_⟩, by
        show S'.subs ≤ _; omega, by show S'.trials = _; omega, by
        show S'.backs + _ ≤ _ + 4 * S'.subs; omega⟩
      by_cases hi : i ∈ S'.free
      · exact hw i hi
      · exact putBounds_within p hc _ _ _ h'.atlb h'.atub i
          (fun a b => absurd ((mem_free S' i).2 ⟨a, b⟩) hi)

theorem cauchy_spec (p : BllsIn K m n) (hc : Consistent p.lb p.ub) (s g : Fin n → K) :
    ∀ (r kc : ℕ) (α : K), (cauchy p s g r kc α).1 ≤ kc + r ∧
      Within p.lb p.ub (cauchy p s g r kc α).2 := by
  intro r
  induction r with
  | zero =>
    intro kc α
    unfold cauchy
    simp only
    split
    · exact ⟨le_refl _, clip_within p hc _⟩
    · exact ⟨le_refl _, clip_within p hc _⟩
  | succ r ih =>
    intro kc α
    unfold cauchy
    simp only
    split
    · exact ⟨by simp, clip_within p hc _⟩
    · obtain ⟨h1, h2⟩ := ih (kc + 1) (1 / 2 * α)
      exact ⟨by omega, h2⟩

/-- What one iteration gives. -/
theorem bllsIter_inv (p : BllsIn K m n) (hc : Consistent p.lb p.ub) (S T : BState K m n) (opt : K)
    (hI : BInv p S) (h : bllsIter p S = some (T, opt)) :
    BInv p T ∧ T.trials ≤ S.trials + 15 ∧ T.subs ≤ S.subs + n ∧
      T.backs + 4 * S.subs ≤ S.backs + 4 * T.subs ∧
      (opt = p.measure T.s (p.resid T.s) ∨ opt = 0 ∧ (T.resn ≤ cRes ∨
        ∀ i, p.lb i = some (T.s i) ∨ p.ub i = some (T.s i))) := by
  unfold bllsIter at h
  simp only at h
  obtain ⟨c1, c2⟩ := cauchy_spec p hc S.s (p.grad S.res) 14 1
    ((p.nrmN (p.grad S.res) / p.nrmM (p.A.mulVec (p.grad S.res))) ^ 2)
  generalize cauchy p S.s (p.grad S.res) 14 1
    ((p.nrmN (p.grad S.res) / p.nrmM (p.A.mulVec (p.grad S.res))) ^ 2) = c at *
  split at h
  · cases h
  have hl : ∀ i ∈ (List.finRange n).filter (fun i => nearB (p.lb i) (c.2 i)), p.lb i ≠ none :=
    fun i hi => nearB_finite (List.mem_filter.1 hi).2
  have hu : ∀ i ∈ (List.finRange n).filter (fun i => nearB (p.ub i) (c.2 i)), p.ub i ≠ none :=
    fun i hi => nearB_finite (List.mem_filter.1 hi).2
  generalize hal : (List.finRange n).filter (fun i => nearB (p.lb i) (c.2 i)) = atlb at *
  generalize hau : (List.finRange n).filter (fun i => nearB (p.ub i) (c.2 i)) = atub at *
  have hw : Within p.lb p.ub (putBounds p atlb atub c.2) := fun i =>
    putBounds_within p hc _ _ _ hl hu i (fun _ _ => c2 i)
  generalize hT : ({ S with
      s := putBounds p atlb atub c.2
      res := p.resid (putBounds p atlb atub c.2)
      resn := p.nrmM (p.resid (putBounds p atlb atub c.2))
      atlb := atlb
      atub := atub
      trials := S.trials + c.1 } : BState K m n) = T' at *
  have hi : BInv p T' := by
    subst hT
    exact ⟨rfl, rfl, hl, hu, hI.natlbt, hI.natubt, fun _ => hw⟩
  have e1 : T'.subs = S.subs := by rw [← hT]
  have e2 : T'.trials = S.trials + c.1 := by rw [← hT]
  have e3 : T'.backs = S.backs := by rw [← hT]
  split at h
  · rename_i hcond
    simp only [Option.some.injEq, Prod.mk.injEq] at h
    obtain ⟨rfl, rfl⟩ := h
    refine ⟨hi, by omega, by omega, by omega, Or.inr ⟨rfl, ?_⟩⟩
    rcases hcond with h0 | h0
    · right
      intro i
      have hni : i ∉ T'.free := by
        rw [List.length_eq_zero_iff] at h0; rw [h0]; simp
      have hin : i ∈ atlb ∨ i ∈ atub := by
        by_contra hcon
        push Not at hcon
        refine hni ((mem_free T' i).2 ?_)
        rw [← hT]; exact hcon
      have hs : T'.s i = putBounds p atlb atub c.2 i := by rw [← hT]
      rw [hs]
      unfold putBounds
      split
      · rename_i hx
        right
        have := hu i hx
        cases hb : p.ub i with
        | none => exact absurd hb this
        | some u => rfl
      · rename_i hx
        have hx' : i ∈ atlb := hin.resolve_right hx
        rw [if_pos hx']
        left
        have := hl i hx'
        cases hb : p.lb i with
        | none => exact absurd hb this
        | some u => rfl
    · left; rw [← hT]; exact h0
  · simp only [Option.some.injEq, Prod.mk.injEq] at h
    obtain ⟨s1, s2, s3, s4⟩ := subLoop_inv p hc n T' hi
    obtain ⟨rfl, rfl⟩ := h
    exact ⟨s1, by omega, by omega, by omega, Or.inl (by rw [← s1.res])⟩

/-- What the whole loop gives. -/
structure BEnd (p : BllsIn K m n) (R : BRes K m n) (maxit : ℕ) : Prop where
  inv : BInv p R.st
  nit : R.nit ≤ maxit
  trials : R.st.trials ≤ 15 * R.nit
  subs : R.st.subs ≤ n * R.nit
  backs : R.st.backs ≤ 4 * R.st.subs
  exit : R.exitc = 0 ∨ R.exitc = -1
  opt : R.opt = p.measure R.st.s (p.resid R.st.s) ∨ R.opt = 0 ∧ (R.st.resn ≤ cRes ∨
    ∀ i, p.lb i = some (R.st.s i) ∨ p.ub i = some (R.st.s i))
  conv : R.exitc = 0 → R.nit < maxit → R.opt ≤ cConv ∨ R.st.resn ≤ cRes

theorem bllsLoop_inv (p : BllsIn K m n) (hc : Consistent p.lb p.ub) :
    ∀ (r : ℕ) (R : BRes K m n) (mx : ℕ), R.nit + r = mx → R.exitc = 0 → BInv p R.st →
      R.st.trials ≤ 15 * R.nit → R.st.subs ≤ n * R.nit → R.st.backs ≤ 4 * R.st.subs →
      (R.opt = p.measure R.st.s (p.resid R.st.s) ∨ R.opt = 0 ∧ (R.st.resn ≤ cRes ∨
        ∀ i, p.lb i = some (R.st.s i) ∨ p.ub i = some (R.st.s i))) →
      BEnd p (bllsLoop p r R) mx := by
  intro r
  induction r with
  | zero =>
    intro R mx h1 h2 h3 h4 h5 h6 h7
    exact ⟨h3, by show R.nit ≤ mx; omega, h4, h5, h6, Or.inl h2, h7, fun _ h => by
      change R.nit < mx at h; omega⟩
  | succ r ih =>
    intro R mx h1 h2 h3 h4 h5 h6 h7
    unfold bllsLoop
    simp only
    cases hi : bllsIter p R.st with
    | none =>
      simp only
      exact ⟨h3, by show R.nit + 1 ≤ mx; omega, by show R.st.trials ≤ 15 * (R.nit + 1); omega,
        by show R.st.subs ≤ n * (R.nit + 1); rw [mul_add]; omega, h6, Or.inr rfl, h7,
        fun h => by cases h⟩
    | some q =>
      obtain ⟨T, opt⟩ := q
      obtain ⟨a1, a2, a3, a4, a5⟩ := bllsIter_inv p hc R.st T opt h3 hi
      have hs : T.subs ≤ n * (R.nit + 1) := by rw [mul_add]; omega
      simp only
      split
      · rename_i hstop
        exact ⟨a1, by show R.nit + 1 ≤ mx; omega, by show T.trials ≤ 15 * (R.nit + 1); omega, hs,
          by show T.backs ≤ 4 * T.subs; omega, Or.inl h2, a5, fun _ _ => hstop⟩
      · exact ih _ mx (by show R.nit + 1 + r = mx; omega) h2 a1
          (by show T.trials ≤ 15 * (R.nit + 1); omega) hs (by show T.backs ≤ 4 * T.subs; omega) a5

/-- The result of `blls_`, all in one. -/
theorem blls_end (p : BllsIn K m n) (hc : Consistent p.lb p.ub) :
    ∃ R, BEnd p R (2 * n) ∧ (blls p).st = R.st ∧ (blls p).opt = R.opt ∧ (blls p).nit = R.nit ∧
      ((blls p).exitc = R.exitc ∧ (R.exitc = 0 → R.opt ≤ cConv ∨ R.st.resn ≤ cRes) ∨
        (blls p).exitc = 1) := by
  unfold blls
  simp only
  generalize hs0 : p.clip (p.pinv (List.finRange n) p.b) = s
  have hw : Within p.lb p.ub s := by rw [← hs0]; exact clip_within p hc _
  have h0 : BInv p (⟨s, p.resid s, p.nrmM (p.resid s), [], [], 0, [], [], 0, false, 0, 0, 0⟩ :
      BState K m n) :=
    ⟨rfl, rfl, fun i hi => (by cases hi), fun i hi => (by cases hi), fun i hi => (by cases hi),
      fun i hi => (by cases hi), fun _ => hw⟩
  by_cases hcond : p.measure s (p.resid s) ≤ cConv ∨ p.nrmM (p.resid s) ≤ cRes
  · rw [if_pos hcond]
    simp only [bllsLoop]
    refine ⟨⟨⟨s, p.resid s, p.nrmM (p.resid s), [], [], 0, [], [], 0, false, 0, 0, 0⟩,
      p.measure s (p.resid s), 0, 0⟩, ⟨h0, Nat.zero_le _, by simp, by simp, by simp, Or.inl rfl,
      Or.inl rfl, fun _ _ => hcond⟩, ?_⟩
    split
    · exact ⟨rfl, rfl, rfl, Or.inr rfl⟩
    · exact ⟨rfl, rfl, rfl, Or.inl ⟨rfl, fun _ => hcond⟩⟩
  · rw [if_neg hcond]
    have hb := bllsLoop_inv p hc (2 * n) ⟨⟨s, p.resid s, p.nrmM (p.resid s), [], [], 0, [], [], 0,
      false, 0, 0, 0⟩, p.measure s (p.resid s), 0, 0⟩ (2 * n) (by simp) rfl h0 (by simp) (by simp)
      (by simp) (Or.inl rfl)
    refine ⟨_, hb, ?_⟩
    split
    · exact ⟨rfl, rfl, rfl, Or.inr rfl⟩
    · rename_i hn
      refine ⟨rfl, rfl, rfl, Or.inl ⟨rfl, fun he => hb.conv he ?_⟩⟩
      by_contra hge
      exact hn ⟨he, not_lt.1 hge⟩

/-- C45, full statement: *`blls_` returns a point within its bounds after at most `2n` iterations with
at most 15 trial points for the Cauchy step each*.  The first part is false for arbitrary results of the
subspace solver (`C45_kernel_slip`): negligible components of a direction are ignored when the
step length is computed.  Proved for every input: the counts, the returned residual norm, the exit
codes; and that the point is within the bounds exactly if no step length was computed for a
direction with a nonzero component below `1e-14`. -/
theorem C45_bounded_partial (p : BllsIn K m n) (hc : Consistent p.lb p.ub) :
    (blls p).nit ≤ 2 * n ∧ (blls p).st.trials ≤ 15 * (blls p).nit ∧
      (blls p).st.subs ≤ n * (blls p).nit ∧ (blls p).st.backs ≤ 4 * (blls p).st.subs ∧
      (blls p).st.resn = p.nrmM (p.A.mulVec (blls p).st.s - p.b) ∧
      ((blls p).exitc = 0 ∨ (blls p).exitc = 1 ∨ (blls p).exitc = -1) ∧
      ((blls p).st.tiny = false → Within p.lb p.ub (blls p).st.s) := by
  obtain ⟨R, hR, e1, e2, e3, e4⟩ := blls_end p hc
  refine ⟨by rw [e3]; exact hR.nit, by rw [e1, e3]; exact hR.trials, by rw [e1, e3]; exact hR.subs,
    by rw [e1]; exact hR.backs, ?_, ?_, by rw [e1]; exact hR.inv.within⟩
  · rw [e1, hR.inv.resn, hR.inv.res]; rfl
  · rcases e4 with ⟨h1, -⟩ | h1
    · rcases hR.exit with h2 | h2
      · exact Or.inl (h1.trans h2)
      · exact Or.inr (Or.inr (h1.trans h2))
    · exact Or.inr (Or.inl h1)

/-- The number of trial points of one Cauchy search. -/
theorem C45_cauchy_trials (p : BllsIn K m n) (hc : Consistent p.lb p.ub) (s g : Fin n → K)
    (α : K) : (cauchy p s g 14 1 α).1 ≤ 15 ∧ Within p.lb p.ub (cauchy p s g 14 1 α).2 :=
  cauchy_spec p hc s g 14 1 α

/-- C45, the last clause: the step towards the subspace minimiser, from a point within the bounds, keeps every free component within its bounds
that changes by at least `1e-14` or not at all, and `tiny` is set exactly if there are other components. -/
theorem C45_block_step (p : BllsIn K m n) (ssub : Fin n → K) (r : Fin m → K) (S : BState K m n) (hs : Within p.lb p.ub S.s) :
    (∀ i ∈ S.free, (ssub i = S.s i ∨ 1 / 10 ^ 14 ≤ |ssub i - S.s i|) → InB (p.lb i) (p.ub i) ((blockStep p ssub r S).s i)) ∧
    ((blockStep p ssub r S).tiny = true ↔ S.tiny = true ∨ ∃ i ∈ S.free, ssub i ≠ S.s i ∧ |ssub i - S.s i| < 1 / 10 ^ 14) := by
  obtain ⟨-, -, m2⟩ := maxStep_spec p S.free S.s (ssub - S.s) hs
  refine ⟨fun i hi h => m2 i hi ?_, ?_⟩
  · simpa [sub_eq_zero, cDzer] using h
  · simp [blockStep, cDzer, sub_eq_zero]

/-- C45_block_step is not void: a component cut at its bound `1/2`. -/
example : ∃ (p : BllsIn ℚ 1 1) (S : BState ℚ 1 1), Within p.lb p.ub S.s ∧ (0 : Fin 1) ∈ S.free ∧ (blockStep p (fun _ => 2) (fun _ => 0) S).s 0 = 1 / 2 := by
  refine ⟨⟨fun _ _ => 1, fun _ => 2, fun _ => none, fun _ => some (1 / 2), fun v => |v 0|, fun v => |v 0|, fun _ _ _ => 2⟩,
    ⟨fun _ => 0, fun _ => -2, 2, [], [], 0, [], [], 0, false, 0, 0, 0⟩, fun i => ⟨fun l h => (by cases h), fun u h => ?_⟩, by decide, by decide +kernel⟩
  simp only [Option.some.injEq] at h
  subst h
  norm_num

/-- C59, full statement: *if the exit code is 0, the returned point is a solution: the residual
is at most `1e-11` or the norm of the projected gradient step at it is at most `1e-10`*; false
(`C59_not_optimal`): a Cauchy point with all variables at bounds is returned as
solution.  Proved: this is the only exception. -/
theorem C59_exit_zero_partial (p : BllsIn K m n) (hc : Consistent p.lb p.ub)
    (h : (blls p).exitc = 0) :
    p.nrmM (p.A.mulVec (blls p).st.s - p.b) ≤ 1 / 10 ^ 11 ∨
      p.nrmN (p.clip ((blls p).st.s - p.A.transpose.mulVec (p.A.mulVec (blls p).st.s - p.b)) -
        (blls p).st.s) ≤ 1 / 10 ^ 10 ∨
      ∀ i, p.lb i = some ((blls p).st.s i) ∨ p.ub i = some ((blls p).st.s i) := by
  obtain ⟨R, hR, e1, e2, e3, e4⟩ := blls_end p hc
  have hres : R.st.resn = p.nrmM (p.A.mulVec (blls p).st.s - p.b) := by
    rw [e1, hR.inv.resn, hR.inv.res]; rfl
  rw [← hres, e1]
  rcases e4 with ⟨h1, h2⟩ | h1
  · rcases h2 (h1.symm.trans h) with h3 | h3
    · rcases hR.opt with h4 | ⟨-, h4 | h4⟩
      · right; left
        rw [h4] at h3
        exact h3
      · left; exact h4
      · right; right; exact h4
    · left; exact h3
  · rw [h1] at h; cases h

/-! ### Counterexamples and concrete cases -/

namespace Ex

/-- One-norm. -/
def norm1 {k : ℕ} (v : Fin k → ℚ) : ℚ := ((List.finRange k).map fun i => |v i|).sum

/-- Three variables (the third has no influence), target `(1 + 5e-15, 0)`, upper bounds `(1, 0)`. The
subspace solver returns the exact minimiser if `x1` is fixed, but not otherwise. -/
def slip : BllsIn ℚ 2 3 where
  A := !![1, -1, 0; 0, 1, 0]
  b := ![1 + 5 / 10 ^ 15, 0]
  lb := fun _ => none
  ub := ![some 1, some 0, none]
  nrmM := norm1
  nrmN := norm1
  pinv := fun free _ => if free.length = 3 then ![-8, 32, 0] else ![1 + 5 / 10 ^ 15, 0, 0]

end Ex

/-- Negation of the first part of C45 for arbitrary results of the subspace solver: exit code 0 and a
point beyond its bound. -/
theorem C45_kernel_slip : ∃ p : BllsIn ℚ 2 3, Consistent p.lb p.ub ∧ (blls p).exitc = 0 ∧
    ¬ Within p.lb p.ub (blls p).st.s := by
  refine ⟨Ex.slip, fun i l u h => (by cases h), by decide +kernel, fun h => ?_⟩
  have h1 := (h 0).2 1 rfl
  have h2 : ¬ (blls Ex.slip).st.s 0 ≤ 1 := by decide +kernel
  exact h2 h1

/-- A bounded problem whose unconstrained solution `(0, 5/2)` is infeasible, with the exact
least-squares solutions of the subproblems. -/
def Ex.inner : BllsIn ℚ 2 2 where
  A := !![-2, -2; -2, -1]
  b := ![-5, -3]
  lb := ![some 0, some 0]
  ub := ![some 2, some 1]
  nrmM := Ex.norm1
  nrmN := Ex.norm1
  pinv := fun free r =>
    if free = [0, 1] then ![(-r 0 + 2 * r 1) / -2, (-2 * r 1 + 2 * r 0) / -2]
    else if free = [0] then ![(-2 * r 0 - 2 * r 1) / 8, 0] else ![0, (-2 * r 0 - r 1) / 5]

/-- One Cauchy step and one subspace step; the bounded solution `(5/4, 1)`. -/
example : Consistent Ex.inner.lb Ex.inner.ub ∧ (blls Ex.inner).exitc = 0 ∧
    (blls Ex.inner).st.tiny = false ∧ (blls Ex.inner).st.subs = 1 ∧
    (blls Ex.inner).st.s = ![5 / 4, 1] := by
  refine ⟨?_, by decide +kernel, by decide +kernel, by decide +kernel, by decide +kernel⟩
  intro i l u hl hu
  fin_cases i
  · obtain rfl : (0 : ℚ) = l := Option.some.inj hl
    obtain rfl : (2 : ℚ) = u := Option.some.inj hu
    norm_num
  · obtain rfl : (0 : ℚ) = l := Option.some.inj hl
    obtain rfl : (1 : ℚ) = u := Option.some.inj hu
    norm_num

namespace Ex

/-- Euclidean norm. -/
noncomputable def norm2 {k : ℕ} (v : Fin k → ℝ) : ℝ := √(∑ i, v i ^ 2)

/-- Two variables in `[0,4] x [0,1]`, an invertible matrix; the subspace solver is exact for the whole
space (the only call). -/
noncomputable def corner : BllsIn ℝ 2 2 where
  A := !![-4, -1; -4, 2]
  b := ![-5, 5]
  lb := ![some 0, some 0]
  ub := ![some 4, some 1]
  nrmM := norm2
  nrmN := norm2
  pinv := fun _ _ => ![5 / 12, 10 / 3]

end Ex

open Ex in
/-- `pinv` of the example solves the unconstrained problem, with residual 0. -/
example : corner.A.mulVec (corner.pinv (List.finRange 2) corner.b) = corner.b := by
  funext j
  fin_cases j <;> simp [corner, Matrix.mulVec, dotProduct, Fin.sum_univ_two] <;> norm_num

/-- A run that accepts the first Cauchy point, which has all variables at bounds. -/
theorem blls_corner (p : BllsIn K m n) (hn : 0 < n) (s0 s1 : Fin n → K)
    (h0 : p.clip (p.pinv (List.finRange n) p.b) = s0)
    (h1 : ¬ (p.measure s0 (p.resid s0) ≤ cConv ∨ p.nrmM (p.resid s0) ≤ cRes))
    (h2 : p.clip (s0 - (p.nrmN (p.grad (p.resid s0)) /
      p.nrmM (p.A.mulVec (p.grad (p.resid s0)))) ^ 2 • p.grad (p.resid s0)) = s1)
    (h3 : p.grad (p.resid s0) ⬝ᵥ (s1 - s0) + 1 / 2 * p.nrmM (p.A.mulVec (s1 - s0)) ^ 2 ≤
      cArmijo * (p.grad (p.resid s0) ⬝ᵥ (s1 - s0)))
    (h4 : ∀ i, p.lb i = some (s1 i) ∧ ¬ nearB (p.ub i) (s1 i) = true ∨
      p.ub i = some (s1 i)) :
    (blls p).st.s = s1 ∧ (blls p).exitc = 0 ∧ (blls p).opt = 0 := by
  have hcz : (0 : K) ≤ cFeas := by unfold cFeas; positivity
  have hca : cauchy p s0 (p.grad (p.resid s0)) 14 1 ((p.nrmN (p.grad (p.resid s0)) /
      p.nrmM (p.A.mulVec (p.grad (p.resid s0)))) ^ 2) = (1, s1) := by
    unfold cauchy
    simp only
    rw [h2, if_pos h3]
  generalize hal : (List.finRange n).filter (fun i => nearB (p.lb i) (s1 i)) = atlb
  generalize hau : (List.finRange n).filter (fun i => nearB (p.ub i) (s1 i)) = atub
  have hput : putBounds p atlb atub s1 = s1 := by
    funext i
    unfold putBounds
    rcases h4 i with ⟨h5, h6⟩ | h5
    · rw [if_neg (by rw [← hau]; simpa using h6), if_pos (by
        rw [← hal]; simp [h5, nearB, hcz]), h5]
      rfl
    · rw [if_pos (by rw [← hau]; simp [h5, nearB, hcz]), h5]
      rfl
  have hfree : ∀ T : BState K m n, T.atlb = atlb → T.atub = atub → T.free.length = 0 := by
    intro T e1 e2
    rw [List.length_eq_zero_iff]
    unfold BState.free
    rw [List.filter_eq_nil_iff]
    intro i _
    simp only [decide_eq_true_eq, not_and, not_not]
    intro hi
    rw [e1, ← hal] at hi
    rw [e2, ← hau]
    rcases h4 i with ⟨h5, h6⟩ | h5
    · simp [h5, nearB, hcz] at hi
    · simp [h5, nearB, hcz]
  have hit : ∀ S : BState K m n, S.s = s0 → S.res = p.resid s0 → ∃ S1,
      bllsIter p S = some (S1, 0) ∧ S1.s = s1 := by
    intro S e1 e2
    unfold bllsIter
    simp only
    rw [e1, e2, hca]
    simp only
    rw [hal, hau, hput, if_neg (by norm_num), if_pos (Or.inl (hfree _ rfl rfl))]
    exact ⟨_, rfl, rfl⟩
  unfold blls
  simp only
  rw [h0, if_neg h1]
  obtain ⟨k, rfl⟩ : ∃ k, n = k + 1 := ⟨n - 1, by omega⟩
  rw [show 2 * (k + 1) = (2 * k + 1) + 1 by ring]
  unfold bllsLoop
  simp only
  obtain ⟨S1, e1, e2⟩ := hit ⟨s0, p.resid s0, p.nrmM (p.resid s0), [], [], 0, [], [], 0, false,
    0, 0, 0⟩ rfl rfl
  rw [e1]
  simp only
  rw [if_pos (Or.inl (by unfold cConv; positivity))]
  rw [if_neg (by simp)]
  exact ⟨e2, rfl, rfl⟩

open Ex in
theorem Ex.corner_result : (blls corner).st.s = ![0, 1] ∧ (blls corner).exitc = 0 ∧
    (blls corner).opt = 0 := by
  have hA : ∀ v : Fin 2 → ℝ, corner.A.mulVec v = ![-4 * v 0 - v 1, -4 * v 0 + 2 * v 1] := by
    intro v; funext j
    fin_cases j <;> simp [corner, Matrix.mulVec, dotProduct, Fin.sum_univ_two] <;> ring
  have hAT : ∀ v : Fin 2 → ℝ, corner.grad v = ![-4 * v 0 - 4 * v 1, - v 0 + 2 * v 1] := by
    intro v; funext j
    fin_cases j <;>
      simp [BllsIn.grad, corner, Matrix.mulVec, dotProduct, Fin.sum_univ_two] <;> ring
  have hcl : ∀ v : Fin 2 → ℝ, corner.clip v = ![min (max (v 0) 0) 4, min (max (v 1) 0) 1] := by
    intro v; funext j
    fin_cases j <;> simp [BllsIn.clip, corner, atMost, atLeast]
  have hr : corner.resid ![5 / 12, 1] = ![7 / 3, -14 / 3] := by
    unfold BllsIn.resid
    rw [hA]
    funext j
    fin_cases j <;> simp [corner] <;> norm_num
  have hg : corner.grad ![7 / 3, -14 / 3] = ![28 / 3, -35 / 3] := by
    rw [hAT]; funext j
    fin_cases j <;> simp <;> norm_num
  have hAg : corner.A.mulVec ![28 / 3, -35 / 3] = ![-77 / 3, -182 / 3] := by
    rw [hA]; funext j
    fin_cases j <;> simp <;> norm_num
  have hn : ∀ a b : ℝ, norm2 ![a, b] ^ 2 = a ^ 2 + b ^ 2 := by
    intro a b
    unfold norm2
    rw [Real.sq_sqrt (by positivity)]
    simp [Fin.sum_univ_two]
  have hnn : ∀ v : Fin 2 → ℝ, 0 ≤ norm2 v := fun v => Real.sqrt_nonneg _
  have hM : ∀ v, corner.nrmM v = norm2 v := fun _ => rfl
  have hN : ∀ v, corner.nrmN v = norm2 v := fun _ => rfl
  refine blls_corner corner (by norm_num) ![5 / 12, 1] ![0, 1] ?_ ?_ ?_ ?_ ?_
  · rw [hcl]; funext j
    fin_cases j <;> simp [corner] <;> norm_num
  · rintro (h | h)
    · unfold BllsIn.measure at h
      rw [hr, hg, hcl, hN] at h
      have e : (![min (max ((![5 / 12, 1] - ![28 / 3, -35 / 3] : Fin 2 → ℝ) 0) 0) 4,
          min (max ((![5 / 12, 1] - ![28 / 3, -35 / 3] : Fin 2 → ℝ) 1) 0) 1] - ![5 / 12, 1] :
            Fin 2 → ℝ) = ![-5 / 12, 0] := by
        funext j
        fin_cases j <;> simp <;> norm_num
      rw [e] at h
      have h2 := hn (-5 / 12) 0
      have h3 := hnn ![-5 / 12, 0]
      unfold cConv at h
      nlinarith
    · rw [hr, hM] at h
      have h2 := hn (7 / 3) (-14 / 3)
      have h3 := hnn ![7 / 3, -14 / 3]
      unfold cRes at h
      nlinarith
  · rw [hr, hg, hAg, hN, hM, div_pow, hn, hn, hcl]
    funext j
    fin_cases j <;> simp <;> norm_num
  · rw [hr, hg, hM, hA]
    rw [hn]
    simp [dotProduct, Fin.sum_univ_two, cArmijo]
    norm_num
  · intro i
    fin_cases i
    · left
      simp [corner, nearB, cFeas]
      norm_num
    · right
      simp [corner]

open Ex in
/-- Negation of C59, with the exact solution of the unconstrained problem and the Euclidean
norm: exit code 0 and `opt = 0` for the point `(0, 1)`, but the projected gradient step there
is `(4, 0)`, and `(1/8, 1)` has a smaller residual. -/
theorem C59_not_optimal : (blls corner).exitc = 0 ∧ (blls corner).opt = 0 ∧
    Within corner.lb corner.ub ![1 / 8, 1] ∧
    (∑ j, (corner.A.mulVec ![1 / 8, 1] - corner.b) j ^ 2) <
      (∑ j, (corner.A.mulVec (blls corner).st.s - corner.b) j ^ 2) ∧
    ¬ (corner.measure (blls corner).st.s (corner.resid (blls corner).st.s) ≤ 3 ∨
      corner.nrmM (corner.resid (blls corner).st.s) ≤ 3) := by
  obtain ⟨h1, h2, h3⟩ := corner_result
  refine ⟨h2, h3, ?_, ?_, ?_⟩
  · intro i
    fin_cases i <;> simp [InB, corner] <;> norm_num
  · rw [h1]
    simp [corner, Matrix.mulVec, dotProduct, Fin.sum_univ_two]
    norm_num
  · rw [h1]
    have hr : corner.resid ![0, 1] = ![4, -3] := by
      funext j
      fin_cases j <;>
        simp [BllsIn.resid, corner, Matrix.mulVec, dotProduct, Fin.sum_univ_two] <;> norm_num
    have hg : corner.grad ![4, -3] = ![-4, -10] := by
      funext j
      fin_cases j <;>
        simp [BllsIn.grad, corner, Matrix.mulVec, dotProduct, Fin.sum_univ_two] <;> norm_num
    have hd : corner.clip (![0, 1] - corner.grad ![4, -3]) - ![0, 1] = ![4, 0] := by
      rw [hg]
      funext j
      fin_cases j <;> simp [BllsIn.clip, corner, atLeast, atMost]
    rintro (h | h)
    · unfold BllsIn.measure at h
      rw [hr, hd] at h
      change norm2 ![4, 0] ≤ 3 at h
      unfold norm2 at h
      rw [Real.sqrt_le_left (by norm_num)] at h
      simp [Fin.sum_univ_two] at h
      norm_num at h
    · rw [hr] at h
      change norm2 ![4, -3] ≤ 3 at h
      unfold norm2 at h
      rw [Real.sqrt_le_left (by norm_num)] at h
      simp [Fin.sum_univ_two] at h

#print axioms C45_bounded_partial
#print axioms C45_kernel_slip
#print axioms C45_block_step
#print axioms C59_exit_zero_partial
#print axioms C59_not_optimal

end Sqpdfo
