import Verif.Lemmas.Eval
import Mathlib.Data.List.Forall2

/-!
# C06, C07, C08: evaluations of the user's functions
-/

set_option linter.unusedSectionVars false

namespace Sqpdfo
open Spec
variable {P K : Type} [Field K] [LinearOrder K] [IsStrictOrderedRing K]

/-- **C06.** One evaluation at the next free index, for every answer of the user's functions
that is a number or an exception: either the answers count as a failure, then the status
becomes 3 and nothing is recorded, or they do not, then the status is unchanged and exactly
the (clipped) values are appended. -/
theorem C06_failures_reported_not_recorded (U : User P K) (y : P) (m : ℕ) (s : EvSt P K)
    (hf : s.fX.length ≤ m) (hc : s.ceX.length ≤ m) (hother : answerF U s.w y ≠ .other) :
    ∃ s', augmX U (.fin big) y m s = some s' ∧ Effect U y s s' := by
  obtain ⟨hlog, -, hr, hn⟩ := sqpdfoFunc_spec U y s.w
  have hfX : ∀ a, setOrAppend s.fX m a = s.fX ++ [a] := by
    intro a; simp [setOrAppend, Nat.not_lt.mpr hf]
  have hcX : ∀ a, setOrAppend s.ceX m a = s.ceX ++ [a] := by
    intro a; simp [setOrAppend, Nat.not_lt.mpr hc]
  cases ha : answerF U s.w y with
  | other => exact absurd ha hother
  | raised =>
    have h1 := hr ha
    refine ⟨_, by simp only [augmX, h1, Fl.isNan, Fl.isInf]; rfl, ?_⟩
    refine .fail ?_ rfl rfl rfl
    exact Or.inl ha
  | num v =>
    obtain ⟨h1, h2, h3, h4, h5⟩ := hn v ha
    cases v with
    | nan =>
      refine ⟨_, by simp only [augmX, h1, Fl.isNan]; rfl, ?_⟩
      refine .fail ?_ rfl rfl rfl
      exact Or.inr (Or.inl ha)
    | pinf =>
      refine ⟨_, by simp only [augmX, h1, Fl.isNan, Fl.isInf]; rfl, ?_⟩
      refine .fail ?_ rfl rfl rfl
      exact Or.inr (Or.inr (Or.inl ha))
    | ninf =>
      refine ⟨_, by simp only [augmX, h1, Fl.isNan, Fl.isInf]; rfl, ?_⟩
      refine .fail ?_ rfl rfl rfl
      exact Or.inr (Or.inr (Or.inr (Or.inl ha)))
    | fin q =>
      by_cases hnan : (sqpdfoFunc U y s.w).1.c.any Fl.isNan = true
      · refine ⟨_, by simp only [augmX, h1, Fl.isNan, Fl.isInf, hnan]; rfl, ?_⟩
        refine .fail ?_ rfl rfl rfl
        rw [List.any_eq_true] at hnan
        obtain ⟨v, hv, hvn⟩ := hnan
        have hv' : v = .nan := by cases v <;> simp [Fl.isNan] at hvn ⊢
        subst hv'
        cases hco : answerC U s.w y with
        | none => rw [h3 hco] at hv; cases hv
        | some co =>
          cases co with
          | raised => rw [h4 hco] at hv; cases hv
          | nums vs =>
            rw [h5 vs hco] at hv
            exact Or.inr (Or.inr (Or.inr (Or.inr (Or.inr ⟨vs, rfl, hv⟩))))
      · have hnan' : (sqpdfoFunc U y s.w).1.c.any Fl.isNan = false := by simpa using hnan
        by_cases hmsg : (sqpdfoFunc U y s.w).1.msg = true
        · refine ⟨_, by simp only [augmX, h1, Fl.isNan, Fl.isInf, hnan', hmsg]; rfl, ?_⟩
          refine .fail ?_ rfl rfl rfl
          exact Or.inr (Or.inr (Or.inr (Or.inr (Or.inl (h2.mp hmsg)))))
        · have hmsg' : (sqpdfoFunc U y s.w).1.msg = false := by simpa using hmsg
          obtain ⟨r, hr, hclip, -⟩ := fmin_spec q
          have hnn : ∀ v ∈ (sqpdfoFunc U y s.w).1.c, v ≠ Fl.nan := by
            rintro v hv rfl
            exact hnan (List.any_eq_true.mpr ⟨_, hv, rfl⟩)
          have hco : answerC U s.w y = none ∧ (sqpdfoFunc U y s.w).1.c = [] ∨
              answerC U s.w y = some (.nums (sqpdfoFunc U y s.w).1.c) := by
            cases hco : answerC U s.w y with
            | none => exact Or.inl ⟨rfl, h3 hco⟩
            | some co =>
              cases co with
              | raised => exact absurd (h2.mpr hco) hmsg
              | nums vs => rw [h5 vs hco]; exact Or.inr rfl
          refine ⟨_, by simp only [augmX, h1, Fl.isNan, Fl.isInf, hnan', hmsg']; rfl, ?_⟩
          refine .good q r _ ((sqpdfoFunc U y s.w).1.c.map clipCe) ?_ ha hclip hco ?_ rfl ?_ ?_
          · rw [ha]
            rintro (h | h | h | h | h | ⟨vs, h, h'⟩)
            · cases h
            · cases h
            · cases h
            · cases h
            · exact hmsg (h2.mpr h)
            · rw [← h5 vs h] at h'
              exact hnn _ h' rfl
          · rw [List.forall₂_map_right_iff]
            apply List.forall₂_same.mpr
            intro v hv
            exact (clipCe_spec v (hnn v hv)).2
          · show setOrAppend s.fX m _ = _
            rw [hfX, hr]
          · by_cases he : (sqpdfoFunc U y s.w).1.c = []
            · left; refine ⟨he, ?_⟩
              simp [he]
            · right; refine ⟨he, ?_⟩
              show (if _ then _ else _) = _
              simp [he, hcX]

/-- A value returned by the user that is not a number escapes as an exception instead of
being reported as status 3. -/
theorem C06_nonnumber_raises (U : User P K) (y : P) (m : ℕ) (s : EvSt P K)
    (h : answerF U s.w y = .other) : augmX U (.fin big) y m s = none := by
  have := (sqpdfoFunc_spec U y s.w).2.1 h
  simp only [augmX, this]

/-- All recorded values of a state are finite and within the limits. -/
def RecordedOk (s : EvSt P K) : Prop :=
  (∀ v ∈ s.fX, GoodF v) ∧ ∀ ce ∈ s.ceX, ∀ v ∈ ce, GoodC v

/-- One evaluation keeps the recorded values within the limits; values inside the limits are
recorded unchanged (`ClipF`, `ClipC` in `Effect`). -/
theorem C07_step (U : User P K) (y : P) (m : ℕ) (s s' : EvSt P K)
    (hf : s.fX.length ≤ m) (hc : s.ceX.length ≤ m) (hs : RecordedOk s)
    (h : augmX U (.fin big) y m s = some s') : RecordedOk s' := by
  have hother : answerF U s.w y ≠ .other := by
    intro ho; rw [C06_nonnumber_raises U y m s ho] at h; cases h
  obtain ⟨t, ht, he⟩ := C06_failures_reported_not_recorded U y m s hf hc hother
  rw [h] at ht; cases ht
  cases he with
  | fail _ _ h1 h2 => unfold RecordedOk; rw [h1, h2]; exact hs
  | good q r ce ce' hnf ha hq hco hce _ h1 h2 =>
    have hr : r ≤ 10 ^ 25 := by
      rcases le_or_gt q (10 ^ 25) with h | h
      · rw [hq.1 h]; exact h
      · rw [hq.2 h]
    have hce' : ∀ v ∈ ce', GoodC v := by
      intro v hv
      obtain ⟨i, hi, rfl⟩ := List.mem_iff_getElem.mp hv
      have hlen := hce.length_eq
      have hcl := List.forall₂_iff_get.mp hce
      have := hcl.2 i (by omega) hi
      simp only [List.get_eq_getElem] at this
      have hb : (0 : K) < 10 ^ 25 := by positivity
      have hmem : ce[i] ∈ ce := List.getElem_mem _
      cases hv : ce[i]'(by omega) with
      | nan =>
        exfalso
        rcases hco with ⟨_, hce0⟩ | hco
        · subst hce0; simp only [List.length_nil] at hlen; omega
        · rw [hv] at hmem
          exact hnf (Or.inr (Or.inr (Or.inr (Or.inr (Or.inr ⟨ce, hco, hmem⟩)))))
      | pinf => rw [this.1 hv]; exact ⟨_, rfl, by linarith, le_refl _⟩
      | ninf => rw [this.2.1 hv]; exact ⟨_, rfl, le_refl _, by linarith⟩
      | fin x =>
        have hx := this.2.2 x hv
        rcases lt_or_ge (10 ^ 25) x with h1 | h1
        · rw [hx.1 h1]; exact ⟨_, rfl, by linarith, le_refl _⟩
        · rcases lt_or_ge x (-10 ^ 25) with h2 | h2
          · rw [hx.2.1 h2]; exact ⟨_, rfl, le_refl _, by linarith⟩
          · rw [hx.2.2 h2 h1]; exact ⟨_, rfl, h2, h1⟩
    constructor
    · rw [h1]
      intro v hv
      rcases List.mem_append.mp hv with hv | hv
      · exact hs.1 v hv
      · rw [List.mem_singleton] at hv
        exact ⟨r, hv, hr⟩
    · intro c hc v hv
      rcases h2 with ⟨_, h2⟩ | ⟨_, h2⟩
      · rw [h2] at hc; exact hs.2 c hc v hv
      · rw [h2] at hc
        rcases List.mem_append.mp hc with hc | hc
        · exact hs.2 c hc v hv
        · rw [List.mem_singleton] at hc; subst hc; exact hce' v hv

/-- Number of stored points, values and the counter after one evaluation at the next free
index. -/
theorem augmX_bookkeeping (U : User P K) (y : P) (s s' : EvSt P K)
    (h : augmX U (.fin big) y s.X.length s = some s') :
    s'.X = s.X ++ [y] ∧ s'.nsimul = s.nsimul + 1 ∧ s'.w.logF = s.w.logF ++ [y] := by
  have hlog := (sqpdfoFunc_spec U y s.w).1
  have hX : setOrAppend s.X s.X.length y = s.X ++ [y] := by simp [setOrAppend]
  simp only [augmX, hX] at h
  split at h
  · cases h
  · cases h
  · repeat' split at h
    all_goals
      simp only [Option.some.injEq] at h
      subst h
      exact ⟨rfl, rfl, hlog⟩

/-- **C07.** Along every sequence of evaluations (of any length, with any answers) all
recorded values stay finite and within the limits. -/
theorem C07_recorded_values_clipped (U : User P K) (ys : List P) (s s' : EvSt P K)
    (hf : s.fX.length ≤ s.X.length) (hc : s.ceX.length ≤ s.X.length) (hs : RecordedOk s)
    (h : evalSeq U (.fin big) ys s = some s') : RecordedOk s' := by
  induction ys generalizing s with
  | nil => simp only [evalSeq, Option.some.injEq] at h; exact h ▸ hs
  | cons y ys ih =>
    simp only [evalSeq] at h
    split at h
    · cases h
    · rename_i t ht
      have hok := C07_step U y _ s t hf hc hs ht
      split at h
      · have hother : answerF U s.w y ≠ .other := by
          intro ho; rw [C06_nonnumber_raises U y _ s ho] at ht; cases ht
        obtain ⟨t', ht', he⟩ := C06_failures_reported_not_recorded U y _ s hf hc hother
        rw [ht] at ht'; cases ht'
        have hb := augmX_bookkeeping U y s t ht
        refine ih t ?_ ?_ hok h
        · rw [hb.1]
          cases he with
          | fail _ _ h1 h2 => rw [h1]; simp; omega
          | good q r ce ce' _ _ _ _ _ _ h1 h2 => rw [h1]; simpa using hf
        · rw [hb.1]
          cases he with
          | fail _ _ h1 h2 => rw [h2]; simp; omega
          | good q r ce ce' _ _ _ _ _ _ h1 h2 =>
            rcases h2 with ⟨_, h2⟩ | ⟨_, h2⟩
            · rw [h2]; simp; omega
            · rw [h2]; simpa using hc
      · simp only [Option.some.injEq] at h; exact h ▸ hok

/-- **C08 (evaluation level).** The counter equals the number of calls of the user's
objective and the stored points are exactly the points of these calls, along every sequence
of evaluations, including one that ends with a failure. -/
theorem C08_counter_counts_calls (U : User P K) (ys : List P) (s s' : EvSt P K)
    (hX : s.X = s.w.logF) (hn : s.nsimul = s.w.logF.length)
    (h : evalSeq U (.fin big) ys s = some s') :
    s'.X = s'.w.logF ∧ s'.nsimul = s'.w.logF.length := by
  induction ys generalizing s with
  | nil => simp only [evalSeq, Option.some.injEq] at h; subst h; exact ⟨hX, hn⟩
  | cons y ys ih =>
    simp only [evalSeq] at h
    split at h
    · cases h
    · rename_i t ht
      obtain ⟨h1, h2, h3⟩ := augmX_bookkeeping U y s t ht
      have hX' : t.X = t.w.logF := by rw [h1, h3, hX]
      have hn' : t.nsimul = t.w.logF.length := by rw [h2, h3, hn]; simp
      split at h
      · exact ih t hX' hn' h
      · simp only [Option.some.injEq] at h; subst h; exact ⟨hX', hn'⟩

/-! ### Non-vacuity -/

/-- A user whose objective returns a huge value first, then fails, and whose constraint
function returns an infinite component. -/
def exampleUser : User ℚ ℚ where
  f := fun w x => if w.logF.length < 2 then .num (.fin (10 ^ 30 * x)) else .num .nan
  c := some (fun _ x => .nums [.fin x, .pinf])

/-- The empty history. -/
def emptySt : EvSt ℚ ℚ := ⟨[], [], [], 0, .ninf, 0, ⟨[], []⟩⟩

example : ∃ s', evalSeq exampleUser (.fin big) [1, -1, 2, 5] emptySt = some s' ∧
    s'.flag = 3 ∧ s'.nsimul = 3 ∧ s'.fX = [.fin (10 ^ 25), .fin (-10 ^ 30)] ∧
    s'.ceX = [[.fin 1, .fin (10 ^ 25)], [.fin (-1), .fin (10 ^ 25)]] ∧ s'.X = [1, -1, 2] := by
  refine ⟨_, rfl, ?_⟩
  decide +kernel

example : RecordedOk emptySt := ⟨by simp [emptySt], by simp [emptySt]⟩

/-- A failing evaluation in the sense of the specification. -/
example : Failing (answerF exampleUser ⟨[1, 2], []⟩ 7) (answerC exampleUser ⟨[1, 2], []⟩ 7) :=
  Or.inr (Or.inl rfl)

/-- A non-failing evaluation, with clipping. -/
example : answerF exampleUser ⟨[], []⟩ 1 ≠ .other ∧
    ¬ Failing (answerF exampleUser ⟨[], []⟩ 1) (answerC exampleUser ⟨[], []⟩ 1) := by
  constructor
  · simp [answerF, exampleUser]
  · rintro (h | h | h | h | h | ⟨vs, h, h'⟩)
    all_goals first
      | (simp [answerF, exampleUser] at h; done)
      | (simp [answerC, exampleUser] at h; done)
      | (simp [answerC, exampleUser] at h; subst h; simp at h')

#print axioms C06_failures_reported_not_recorded
#print axioms C06_nonnumber_raises
#print axioms C07_recorded_values_clipped
#print axioms C08_counter_counts_calls

end Sqpdfo
