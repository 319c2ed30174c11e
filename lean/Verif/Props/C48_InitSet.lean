import Verif.Lemmas.InitSet

/-! # C48: initial sampling -/

set_option linter.unusedSectionVars false

namespace Sqpdfo
open Spec
variable {K : Type} [Field K] [LinearOrder K] [IsStrictOrderedRing K]

/-- C48, full statement: *for all objectives and start points the construction of the
initial interpolation set ends*.  It is false for the start point 0
(`C48_never_ends`).  Proved here (`_partial`): for a start point with positive norm there is
a number `N` of passes, depending only on that norm, after which it has ended for every
behaviour of the user's functions, having made at most `N (n+1)` calls of the objective. -/
theorem C48_sampling_ends_partial [Archimedean K] (nx : K) (hx : 0 < nx) :
    ∃ N : ℕ, ∀ (U : User (List K) K) (x0 : List K) (Δ : K) (s : EvSt (List K) K),
      0 < Δ → Δ ≤ 1 →
      initLoop U x0 nx N Δ s ≠ .running ∧
      ∀ s', (initLoop U x0 nx N Δ s).st? = some s' →
        s'.nsimul ≤ s.nsimul + N * (x0.length + 1) := by
  have hst : (0 : K) < stallfact * nx := by
    apply mul_pos _ hx; unfold stallfact; positivity
  obtain ⟨N, hN⟩ := exists_pow_lt_of_lt_one hst (show (1 / 100 : K) < 1 by norm_num)
  refine ⟨N + 1, fun U x0 Δ s h0 h1 => ⟨?_, fun s' h => (initLoop_count U x0 nx _ Δ s s' h).1⟩⟩
  apply initLoop_stops
  · have h2 : (0 : K) < (1 / 100) ^ N := by positivity
    rw [pow_succ]
    nlinarith
  · omega

/-- C48, second part: an objective that never returns a finite value below `-1e25` needs a
single pass (`n+1` calls), also for the start point 0. -/
theorem C48_one_pass_partial (U : User (List K) K) (x0 : List K) (nx : K) (Δ : K)
    (s : EvSt (List K) K)
    (hU : ∀ w y q, U.f w y = .num (.fin q) → -10 ^ 25 ≤ q) :
    initLoop U x0 nx 1 Δ s ≠ .running ∧
      ∀ s', (initLoop U x0 nx 1 Δ s).st? = some s' → s'.nsimul ≤ s.nsimul + (x0.length + 1) := by
  constructor
  · have key : ∀ (ys : List (List K)) (i : ℕ) (t t' : EvSt (List K) K),
        t.fX.length = i → t.ceX.length ≤ i → t.flag = 0 ∨ True → samplePass U ys i t ≠ .broke t' := by
      intro ys
      induction ys with
      | nil => intro i t t' _ _ _; simp [samplePass]
      | cons y ys ih =>
        intro i t t' h1 h2 _
        simp only [samplePass]
        split
        · simp
        · rename_i u hu
          split
          · simp
          · rename_i hfl
            have hother : answerF U t.w y ≠ .other := by
              intro ho; rw [C06_nonnumber_raises U y _ t ho] at hu; cases hu
            obtain ⟨u', hu', he⟩ :=
              C06_failures_reported_not_recorded U y i t h1.le h2 hother
            rw [hu] at hu'; cases hu'
            cases he with
            | fail _ g1 _ _ => simp [g1] at hfl
            | good q r ce ce' _ g1 g2 _ _ _ g3 g4 =>
              have hr : ¬ (big < |r|) := by
                have hq := hU _ _ _ g1
                have hb : (0 : K) < 10 ^ 25 := by positivity
                rw [not_lt, abs_le]
                unfold big
                rcases le_or_gt q (10 ^ 25) with h | h
                · rw [g2.1 h]; exact ⟨hq, h⟩
                · rw [g2.2 h]; exact ⟨by linarith, le_refl _⟩
              have hget : u.fX[i]? = some (.fin r) := by
                rw [g3, List.getElem?_append_right (by omega)]; simp [h1]
              rw [hget]
              simp only [tooBig, hr, decide_false, Bool.false_eq_true, if_false]
              refine ih (i + 1) u t' (by rw [g3]; simp [h1]) ?_ (Or.inr trivial)
              rcases g4 with ⟨_, g4⟩ | ⟨_, g4⟩
              · rw [g4]; omega
              · rw [g4]; simp; omega
    simp only [initLoop]
    split
    · simp
    · simp
    · split
      · simp
      · split <;> simp
    · rename_i t ht
      exact absurd ht (key _ _ _ _ rfl (by simp) (Or.inr trivial))
  · intro s' h
    simpa using (initLoop_count U x0 nx 1 Δ s s' h).1

/-- The result of a completed sampling: the stored points are the simplex with the final
radius, there is one recorded value per point, none above `1e25` in absolute value, and no
failure is reported. -/
theorem C48_done_complete (U : User (List K) K) (x0 : List K) (nx : K) :
    ∀ (N : ℕ) (Δ D : K) (s s' : EvSt (List K) K), s.flag = 0 →
      initLoop U x0 nx N Δ s = .done D s' →
      s'.flag = 0 ∧ s'.X = simplex x0 D ∧ s'.fX.length = x0.length + 1 ∧
      (∀ v ∈ s'.fX, tooBig v = false) ∧ ∃ k, D = (1 / 100) ^ k * Δ := by
  intro N
  induction N with
  | zero => intro Δ D s s' _ h; simp [initLoop] at h
  | succ N ih =>
    intro Δ D s s' hfl h
    simp only [initLoop] at h
    cases hp : samplePass U (simplex x0 Δ) 0
        ({ s with X := [], fX := [], ceX := [] } : EvSt (List K) K) with
    | crash => rw [hp] at h; simp at h
    | failed t => rw [hp] at h; simp at h
    | full t =>
      rw [hp] at h
      simp only at h
      obtain ⟨e1, e2, e3, vs, e4, e5⟩ := samplePass_full U _ _ _ _ hp rfl rfl hfl
      split at h
      · cases h
      · split at h
        · cases h
        · cases h
          refine ⟨e3, by simpa using e1, by simpa [simplex] using e2, ?_, 0, by simp⟩
          simpa [e4] using e5
    | broke t =>
      rw [hp] at h
      simp only at h
      have hflt : t.flag = 0 := samplePass_broke_flag U _ _ _ _ hp
      split at h
      · cases h
      · split at h
        · cases h
        · split at h
          · cases h
          · obtain ⟨a, b, c, d, k, hk⟩ := ih _ _ _ _ (by exact hflt) h
            exact ⟨a, b, c, d, k + 1, by rw [hk, pow_succ]; ring⟩

/-- The objective that is `-2e25` everywhere. -/
def bottomless : User (List ℚ) ℚ := ⟨fun _ _ => .num (.fin (-2 * 10 ^ 25)), none⟩

/-- Negation of C48: with the start point 0 and the objective `-2e25`, the sampling is still
running after any number of passes. -/
theorem C48_never_ends (N : ℕ) (Δ : ℚ) (hΔ : 0 < Δ) (s : EvSt (List ℚ) ℚ) (hs : s.flag = 0) :
    initLoop bottomless [0, 0] 0 N Δ s = .running := by
  induction N generalizing Δ s with
  | zero => rfl
  | succ N ih =>
    have hp : ∃ t, samplePass bottomless (simplex [0, 0] Δ) 0
        ({ s with X := [], fX := [], ceX := [] } : EvSt (List ℚ) ℚ) = .broke t ∧ t.flag = 0 ∧
        t.ceX = [] := by
      have hb : (10 ^ 25 : ℚ) < |-2 * 10 ^ 25| := by norm_num
      have hb' : ¬ ((10 ^ 25 : ℚ) ≤ -2 * 10 ^ 25) := by norm_num
      simp only [simplex, samplePass, augmX, sqpdfoFunc, bottomless, Fl.isNan, Fl.isInf,
        setOrAppend, Fl.fmin, Fl.le, big, hb', hs, tooBig]
      simp
    obtain ⟨t, ht, ht1, ht2⟩ := hp
    have h1 : replaceHuge t.ceX = some t.ceX := by rw [ht2]; simp [replaceHuge, finVals]
    have h2 : replaceHugeNeg t.ceX = some t.ceX := by rw [ht2]; simp [replaceHugeNeg, finVals]
    simp only [initLoop, ht, h1, h2]
    rw [if_neg (by simp; linarith)]
    exact ih _ (by linarith) _ ht1

/-- The exit for a negligible radius reports no error: the status stays 0 although
a recorded value is below `-1e25` (the caller `sqpdfo_` then continues with it). -/
theorem C48_stalled_exit_reports_success (U : User (List K) K) (x0 : List K) (nx : K) :
    ∀ (N : ℕ) (Δ : K) (s s' : EvSt (List K) K), s.flag = 0 →
      initLoop U x0 nx N Δ s = .stalled s' → s'.flag = 0 ∧ ∃ v ∈ s'.fX, tooBig v = true := by
  intro N
  induction N with
  | zero => intro Δ s s' _ h; simp [initLoop] at h
  | succ N ih =>
    intro Δ s s' hfl h
    simp only [initLoop] at h
    cases hp : samplePass U (simplex x0 Δ) 0
        ({ s with X := [], fX := [], ceX := [] } : EvSt (List K) K) with
    | crash => rw [hp] at h; simp at h
    | failed t => rw [hp] at h; simp at h
    | full t =>
      rw [hp] at h
      simp only at h
      split at h
      · cases h
      · split at h <;> cases h
    | broke t =>
      rw [hp] at h
      simp only at h
      have hflt : t.flag = 0 := samplePass_broke_flag U _ _ _ _ hp
      split at h
      · cases h
      · split at h
        · cases h
        · split at h
          · cases h
            have hv := samplePass_broke_val U _ _ _ _ hp
            exact ⟨hflt, hv⟩
          · exact ih _ _ _ (by exact hflt) h

/-! ### Concrete cases -/

/-- Start state of the sampling. -/
def initSt : EvSt (List ℚ) ℚ := ⟨[], [], [], 0, .nan, 0, ⟨[], []⟩⟩

/-- An objective that is very negative far from `(1,1)`: one restart is needed. -/
def steep : User (List ℚ) ℚ :=
  ⟨fun _ x => if x = [0, 1] then .num (.fin (-2 * 10 ^ 25)) else .num (.fin 1), none⟩

example : (match initLoop steep [1, 1] 1 2 1 initSt with
    | .done D s => decide (D = 1/100 ∧ s.nsimul = 5 ∧ s.X = [[1, 1], [99/100, 1], [1, 99/100]])
    | _ => false) = true := by
  decide +kernel

example : ∃ N, initLoop bottomless [1, 1] 1 N 1 initSt ≠ .running :=
  let ⟨N, h⟩ := C48_sampling_ends_partial (1 : ℚ) one_pos
  ⟨N, (h bottomless [1, 1] 1 initSt one_pos le_rfl).1⟩

#print axioms C48_sampling_ends_partial
#print axioms C48_one_pass_partial
#print axioms C48_done_complete
#print axioms C48_never_ends
#print axioms C48_stalled_exit_reports_success

end Sqpdfo
