import Verif.Props.C82_C84_StepDetail
import Verif.Props.C12_C16_Results

/-! # C97: when the interpolation set counts as well poised; precision and radius after its improvement -/

set_option linter.unusedSectionVars false

namespace Sqpdfo
open Spec
variable {K F : Type} [Field K] [LinearOrder K] [IsStrictOrderedRing K]

/-- **C97, flag.** At the first pass the set counts as well poised.  It no longer does after a pass
that makes the trial point the iterate or adds it to the set.  After any other pass without improvement of the
set the flag is as before; with improvement it is on exactly if the improvement replaced no point (the only
evaluation of the pass is the trial point).  In particular a rejected trial point that takes the
place of another point does not touch the flag. -/
theorem C97_flag {e : Env K F} {x0 : List K} {fuel : ℕ} {Δ : K}
    {sl : List K} {s0 : MSt K F} (H : Starts e x0 fuel Δ sl s0) (os : List (Orc K F))
    (s : MSt K F) (h : mainLoop e os s0 = .running s) (o : Orc K F) (t : MSt K F)
    (ht : pass e o s = .cont t) :
    (t.ixbest = t.m ∨ t.cur ≠ s.cur → t.poisedModel = false) ∧
      (t.ixbest ≠ t.m → t.cur = s.cur →
        (¬ Improves e o s → t.poisedModel = s.poisedModel) ∧
        (Improves e o s → (t.poisedModel = true ↔ t.m = s.m + 1))) := by
  obtain ⟨v, u, w, vi, vsl, vcur, vn, b, wx, wsl, hd, hix, hind, hm, hfr, himp⟩ := pass_stages H h ht
  obtain ⟨-, hf⟩ := decideStep_poisedFlag b.inv hd
  have hcur : u.cur = s.cur := b.cur.trans vcur
  refine ⟨fun hc => ?_, fun h1 h2 => ⟨fun hn => ?_, fun hi => ?_⟩⟩
  · rcases hf with ⟨h0, -⟩ | ⟨-, h1, h2⟩
    · exact h0
    · rcases hc with hc | hc
      · rw [h1, b.ixbest, hm] at hc
        omega
      · exact absurd (h2.trans hcur) hc
  · rcases hf with ⟨-, h0 | h0⟩ | ⟨h0, -⟩
    · exact absurd (h0.trans hm.symm) h1
    · omega
    · rw [h0, b.poisedModel, (vn hn).2.2.2.1]
  · rcases hf with ⟨-, h0 | h0⟩ | ⟨h0, -⟩
    · exact absurd (h0.trans hm.symm) h1
    · omega
    · rw [h0, b.poisedModel, (himp hi).flag, hm, b.m]
      omega

/-- The flag is set before the first pass (`sqpdfo_prelim.py` L341). -/
theorem C97_start {e : Env K F} {x0 : List K} {fuel : ℕ} {Δ : K}
    {sl : List K} {s0 : MSt K F} (H : Starts e x0 fuel Δ sl s0) :
    s0.poisedModel = true ∧ s0.epsCur = 1 / 10 ^ 5 := by
  have h := H.state
  unfold startState at h
  split at h
  · unfold mainInit at h
    split at h
    · split at h
      · cases h
      · simp only [Option.some.injEq] at h
        subst h
        exact ⟨rfl, rfl⟩
    · cases h
  · cases h

/-- **C97, precision.** The precision asked of the set changes only when the set is improved: then
to `1e-5`, or, if the last step promised no reduction, to a tenth of the radius (infeasible iterate) or a
tenth of itself, at most `1e-5` (feasible iterate).  If the step of this pass
promises no reduction, the radius is the one before the pass or, with improvement, the one set by it. -/
theorem C97_precision {e : Env K F} {x0 : List K} {fuel : ℕ} {Δ : K}
    {sl : List K} {s0 : MSt K F} (H : Starts e x0 fuel Δ sl s0) (os : List (Orc K F))
    (s : MSt K F) (h : mainLoop e os s0 = .running s) (o : Orc K F) (t : MSt K F)
    (ht : pass e o s = .cont t) :
    (¬ Improves e o s → t.epsCur = s.epsCur) ∧
      (Improves e o s → EpsAfter (s.pred = -1) (e.tolFeas < o.k1.feasn) s.delta s.epsCur t.epsCur) ∧
      (t.pred = -1 → (¬ Improves e o s → t.delta = s.delta) ∧
        (Improves e o s → RadiusAfter (s.pred = -1) o.k1.glagn s.delta t.epsCur t.delta)) := by
  obtain ⟨v, u, w, vi, vsl, vcur, vn, b, wx, wsl, hd, hix, hind, hm, hfr, himp⟩ := pass_stages H h ht
  obtain ⟨he, -⟩ := decideStep_poisedFlag b.inv hd
  refine ⟨fun hn => ?_, fun hi => ?_, fun hp => ?_⟩
  · rw [he, b.epsCur, (vn hn).2.2.2.2.1]
  · rw [he, b.epsCur]; exact (himp hi).eps
  · have hδ : t.delta = v.delta := by
      rw [decideStep_null b.inv hd hp]; exact b.delta
    refine ⟨fun hn => ?_, fun hi => ?_⟩
    · rw [hδ, (vn hn).1]
    · rw [hδ, he, b.epsCur]; exact (himp hi).delta

theorem mainLoop_snoc_inv (e : Env K F) : ∀ (os : List (Orc K F)) (o : Orc K F) (s t : MSt K F),
    mainLoop e (os ++ [o]) s = .running t →
      ∃ r, mainLoop e os s = .running r ∧ pass e o r = .cont t := by
  intro os
  induction os with
  | nil =>
    intro o s t h
    simp only [List.nil_append, mainLoop] at h
    cases hp : pass e o s with
    | cont v => rw [hp] at h; simp only [MainRes.running.injEq] at h; exact ⟨s, rfl, h ▸ hp⟩
    | ret v => rw [hp] at h; cases h
    | crash c => rw [hp] at h; cases h
  | cons a os ih =>
    intro o s t h
    simp only [List.cons_append, mainLoop] at h ⊢
    cases hp : pass e a s with
    | cont v => rw [hp] at h; exact ih o v t h
    | ret v => rw [hp] at h; cases h
    | crash c => rw [hp] at h; cases h

/-- **C97, whole runs.** As long as no pass improves the set, it counts as well poised exactly until the
first pass that changes the iterate or the size of the set; afterwards never again. -/
theorem C97_run {e : Env K F} {x0 : List K} {fuel : ℕ} {Δ : K}
    {sl : List K} {s0 : MSt K F} (H : Starts e x0 fuel Δ sl s0) (os : List (Orc K F))
    (hn : ∀ os1 o os2 r, os = os1 ++ o :: os2 → mainLoop e os1 s0 = .running r → ¬ Improves e o r)
    (s : MSt K F) (h : mainLoop e os s0 = .running s) :
    (s.poisedModel = true ↔ s.ixbest = s0.ixbest ∧ s.cur = s0.cur) ∧
      s.epsCur = 1 / 10 ^ 5 := by
  suffices h' : s0.ixbest ≤ s.ixbest ∧ s0.cur ≤ s.cur ∧
      (s.poisedModel = true ↔ s.ixbest = s0.ixbest ∧ s.cur = s0.cur) ∧ s.epsCur = 1 / 10 ^ 5 from h'.2.2
  induction os using List.reverseRecOn generalizing s with
  | nil =>
    simp only [mainLoop, MainRes.running.injEq] at h
    subst h
    have := C97_start H
    exact ⟨le_rfl, le_rfl, by simp [this.1], this.2⟩
  | append_singleton os o ih =>
    obtain ⟨r, hr, hp⟩ := mainLoop_snoc_inv e os o s0 s h
    have hno : ¬ Improves e o r := hn os o [] r rfl hr
    obtain ⟨i1, i2, i3, i4⟩ := ih
      (fun os1 o' os2 r' h1 h2 => hn os1 o' (os2 ++ [o]) r' (by rw [h1]; simp) h2) r hr
    obtain ⟨v, u, w, vi, vsl, vcur, vn, b, wx, wsl, hd, hix, hind, hm, hfr, himp⟩ :=
      pass_stages H hr hp
    obtain ⟨n1, n2, n3, n4, n5, n6⟩ := vn hno
    obtain ⟨f1, f2⟩ := decideStep_poisedFlag b.inv hd
    have e1 : u.ixbest = r.ixbest := b.ixbest.trans n6
    have e2 : u.cur = r.cur := b.cur.trans vcur
    have e3 : u.poisedModel = r.poisedModel := b.poisedModel.trans n4
    have hc : r.cur ≤ s.cur := by
      have := pass_sat e H.ok o r (H.memory os r hr).inv
      rw [hp] at this
      exact this.2.1.cur0
    have hb : s.ixbest = r.ixbest ∨ s.ixbest = u.m := by
      obtain ⟨-, f, c, -, -, ⟨-, h1, -⟩ | ⟨-, -, h1, -⟩ | ⟨-, -, ⟨h1, -⟩⟩ | ⟨-, ⟨h1, -⟩⟩⟩ :=
        decideStep_outcome e o _ u s b.inv hd
      · exact Or.inl (h1.2.2.trans e1)
      · exact Or.inr h1
      · exact Or.inl (h1.2.2.trans e1)
      · exact Or.inl (h1.2.2.trans e1)
    rw [n6] at hix
    refine ⟨by omega, by omega, ?_, by rw [f1, b.epsCur, n5, i4]⟩
    rcases f2 with ⟨h0, h1⟩ | ⟨h0, h1, h2⟩
    · rw [h0]
      constructor
      · intro h; cases h
      · rintro ⟨h2, h3⟩
        omega
    · rw [h0, h1, h2, e1, e2, e3]
      exact i3

/-! ### Concrete cases -/

open Ex

instance (e : Env K F) (o : Orc K F) (s : MSt K F) : Decidable (Improves e o s) := by
  unfold Improves; infer_instance

/-- First pass, full linear set, trial point `-2` rejected: the flag stays on. -/
example : ∃ s0, Starts (env down (.fin 10) (.fin 100)) [0] 1 1 [] s0 ∧
    ∃ s, mainLoop (env down (.fin 10) (.fin 100)) [] s0 = .running s ∧
      ∃ t, pass (env down (.fin 10) (.fin 100)) (orc [-2] 1) s = .cont t ∧
        t.ixbest ≠ t.m ∧ t.cur = s.cur ∧ ¬ Improves (env down (.fin 10) (.fin 100)) (orc [-2] 1) s ∧
        t.poisedModel = true := by
  obtain ⟨s0, h0, s, hs, t, ht, h⟩ := look_running (env down (.fin 10) (.fin 100)) [0] [] (orc [-2] 1)
    (fun s t => decide (t.ixbest ≠ t.m ∧ t.cur = s.cur ∧
      ¬ Improves (env down (.fin 10) (.fin 100)) (orc [-2] 1) s ∧ t.poisedModel = true))
    (by decide +kernel)
  exact ⟨s0, Ex.starts rfl h0, s, hs, t, ht, by simpa using h⟩

/-- A set that may grow: the rejected trial point is added and the flag goes off; the next pass
improves the set by new points, the flag stays off and the precision is `1e-5`. -/
example : ∃ s0, Starts envQ [0] 1 1 [] s0 ∧
    ∃ s, mainLoop envQ [orc [-2] 1] s0 = .running s ∧
      ∃ t, pass envQ improve2 s = .cont t ∧ s.poisedModel = false ∧ s.cur = s0.cur + 1 ∧
        Improves envQ improve2 s ∧ t.m ≠ s.m + 1 ∧ t.poisedModel = false ∧ t.epsCur = 1 / 10 ^ 5 := by
  obtain ⟨s0, h0, s, hs, t, ht, h⟩ := look_running envQ [0] [orc [-2] 1] improve2
    (fun s t => decide (s.poisedModel = false ∧ s.cur = 3 ∧
        Improves envQ improve2 s ∧ t.m ≠ s.m + 1 ∧ t.poisedModel = false ∧ t.epsCur = 1 / 10 ^ 5))
    (by decide +kernel)
  have hS := Ex.envQ_starts h0
  have hc : s0.cur = 2 := hS.started.cur
  refine ⟨s0, hS, s, hs, t, ht, ?_⟩
  rw [hc]
  simpa using h

/-- A step without predicted reduction; in the next pass the improvement divides the precision by 10. -/
example : ∃ s0, Starts envQ [0] 1 1 [] s0 ∧
    ∃ s, mainLoop envQ [orc [-2] 0] s0 = .running s ∧
      ∃ t, pass envQ improve2 s = .cont t ∧ s.pred = -1 ∧ t.epsCur = 1 / 10 ^ 6 := by
  obtain ⟨s0, h0, s, hs, t, ht, h⟩ := look_running envQ [0] [orc [-2] 0] improve2
    (fun s t => decide (s.pred = -1 ∧ t.epsCur = 1 / 10 ^ 6)) (by decide +kernel)
  exact ⟨s0, Ex.envQ_starts h0, s, hs, t, ht, by simpa using h⟩

end Sqpdfo

#print axioms Sqpdfo.C97_flag
#print axioms Sqpdfo.C97_start
#print axioms Sqpdfo.C97_precision
#print axioms Sqpdfo.C97_run
