import Verif.Props.C115_Forward

/-! # C16: what `info.f` is after a pass and on return at a limit -/

set_option linter.unusedSectionVars false

namespace Sqpdfo
open Spec Matrix
variable {K F : Type} [Field K] [LinearOrder K] [IsStrictOrderedRing K]

/-- What `info.f` is between two passes: the answer of the objective at the last point evaluated if the last step was not tried for lack of a
predicted decrease; the value of the iterate after a successful step; after a rejected step the value memorised for the comparison. -/
structure Spec.Reports (t : MSt K F) : Prop where
  null : t.pred = -1 → ∃ q r, t.ev.infoF = .fin q ∧ t.ev.fX[t.m]? = some (.fin r) ∧ ClipF q r
  taken : t.pred ≠ -1 → t.rejected = false → ∃ q, t.ev.infoF = .fin q ∧ ClipF q t.fx
  kept : t.pred ≠ -1 → t.rejected = true → t.ev.infoF = .fin t.f0

/-- `info.f` after the decision. -/
theorem decideStep_info {e : Env K F} {o : Orc K F} {norms : K} {s t : MSt K F} (h : decideStep e o norms s = .cont t) :
    t.pred ≠ -1 → t.rejected = true → t.ev.infoF = .fin t.f0 := by
  intro hp hr
  have red : ∀ f norms (s t : MSt K F), reduce e o f norms s = .cont t → t.ev.infoF = .fin t.f0 := by
    intro f norms s t h
    unfold reduce at h
    dsimp only at h
    split at h
    · cases h
    · cases h; rfl
  have rep : ∀ (r : PassRes K F) (t : MSt K F), (r.bind fun s => .cont s.restoreF) = .cont t → t.ev.infoF = .fin t.f0 := by
    intro r t h
    obtain ⟨u, -, h⟩ := bind_cont h
    cases h; rfl
  have rej : ∀ f rho norms (s t : MSt K F), rejectStep e o f rho norms s = .cont t → t.ev.infoF = .fin t.f0 := by
    intro f rho norms s t h
    unfold rejectStep replaceOrReduce at h
    dsimp only at h
    repeat' split at h
    all_goals first | exact rep _ _ h | exact red _ _ _ _ h
  have acc : ∀ f rho norms pos (s : MSt K F), accepted e o f rho norms pos s = .cont t → t.ev.infoF = .fin t.f0 := by
    intro f rho norms pos s h
    have := accepted_rejected e o f rho norms pos s
    rw [h] at this
    have this : t.rejected = false := this
    rw [hr] at this
    cases this
  unfold decideStep at h
  split at h
  · cases h
  split at h
  · cases h
  dsimp only at h
  split at h
  · rename_i h1
    cases h; exact absurd h1 hp
  split at h
  · split at h
    · cases h
    split at h
    · exact acc _ _ _ _ _ h
    · split at h
      · exact acc _ _ _ _ _ h
      · exact rej _ _ _ _ _ h
  · exact rej _ _ _ _ _ h

theorem pass_reports {e : Env K F} (he : e.Ok) {s t : MSt K F} {o : Orc K F} (hI : Inv e [] s) (ht : pass e o s = .cont t) : Reports t := by
  have hp := ht
  rw [pass_eq] at hp
  obtain ⟨v, hv, hp⟩ := bind_cont hp
  have vi : Inv e [] v := (beforeStep_keeps he hI hv).1
  obtain ⟨u, w, B, -, -, hd⟩ := stepStage_before e o v t vi hp
  obtain ⟨fr, f, c, hf, -, hcase⟩ := decideStep_outcome e o _ u t B.inv hd
  obtain ⟨q, r, i1, i2, i3⟩ := B.info
  rw [hf] at i2
  simp only [Option.some.injEq, Fl.fin.injEq] at i2
  subst i2
  refine ⟨fun h => ⟨q, f, ?_, by rw [fr.fX, fr.m]; exact hf, i3⟩, fun h hr => ⟨q, ?_⟩, decideStep_info hd⟩
  · rw [decideStep_null B.inv hd h]; exact i1
  · rcases hcase with h1 | h1 | h1 | h1
    · exact absurd h1.1 h
    · obtain ⟨-, -, a, b, -, d⟩ := h1
      rw [d hr, b]
      exact ⟨i1, i3⟩
    · have := h1.2.2.2.2.1; rw [hr] at this; cases this
    · have := h1.2.2.2.2.1; rw [hr] at this; cases this

/-- C16, full statement: *`info.f` is the objective value of the returned point*; false (`C16_false`).  Proved: between the passes `info.f` is what
`Reports` says, and while steps are rejected the memorised value is the `info.f` from which the last successful step (or the start) has been left. -/
theorem C16_running_partial {e : Env K F} {x0 : List K} {fuel : ℕ} {Δ : K} {sl : List K} {s0 : MSt K F} (H : Starts e x0 fuel Δ sl s0)
    (os : List (Orc K F)) (s t : MSt K F) (o : Orc K F) (h : mainLoop e os s0 = .running s) (ht : pass e o s = .cont t) :
    Reports t ∧ (s.rejected = true → t.f0 = s.f0) ∧
      (s.rejected = false → ∀ v, beforeStep e o s = .cont v → v.ev.infoF = .fin t.f0) := by
  have hI := (H.memory os s h).inv
  refine ⟨pass_reports H.ok hI ht, ?_⟩
  refine ⟨fun hr => ?_, fun hr v hv => ?_⟩
  · obtain ⟨v, u, w, -, -, k2, k3, -, -, -, -, -, -, B, -, -, hd⟩ := pass_before e H.ok o s t hI ht
    rw [(decideStep_outcome e o _ u t B.inv hd).1.f0]
    show u.f0 = _
    rw [(B.kept (k2.trans hr)).1, k3]
  · have hp := ht
    rw [pass_eq, hv] at hp
    obtain ⟨vi, vrej, -⟩ := beforeStep_keeps H.ok hI hv
    obtain ⟨u, w, B, -, -, hd⟩ := stepStage_before e o v t vi hp
    obtain ⟨c, k1, -⟩ := B.fresh (vrej.trans hr)
    rw [k1, (decideStep_outcome e o _ u t B.inv hd).1.f0]

/-! ### Return at a limit -/

/-- Not a return because of a limit. -/
def NotLimit (t : MSt K F) : Prop := t.ev.flag ≠ 5 ∧ t.ev.flag ≠ 6

theorem notLimit_stop (s : MSt K F) {f : ℕ} (h5 : f ≠ 5) (h6 : f ≠ 6) : (s.stop f).Sat (fun _ => True) NotLimit (fun _ => True) := ⟨h5, h6⟩

theorem improve_limit (e : Env K F) (o : Orc K F) (s : MSt K F) : (improve e o s).Sat (fun _ => True) NotLimit (fun _ => True) := by
  unfold improve
  split
  · dsimp only
    split
    · exact notLimit_stop _ (by decide) (by decide)
    · split
      · exact notLimit_stop _ (by decide) (by decide)
      · unfold repairStage
        dsimp only
        refine PassRes.Sat.bind (Q := fun _ => True) (PassRes.Sat.bind (Q := fun _ => True) ?_ fun u _ => ?_) fun u _ => ?_
        · exact (evalReplaced_grew e _ _).mono (fun _ _ => trivial) (fun _ h => h.elim) (fun _ _ => trivial)
        · exact (callSmallf_w e u).mono (fun _ _ => trivial) (fun _ h => h.elim) (fun _ _ => trivial)
        · unfold improveEnd
          split
          · exact notLimit_stop _ (by decide) (by decide)
          · dsimp only
            split
            · exact notLimit_stop _ (by decide) (by decide)
            · trivial
  · trivial

theorem augmX_flag {U : User (List K) K} {y : List K} {m : ℕ} {s t : EvSt (List K) K} (h : augmX U (.fin big) y m s = some t) :
    t.flag = 3 ∨ t.flag = s.flag := by
  unfold augmX at h
  dsimp only at h
  repeat' split at h
  all_goals first | (cases h; first | exact Or.inr rfl | exact Or.inl rfl) | cases h

theorem decideStep_limit (e : Env K F) (o : Orc K F) (norms : K) (s : MSt K F) :
    (decideStep e o norms s).Sat (fun _ => True) NotLimit (fun _ => True) := by
  have red : ∀ f norms (s : MSt K F), (reduce e o f norms s).Sat (fun _ => True) NotLimit (fun _ => True) := by
    intro f norms s
    unfold reduce
    dsimp only
    split
    · exact notLimit_stop _ (by decide) (by decide)
    · trivial
  have rep : ∀ a b c pos (s : MSt K F), (replaceAt e o a b c pos s).Sat (fun _ => True) NotLimit (fun _ => True) := by
    intro a b c pos s
    unfold replaceAt
    dsimp only
    repeat' split
    all_goals trivial
  have aug : ∀ a (s : MSt K F), (augmentRejected e o a s).Sat (fun _ => True) NotLimit (fun _ => True) := by
    intro a s
    unfold augmentRejected
    dsimp only
    split <;> trivial
  have acc : ∀ a b c pos (s : MSt K F), (accepted e o a b c pos s).Sat (fun _ => True) NotLimit (fun _ => True) := by
    intro a b c pos s
    unfold accepted
    dsimp only
    repeat' split
    all_goals trivial
  have rej : ∀ f rho norms (s : MSt K F), (rejectStep e o f rho norms s).Sat (fun _ => True) NotLimit (fun _ => True) := by
    intro f rho norms s
    unfold rejectStep replaceOrReduce
    dsimp only
    repeat' split
    all_goals first
      | exact red _ _ _
      | exact (aug _ _).bind fun _ _ => trivial
      | exact (rep _ _ _ _ _).bind fun _ _ => trivial
  unfold decideStep
  split
  · trivial
  split
  · trivial
  dsimp only
  repeat' split
  all_goals first
    | trivial
    | exact notLimit_stop _ (by decide) (by decide)
    | exact acc _ _ _ _ _
    | exact rej _ _ _ _

theorem stepStage_limit (e : Env K F) (o : Orc K F) (s : MSt K F) (h0 : s.ev.flag = 0) :
    (stepStage e o s).Sat (fun _ => True) NotLimit (fun _ => True) := by
  unfold stepStage
  refine PassRes.Sat.bind (Q := fun t => t.ev.flag = 0) ?_ fun u hu => ?_
  · unfold globalise
    repeat' split
    all_goals first | exact h0 | trivial
  · dsimp only
    split
    · exact notLimit_stop _ (by decide) (by decide)
    refine PassRes.Sat.bind (Q := fun _ => True) (PassRes.Sat.bind (Q := fun t => t.ev.flag = 0) ?_ fun w hw => ?_) fun w _ => decideStep_limit e o _ w
    · unfold penalty
      dsimp only
      repeat' split
      all_goals first | exact hu | exact notLimit_stop _ (by decide) (by decide)
    · unfold evalTrial
      dsimp only
      split
      · trivial
      · rename_i ev hev
        split
        · rename_i hf
          have := augmX_flag hev
          rw [hw] at this
          rcases this with h | h
          · exact ⟨by show ev.flag ≠ 5; rw [h]; decide, by show ev.flag ≠ 6; rw [h]; decide⟩
          · exact absurd h hf
        · repeat' split
          all_goals trivial

/-- A return because of a limit leaves everything as it is after the last pass. -/
theorem pass_limit {e : Env K F} (he : e.Ok) {o : Orc K F} {s t : MSt K F} (hI : Inv e [] s) (h : pass e o s = .ret t)
    (hf : t.ev.flag = 5 ∨ t.ev.flag = 6) : t = { s with ev := { s.ev with flag := t.ev.flag } } := by
  have no : ¬ NotLimit t := fun h => by rcases hf with hf | hf; exact h.1 hf; exact h.2 hf
  rw [pass_eq] at h
  have hb : ∀ u, beforeStep e o s = .ret u → u = t := by
    intro u hu
    rw [hu] at h
    cases h; rfl
  cases hv : beforeStep e o s with
  | crash c => rw [hv] at h; cases h
  | cont v =>
    rw [hv] at h
    have vi : Inv e [] v := (beforeStep_keeps he hI hv).1
    have := stepStage_limit e o v vi.flag
    have h : stepStage e o v = .ret t := h
    rw [h] at this
    exact absurd this no
  | ret u =>
    have := hb u hv
    subst this
    unfold beforeStep at hv
    split at hv
    · cases hv; rfl
    split at hv
    · cases hv; rfl
    split at hv
    · cases hv; rfl
    dsimp only at hv
    split at hv
    · have := improve_limit e o { s.measure o.k1 with ev := { s.ev with flag := Status.success } }
      rw [hv] at this
      exact absurd this no
    · cases hv

/-- C16 for returns at the limit of passes or evaluations: nothing but the status changes after the last pass, and `info.f` is the objective value of
the returned point (clipped, if it is large) if the last step was successful; missing: the other cases, where `info.f` is what `Reports` says. -/
theorem C16_limits_partial {e : Env K F} {x0 : List K} {fuel : ℕ} {Δ : K} {sl : List K} {s0 : MSt K F} (H : Starts e x0 fuel Δ sl s0)
    (os : List (Orc K F)) (s t : MSt K F) (o o' : Orc K F) (h : mainLoop e (os ++ [o']) s0 = .running s) (ht : pass e o s = .ret t)
    (hf : t.ev.flag = Status.stopOnMaxIter ∨ t.ev.flag = Status.stopOnMaxSimul) :
    t = { s with ev := { s.ev with flag := t.ev.flag } } ∧ Reports t ∧
      (t.pred ≠ -1 → t.rejected = false → ∃ q, t.ev.infoF = .fin q ∧ ClipF q t.fx) := by
  obtain ⟨u, hu, hs⟩ := running_snoc h
  have hI := (H.memory os u hu).inv
  have hsI := (H.memory _ s h).inv
  have R := pass_reports H.ok hI hs
  have heq := pass_limit H.ok hsI ht hf
  have R' : Reports t := by
    rw [heq]
    exact ⟨R.null, R.taken, R.kept⟩
  exact ⟨heq, R', R'.taken⟩

/-- C16 is false at a limit: the second trial point is the point 2 of the set, it becomes the iterate although the step counts as rejected, and the
call that stops at the limit of two passes returns the point 2, where the objective is 2, with `info.f = 3 - 2e-4`. -/
theorem C16_limit_false : ∃ s0 s t, Starts (Ex.gEnv Ex.zigzag (.fin 2)) [3] 1 1 [] s0 ∧
    mainLoop (Ex.gEnv Ex.zigzag (.fin 2)) (Ex.zigRun.take 2) s0 = .running s ∧
    pass (Ex.gEnv Ex.zigzag (.fin 2)) (Ex.lOrc 1 0 2 2 1) s = .ret t ∧ t.ev.flag = Status.stopOnMaxIter ∧
    t.x = [2] ∧ Ex.zigzag.f t.ev.w [2] = .num (.fin 2) ∧ t.ev.infoF = .fin (3 - 2 / 10 ^ 4) ∧ t.rejected = true ∧ t.pred ≠ -1 := by
  have h : ((startState (Ex.gEnv Ex.zigzag (.fin 2)) [3] 1 1 []).bind fun s => match mainLoop (Ex.gEnv Ex.zigzag (.fin 2)) (Ex.zigRun.take 2) s with
      | .running u => match pass (Ex.gEnv Ex.zigzag (.fin 2)) (Ex.lOrc 1 0 2 2 1) u with
        | .ret t => some ((t.ev.flag, t.x, t.ev.infoF), (t.rejected, t.pred))
        | _ => none
      | _ => none) = some ((5, [2], .fin (3 - 2 / 10 ^ 4)), (true, 1 - 2 / 10 ^ 4)) := by decide +kernel
  cases hs : startState (Ex.gEnv Ex.zigzag (.fin 2)) [3] 1 1 [] with
  | none => rw [hs] at h; cases h
  | some s =>
    rw [hs] at h
    simp only [Option.bind_some] at h
    cases hm : mainLoop (Ex.gEnv Ex.zigzag (.fin 2)) (Ex.zigRun.take 2) s with
    | done t => rw [hm] at h; cases h
    | crash c => rw [hm] at h; cases h
    | running u =>
      rw [hm] at h
      dsimp only at h
      cases hp : pass (Ex.gEnv Ex.zigzag (.fin 2)) (Ex.lOrc 1 0 2 2 1) u with
      | cont t => rw [hp] at h; cases h
      | crash c => rw [hp] at h; cases h
      | ret t =>
        rw [hp] at h
        simp only [Option.some.injEq, Prod.mk.injEq] at h
        obtain ⟨⟨h1, h2, h3⟩, h4, h5⟩ := h
        refine ⟨s, u, t, ⟨Ex.gEnv_ok _ _, Ex.gEnv_constr _ _, rfl, one_pos, hs⟩, hm, hp, h1, h2, ?_, h3, h4, ?_⟩
        · show FOut.num (Fl.fin _) = _
          norm_num
        · rw [h5]; norm_num

/-- Non-vacuity of `C16_limits_partial` and `C16_running_partial`: that call. -/
example : ∃ s0 s t, Starts (Ex.gEnv Ex.zigzag (.fin 2)) [3] 1 1 [] s0 ∧
    mainLoop (Ex.gEnv Ex.zigzag (.fin 2)) (Ex.zigRun.take 2) s0 = .running s ∧
    pass (Ex.gEnv Ex.zigzag (.fin 2)) (Ex.lOrc 1 0 2 2 1) s = .ret t ∧ Reports t ∧ Reports s := by
  obtain ⟨s0, s, t, H, h1, h2, h3, -⟩ := C16_limit_false
  obtain ⟨u, hu, hs⟩ := running_snoc (os := Ex.zigRun.take 1) (o := Ex.lOrc 1 2 (1 - 2 / 10 ^ 4) 1 2) h1
  exact ⟨s0, s, t, H, h1, h2, (C16_limits_partial H (Ex.zigRun.take 1) s t _ (Ex.lOrc 1 2 (1 - 2 / 10 ^ 4) 1 2) h1 h2 (Or.inl h3)).2.1,
    (C16_running_partial H _ u s _ hu hs).1⟩

#print axioms C16_running_partial
#print axioms C16_limits_partial
#print axioms C16_limit_false

end Sqpdfo
