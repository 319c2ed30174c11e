import Verif.Lemmas.MainAgree
import Verif.Props.C81_Whole

/-! # C98: the history only grows; C99: a run depends on the answers to its calls only -/

set_option linter.unusedSectionVars false

namespace Sqpdfo
open Spec
variable {K F : Type} [Field K] [LinearOrder K] [IsStrictOrderedRing K]

/-- C98, full statement: *along a run the history only grows: the evaluated points are appended in the order of the calls,
one call of each user function per point, and what was recorded before - points, objective values and constraint
values - is not changed any more*.  False for constraint values of absolute value `1e25` or more
(`C98_history_false`).  Proved: everything else, between any two moments of a run. -/
theorem C98_history_partial {e : Env K F} {x0 : List K} {fuel : ℕ} {Δ : K}
    {sl : List K} {s0 : MSt K F} (H : Starts e x0 fuel Δ sl s0) (os : List (Orc K F))
    (s : MSt K F) (h : mainLoop e os s0 = .running s) (os' : List (Orc K F)) (t : MSt K F)
    (ht : mainLoop e os' s = .running t ∨ mainLoop e os' s = .done t) :
    (∃ d, Longer e.U s.ev t.ev d) ∧ s.ev.fX.length = s.ev.X.length ∧
      (mainLoop e os' s = .running t → t.ev.fX.length = t.ev.X.length) ∧
      (t.ev.flag = 3 → t.ev.fX.length + 1 = t.ev.X.length) := by
  have hs := (H.memory os s h).inv
  have hp : ∀ o s, Inv e [] s → (pass e o s).Sat (Inv e []) (Ret e) (fun _ => True) := fun o s hI =>
    (pass_sat e H.ok o s hI).mono (fun _ h => h.1) (fun _ h => h.1) (fun _ _ => trivial)
  have hi := mainLoop_induct e _ _ _ hp os' s hs
  refine ⟨mainLoop_added e os' s t hs.hlen ht, by rw [hs.fXlen, hs.Xlen], fun hr => ?_, fun h3 => ?_⟩
  · rw [hr] at hi
    have hI : Inv e [] t := hi
    rw [hI.fXlen, hI.Xlen]
  · rcases ht with ht | ht
    · rw [ht] at hi
      have hI : Inv e [] t := hi
      rw [hI.flag] at h3; cases h3
    · rw [ht] at hi
      have hR : Ret e t := hi
      rw [(hR.simul h3).1, hR.core.Xlen]

/-! ### C99 -/

/-- The main loop with kernels that are functions of the state: at most `n` passes. -/
def Spec.play (e : Env K F) (kern : MSt K F → Orc K F) : ℕ → MSt K F → MainRes K F
  | 0, s => .running s
  | n + 1, s =>
    match pass e (kern s) s with
    | .cont s => play e kern n s
    | .ret s => .done s
    | .crash c => .crash c

theorem play_calls (e : Env K F) (kern : MSt K F → Orc K F) : ∀ (n : ℕ) (s t : MSt K F),
    play e kern n s = .running t ∨ play e kern n s = .done t → s.ev.w.logF <+: t.ev.w.logF := by
  intro n
  induction n with
  | zero =>
    intro s t h
    simp only [play, reduceCtorEq, or_false, MainRes.running.injEq] at h
    rw [h]
  | succ n ih =>
    intro s t h
    simp only [play] at h
    have hp := pass_calls e (kern s) s
    unfold Calls at hp
    cases hr : pass e (kern s) s with
    | cont v => rw [hr] at hp h; exact hp.trans (ih v t h)
    | ret v =>
      rw [hr] at hp h
      simp only [reduceCtorEq, false_or, MainRes.done.injEq] at h
      rw [← h]; exact hp
    | crash c => rw [hr] at h; simp at h

/-- **C99, main loop.** Two problems whose functions give the same answers to the calls of a run - for
deterministic functions: with the same values at the evaluated points - have the same run: all points, decisions,
counters and results agree at every moment.  The kernels may depend on the whole state. -/
theorem C99_loop (e : Env K F) (U' : User (List K) K) (kern : MSt K F → Orc K F) (n : ℕ) (s t : MSt K F)
    (h : play e kern n s = .running t ∨ play e kern n s = .done t) (hA : AgreeOn e.U U' t.ev.w.logF) :
    play (e.withU U') kern n s = play e kern n s := by
  induction n generalizing s with
  | zero => rfl
  | succ n ih =>
    have hp := pass_agree e U' (kern s) s
    unfold Repeats at hp
    simp only [play] at h ⊢
    cases hr : pass e (kern s) s with
    | cont v =>
      rw [hr] at hp h
      rw [show pass (e.withU U') (kern s) s = .cont v from hp (hA.mono (play_calls e kern n v t h))]
      exact ih v h
    | ret v =>
      rw [hr] at hp h
      simp only [reduceCtorEq, false_or, MainRes.done.injEq] at h
      subst h
      rw [show pass (e.withU U') (kern s) s = .ret v from hp hA]
    | crash c => rw [hr] at h; simp at h

theorem mainLoop_calls (e : Env K F) : ∀ (os : List (Orc K F)) (s t : MSt K F),
    mainLoop e os s = .running t ∨ mainLoop e os s = .done t → s.ev.w.logF <+: t.ev.w.logF := by
  intro os
  induction os with
  | nil =>
    intro s t h
    simp only [mainLoop, reduceCtorEq, or_false, MainRes.running.injEq] at h
    rw [h]
  | cons o os ih =>
    intro s t h
    simp only [mainLoop] at h
    have hp := pass_calls e o s
    unfold Calls at hp
    cases hr : pass e o s with
    | cont v => rw [hr] at hp h; exact hp.trans (ih v t h)
    | ret v =>
      rw [hr] at hp h
      simp only [reduceCtorEq, false_or, MainRes.done.injEq] at h
      rw [← h]; exact hp
    | crash c => rw [hr] at h; simp at h

theorem mainLoop_agree (e : Env K F) (U' : User (List K) K) : ∀ (os : List (Orc K F)) (s t : MSt K F),
    mainLoop e os s = .running t ∨ mainLoop e os s = .done t → AgreeOn e.U U' t.ev.w.logF →
    mainLoop (e.withU U') os s = mainLoop e os s := by
  intro os
  induction os with
  | nil => intro s t _ _; rfl
  | cons o os ih =>
    intro s t h hA
    have hp := pass_agree e U' o s
    unfold Repeats at hp
    simp only [mainLoop] at h ⊢
    cases hr : pass e o s with
    | cont v =>
      rw [hr] at hp h
      rw [show pass (e.withU U') o s = .cont v from hp (hA.mono (mainLoop_calls e os v t h))]
      exact ih v t h hA
    | ret v =>
      rw [hr] at hp h
      simp only [reduceCtorEq, false_or, MainRes.done.injEq] at h
      subst h
      rw [show pass (e.withU U') o s = .ret v from hp hA]
    | crash c => rw [hr] at h; simp at h

/-- The set-up has come to a regular end. -/
def SetupRes.regular : SetupRes K → Prop
  | .ret _ => True
  | .go _ => True
  | _ => False

theorem setup_agree {U U' : User (List K) K} (sqrt : K → K) (nrm : List K → K) (fuel : ℕ) (a : Args K) (g : Globals K)
    (hr : (setup U sqrt nrm fuel a g).res.regular) (hA : AgreeOn U U' (setup U sqrt nrm fuel a g).w.logF) :
    setup U' sqrt nrm fuel a g = setup U sqrt nrm fuel a g := by
  unfold setup at *
  split
  · rfl
  · rfl
  · rename_i r c x0 lb ub g' hc
    simp only [hc] at hr hA
    split
    · rfl
    · rfl
    · rename_i o ho
      simp only [ho] at hr hA
      dsimp only
      split
      · rfl
      · rename_i h1
        rw [if_neg h1] at hr hA
        split
        · rfl
        · rename_i h2
          rw [if_neg h2] at hr hA
          split
          · rename_i lb ub
            simp only at hr hA
            split
            · rfl
            · rfl
            · rename_i Δ ys hb
              simp only [hb] at hr hA
              split
              · rfl
              · rename_i h3
                rw [if_neg h3] at hr hA
                have key := initLoop_agree U U' (ys.map (·.1)) (nrm (ys.map (·.1))) fuel Δ
                  ⟨[], [], [], 0, .nan, 0, .empty⟩
                cases hi : initLoop U (ys.map (·.1)) (nrm (ys.map (·.1))) fuel Δ
                    ⟨[], [], [], 0, .nan, 0, .empty⟩ with
                | crash => rw [hi] at hr; exact hr.elim
                | running => rw [hi] at hr; exact hr.elim
                | failed s =>
                  rw [hi] at key hA
                  rw [(key s rfl).2 hA]
                | stalled s => rw [hi] at hr; exact hr.elim
                | done D s =>
                  rw [hi] at key hA
                  rw [(key s rfl).2]
                  simp only at hA
                  split at hA
                  · split at hA <;> exact hA
                  · exact hA
          · rfl

theorem envOf_withU (k : Kernels K F) (U U' : User (List K) K) (ex : Extra) (i : MainIn K) (e : Env K F)
    (h : envOf k U ex i = some e) : envOf k U' ex i = some (e.withU U') ∧ e.U = U := by
  unfold envOf at h ⊢
  split at h
  · cases h
    exact ⟨rfl, rfl⟩
  · cases h

theorem setup_log (U : User (List K) K) (sqrt : K → K) (nrm : List K → K) (fuel : ℕ) (a : Args K) (g : Globals K)
    (i : MainIn K) (h : (setup U sqrt nrm fuel a g).res = .go i) : (setup U sqrt nrm fuel a g).w = i.ev.w := by
  unfold setup at *
  split
  · rename_i hc; rw [hc] at h; cases h
  · rename_i hc; rw [hc] at h; cases h
  · rename_i r c x0 lb ub g' hc
    simp only [hc] at h
    split
    · rename_i ho; rw [ho] at h; cases h
    · rename_i ho; rw [ho] at h; cases h
    · rename_i o ho
      simp only [ho] at h
      dsimp only
      split
      · rename_i h1; rw [if_pos h1] at h; cases h
      · rename_i h1
        rw [if_neg h1] at h
        split
        · rename_i h2; rw [if_pos h2] at h; cases h
        · rename_i h2
          rw [if_neg h2] at h
          split
          · rename_i lb ub
            simp only at h
            split
            · rename_i hb; rw [hb] at h; cases h
            · rename_i hb; rw [hb] at h; cases h
            · rename_i Δ ys hb
              simp only [hb] at h
              split
              · rename_i h3; rw [if_pos h3] at h; cases h
              · rename_i h3
                rw [if_neg h3] at h
                split
                · rename_i hi; rw [hi] at h; cases h
                · rename_i hi; rw [hi] at h; cases h
                · rename_i hi; rw [hi] at h; cases h
                · rename_i hi; rw [hi] at h; cases h
                · rename_i D s hi
                  simp only [hi] at h
                  split
                  · rename_i hn
                    rw [if_pos hn] at h
                    split
                    · rename_i hs; rw [hs] at h; cases h
                    · rename_i sl hs
                      simp only [hs, SetupRes.go.injEq] at h
                      rw [← h]
                  · rename_i hn
                    rw [if_neg hn] at h
                    simp only [SetupRes.go.injEq] at h
                    rw [← h]
          · rename_i hcol
            revert h
            split
            · exact absurd rfl (hcol _ _ rfl)
            · intro h; cases h

/-- **C99, whole calls.** The result of a call - the returned point, all recorded data, the status - is determined by the
arguments, the kernels and the answers to the calls made: functions that answer these calls in the same way lead
to the same result. -/
theorem C99_call (k : Kernels K F) (U U' : User (List K) K) (fuel : ℕ) (os : List (Orc K F)) (a : Args K) (ex : Extra)
    (g : Globals K) :
    (∀ x t, call k U fuel os a ex g = .done x t → AgreeOn U U' t.ev.w.logF →
      call k U' fuel os a ex g = .done x t) ∧
    (∀ fl w, call k U fuel os a ex g = .early fl w → AgreeOn U U' w.logF →
      call k U' fuel os a ex g = .early fl w) := by
  constructor
  · intro x t h hA
    unfold call at h ⊢
    dsimp only at h ⊢
    cases hs : (setup U k.sqrt k.nrm fuel a g).res with
    | ret fl => rw [hs] at h; cases h
    | crash => rw [hs] at h; cases h
    | running => rw [hs] at h; cases h
    | go i =>
      rw [hs] at h
      have h : runMain k U ex os i = .done x t := h
      have hw := setup_log U _ _ _ _ _ i hs
      unfold runMain at h
      split at h
      · cases h
      · rename_i hp
        split at h
        · cases h
        · rename_i e he
          obtain ⟨he', hU⟩ := envOf_withU k U U' ex i e he
          split at h
          · cases h
          · rename_i s0 h0
            split at h
            · cases h
            · cases h
            · rename_i t' hm
              split at h
              · cases h
              · rename_i x' hx
                simp only [CallRes.done.injEq] at h
                obtain ⟨rfl, rfl⟩ := h
                have h1 : s0.ev.w = i.ev.w := by
                  unfold mainInit at h0
                  split at h0
                  · split at h0
                    · cases h0
                    · simp only [Option.some.injEq] at h0
                      rw [← h0]
                  · cases h0
                have h2 := mainLoop_calls e os s0 t' (Or.inr hm)
                rw [setup_agree k.sqrt k.nrm fuel a g (by rw [hs]; trivial)
                  (hA.mono (by rw [hw, ← h1]; exact h2)), hs]
                simp only
                unfold runMain
                rw [hp, he']
                simp only
                rw [show mainInit (e.withU U') i.Δ i.slacks i.ev = some s0 from h0]
                simp only
                rw [mainLoop_agree e U' os s0 t' (Or.inr hm) (by rw [hU]; exact hA), hm]
                simp only [hx]
  · intro fl w h hA
    unfold call at h ⊢
    dsimp only at h ⊢
    cases hs : (setup U k.sqrt k.nrm fuel a g).res with
    | ret fl' =>
      rw [hs] at h
      simp only [CallRes.early.injEq] at h
      obtain ⟨rfl, rfl⟩ := h
      rw [setup_agree k.sqrt k.nrm fuel a g (by rw [hs]; trivial) hA, hs]
    | crash => rw [hs] at h; cases h
    | running => rw [hs] at h; cases h
    | go i =>
      rw [hs] at h
      have h : runMain k U ex os i = .early fl w := h
      unfold runMain at h
      repeat' split at h
      all_goals cases h

/-- **C99, points not evaluated.** Whatever value (or failure) the objective has at a point at which it was not called: the result
is the same.  So the result of a call never says anything about the values at other points. -/
theorem C99_blind (k : Kernels K F) (U : User (List K) K) (fuel : ℕ) (os : List (Orc K F)) (a : Args K) (ex : Extra)
    (g : Globals K) (x : List K) (t : MSt K F) (h : call k U fuel os a ex g = .done x t) (y : List K)
    (hy : y ∉ t.ev.w.logF) (v : FOut K) :
    call k { U with f := fun w z => if z = y then v else U.f w z } fuel os a ex g = .done x t := by
  refine (C99_call k U _ fuel os a ex g).1 x t h ⟨fun w z hz => ?_, ?_⟩
  · have : z ≠ y := fun hzy => hy (hz.subset (by simp [hzy]))
    simp [this]
  · cases hc : U.c with
    | none => exact Or.inl ⟨rfl, rfl⟩
    | some c => exact Or.inr ⟨c, c, rfl, rfl, fun _ _ _ _ => rfl⟩

/-! ### Counterexamples and concrete cases -/

open Ex

theorem Ex.look_later (e : Env ℚ Unit) (x0 : List ℚ) (os os' : List (Orc ℚ Unit)) (p : MSt ℚ Unit → MSt ℚ Unit → Bool)
    (h : look e x0 os false (fun _ => false) (fun s => match mainLoop e os' s with
      | .running t => p s t
      | _ => false) (fun _ => false) = true) :
    ∃ s0, start e x0 = some s0 ∧ ∃ s, mainLoop e os s0 = .running s ∧
      ∃ t, mainLoop e os' s = .running t ∧ p s t = true := by
  unfold look at h
  split at h
  · cases h
  · rename_i s0 hs
    refine ⟨s0, hs, ?_⟩
    cases hm : mainLoop e os s0 with
    | done t => rw [hm] at h; cases h
    | crash c => rw [hm] at h; cases h
    | running s =>
      rw [hm] at h
      simp only at h
      refine ⟨s, rfl, ?_⟩
      cases hp : mainLoop e os' s with
      | done t => rw [hp] at h; cases h
      | crash c => rw [hp] at h; cases h
      | running t => rw [hp] at h; exact ⟨t, rfl, h⟩

/-- Constraint values `1e24`, at `5` more than `1e25`, at `7` twice as large. -/
def Ex.hugeC (x : List ℚ) : ℚ := if x = [5] then 10 ^ 26 else if x = [7] then 2 * 10 ^ 24 else 10 ^ 24

/-- Negation of C98: the constraint value at the point `5` is recorded as `1e25`; after the evaluation of another point the recorded
value of the old point is `2e25`. -/
theorem C98_history_false :
    ∃ s0, Starts (envC (fun x => - x.sum) hugeC false) [0] 1 1 [] s0 ∧
      ∃ s, mainLoop (envC (fun x => - x.sum) hugeC false) [stepC [5] 1] s0 = .running s ∧
        ∃ t, mainLoop (envC (fun x => - x.sum) hugeC false) [stepC [7] 1] s = .running t ∧
          s.ev.X[2]? = some [5] ∧ t.ev.X[2]? = some [5] ∧
          s.ev.ceX[2]? = some [Fl.fin (10 ^ 25)] ∧ t.ev.ceX[2]? = some [Fl.fin (2 * 10 ^ 25)] := by
  obtain ⟨s0, h0, s, hs, t, ht, h⟩ := look_later (envC (fun x => - x.sum) hugeC false) [0] [stepC [5] 1] [stepC [7] 1]
    (fun s t => decide (s.ev.X[2]? = some [5] ∧ t.ev.X[2]? = some [5] ∧
      s.ev.ceX[2]? = some [Fl.fin (10 ^ 25)] ∧ t.ev.ceX[2]? = some [Fl.fin (2 * 10 ^ 25)])) (by decide +kernel)
  exact ⟨s0, envC_starts rfl h0, s, hs, t, ht, of_decide_eq_true h⟩

/-- Constraint values `1`, at `-1e-5` more than `1e25`. -/
def Ex.hugeAt (x : List ℚ) : ℚ := if x = [-1 / 10 ^ 5] then 10 ^ 26 else 1

/-- Huge constraint values, second effect: the improvement of the set evaluates the point `-1e-5`; the history records
the value `10` for it (after the evaluation of the trial point), the interpolation set goes on using `1e25`. -/
theorem C98_copy_differs :
    ∃ s0, Starts (envC (fun x => - x.sum) hugeAt false) [0] 1 1 [] s0 ∧
      ∃ s, mainLoop (envC (fun x => - x.sum) hugeAt false) [] s0 = .running s ∧
        ∃ t, mainLoop (envC (fun x => - x.sum) hugeAt false) [improve2] s = .running t ∧
          t.set.ind[1]? = some 2 ∧ t.set.Y[1]? = t.ev.X[2]? ∧
          t.set.ceY[1]? = some [10 ^ 25] ∧ t.ev.ceX[2]? = some [Fl.fin 10] := by
  obtain ⟨s0, h0, s, hs, t, ht, h⟩ := look_later (envC (fun x => - x.sum) hugeAt false) [0] [] [improve2]
    (fun s t => decide (t.set.ind[1]? = some 2 ∧ t.set.Y[1]? = t.ev.X[2]? ∧
          t.set.ceY[1]? = some [10 ^ 25] ∧ t.ev.ceX[2]? = some [Fl.fin 10])) (by decide +kernel)
  exact ⟨s0, envC_starts rfl h0, s, hs, t, ht, of_decide_eq_true h⟩

/-- An improvement of the set and a trial point: three more points, three more calls of each function. -/
example : ∃ s0, Starts (envC (fun x => - x.sum) hugeAt false) [0] 1 1 [] s0 ∧
      ∃ s, mainLoop (envC (fun x => - x.sum) hugeAt false) [] s0 = .running s ∧
        ∃ t, mainLoop (envC (fun x => - x.sum) hugeAt false) [improve2, stepC [7] 1] s = .running t ∧
          t.ev.X = s.ev.X ++ [[-1 / 10 ^ 5], [-2], [7]] ∧
          t.ev.w.logC = s.ev.w.logC ++ [[-1 / 10 ^ 5], [-2], [7]] ∧ t.ev.nsimul = s.ev.nsimul + 3 := by
  obtain ⟨s0, h0, s, hs, t, ht, h⟩ := look_later (envC (fun x => - x.sum) hugeAt false) [0] [] [improve2, stepC [7] 1]
    (fun s t => decide (t.ev.X = s.ev.X ++ [[-1 / 10 ^ 5], [-2], [7]] ∧
          t.ev.w.logC = s.ev.w.logC ++ [[-1 / 10 ^ 5], [-2], [7]] ∧ t.ev.nsimul = s.ev.nsimul + 3)) (by decide +kernel)
  exact ⟨s0, envC_starts rfl h0, s, hs, t, ht, of_decide_eq_true h⟩

/-- The objective `-x` that raises at `10`: the call with at most three iterations has the same result. -/
example : wSummary (call wKern { down with f := fun w z => if z = [10] then .raised else down.f w z } 1
      [orc [1] 1, orc [2] 1, orc [3] 1, orc [4] 1] (wArgs wThree) wPlain .fresh) =
    some (5, 3, 5, [3]) := by decide +kernel

/-- The hypotheses of `C99_blind` are met, and so the value at `10` does not matter. -/
example (v : FOut ℚ) : ∃ x t, call wKern { down with f := fun w z => if z = [10] then v else down.f w z } 1
      [orc [1] 1, orc [2] 1, orc [3] 1, orc [4] 1] (wArgs wThree) wPlain .fresh = .done x t ∧ x = [3] := by
  have h : (match call wKern down 1 [orc [1] 1, orc [2] 1, orc [3] 1, orc [4] 1] (wArgs wThree) wPlain .fresh with
    | .done x t => decide (x = [3] ∧ [10] ∉ t.ev.w.logF)
    | _ => false) = true := by decide +kernel
  cases hc : call wKern down 1 [orc [1] 1, orc [2] 1, orc [3] 1, orc [4] 1] (wArgs wThree) wPlain .fresh with
  | done x t =>
    rw [hc] at h
    have h := of_decide_eq_true h
    exact ⟨x, t, C99_blind _ _ _ _ _ _ _ _ _ hc [10] h.2 v, h.1⟩
  | early fl w => rw [hc] at h; cases h
  | raised => rw [hc] at h; cases h
  | crash c => rw [hc] at h; cases h
  | running => rw [hc] at h; cases h
  | outside => rw [hc] at h; cases h

end Sqpdfo

#print axioms Sqpdfo.C98_history_partial
#print axioms Sqpdfo.C98_history_false
#print axioms Sqpdfo.C98_copy_differs
#print axioms Sqpdfo.C99_loop
#print axioms Sqpdfo.C99_call
#print axioms Sqpdfo.C99_blind
