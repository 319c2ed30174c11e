import Verif.Lemmas.WholeSetup
import Verif.Props.C80_OptionReads

/-! # C81: whole calls of `optimize` -/

set_option linter.unusedSectionVars false

namespace Sqpdfo
open Spec
variable {K F : Type} [Field K] [LinearOrder K] [IsStrictOrderedRing K]

/-- A regular end or an exception of the main loop comes from a run of the main loop on data as its theorems assume. -/
theorem call_main (k : Kernels K F) (hn : ∀ v, 0 ≤ k.nrm v) (ho : ∀ d, SortedDesc d (k.order d)) (U : User (List K) K) (m : ℕ)
    (hC : Counts U m) (fuel : ℕ) (os : List (Orc K F)) (a : Args K) (ex : Extra) (g : Globals K) (hw : WellFormed a) :
    (∀ x t, call k U fuel os a ex g = .done x t → ∃ (i : MainIn K) (e : Env K F) (s0 : MSt K F) (y : List K) (Δ : K),
      (setup U k.sqrt k.nrm fuel a g).res = .go i ∧ envOf k U ex i = some e ∧ Starts e y fuel Δ i.slacks s0 ∧ IsFit (boxes a) Δ ∧
      (InsideBy Δ (boxes a) y ∧ ((∀ v ∈ boxes a, v.lb + Δ < v.x0 ∧ v.x0 < v.ub - Δ) → y = (boxes a).map (·.x0))) ∧ e.n = (boxes a).length ∧ mainLoop e os s0 = .done t ∧ t.ev.X[t.ixbest]? = some x) ∧
    (∀ c, call k U fuel os a ex g = .crash c → ∃ (i : MainIn K) (e : Env K F) (s0 : MSt K F) (y : List K) (Δ : K),
      (setup U k.sqrt k.nrm fuel a g).res = .go i ∧ envOf k U ex i = some e ∧ Starts e y fuel Δ i.slacks s0 ∧
      mainLoop e os s0 = .crash c) := by
  cases hs : (setup U k.sqrt k.nrm fuel a g).res with
  | ret fl => simp [call, hs]
  | crash => simp [call, hs]
  | running => simp [call, hs]
  | go i =>
    simp only [call, hs, runMain]
    cases hp : prelimRaise ex i with
    | some r => simp
    | none =>
      cases he : envOf k U ex i with
      | none => simp
      | some e =>
        cases hi : mainInit e i.Δ i.slacks i.ev with
        | none => simp [hi]
        | some s0 =>
          obtain ⟨y, Δ, hst, hΔ, hin, hdim⟩ := call_starts k hn ho U m hC fuel a ex g hw i hs e he s0 hi
          simp only [hi]
          cases hm : mainLoop e os s0 with
          | running t => simp
          | crash c =>
            refine ⟨fun x t h => (by cases h), fun c' h => ?_⟩
            simp only [CallRes.crash.injEq] at h
            subst h
            exact ⟨i, e, s0, y, Δ, rfl, he, hst, hm⟩
          | done t =>
            obtain ⟨z, -, -, hz, -⟩ := C15_returned_point hst os t hm
            simp only [hz]
            refine ⟨fun x t' h => ?_, fun c' h => (by cases h)⟩
            simp only [CallRes.done.injEq] at h
            obtain ⟨rfl, rfl⟩ := h
            exact ⟨i, e, s0, y, Δ, rfl, he, hst, hΔ, hin, hdim, hm, hz⟩

/-- **C81 (results).** Every call of `optimize` with arguments of the right types ends in one of these ways, whatever the kernels
return (status, calls of the user's functions, returned point):
status 1 for a missing or illegal argument, status 2 for crossed or too narrow bounds, both without a call of the user's functions; status 3 during the
initial sampling, after a failed evaluation; or, after the main loop, one of the statuses 0, 3, 5, 6, 15, 30 with the exact number of
evaluations and a returned point that was evaluated, `fx` being its (clipped) value. An exception of the main loop is one of three. -/
theorem C81_call_results (k : Kernels K F) (hn : ∀ v, 0 ≤ k.nrm v) (ho : ∀ d, SortedDesc d (k.order d)) (U : User (List K) K) (m : ℕ)
    (hC : Counts U m) (fuel : ℕ) (os : List (Orc K F)) (a : Args K) (ex : Extra) (g : Globals K) (hw : WellFormed a) :
    (BadArg a → call k U fuel os a ex g = .early 1 ⟨[], []⟩) ∧
    (¬ BadArg a → BadBounds (boxes a) → call k U fuel os a ex g = .early 2 ⟨[], []⟩) ∧
    (¬ BadArg a → ¬ BadBounds (boxes a) → ∀ fl w, call k U fuel os a ex g = .early fl w → fl = 3 ∧ LastFailed U w) ∧
    (∀ x t, call k U fuel os a ex g = .done x t →
      ¬ BadArg a ∧ ¬ BadBounds (boxes a) ∧ t.ev.flag ∈ [0, 3, 5, 6, 15, 30] ∧ t.ev.nsimul = t.ev.w.logF.length ∧ t.x = x ∧
      ∃ (w : World (List K)) (q : K), w.logF ++ [x] <+: t.ev.w.logF ∧ U.f w x = .num (.fin q) ∧
        t.fx = if q ≤ 10 ^ 25 then q else 10 ^ 25) ∧
    (∀ c, call k U fuel os a ex g = .crash c → c = .nonNumber ∨ c = .improvementFailed ∨ c = .ceShape) := by
  obtain ⟨h1, h2, h3⟩ := C03_bad_arguments_reported U k.sqrt k.nrm fuel a g hw
  obtain ⟨m1, m2⟩ := call_main k hn ho U m hC fuel os a ex g hw
  refine ⟨?_, ?_, ?_, ?_, ?_⟩
  · intro h
    obtain ⟨e1, e2⟩ := h1 h
    simp only [call, e1, e2]
  · intro h h'
    obtain ⟨e1, e2⟩ := h2 h h'
    simp only [call, e1, e2]
  · intro hA hB fl w h
    obtain ⟨o, g', lb, ub, Δ, ys, -, -, -, -, -, -, he⟩ := setup_checked U k.sqrt k.nrm fuel a g hw hA hB
    have h3 := h3 hA hB
    cases hs : (setup U k.sqrt k.nrm fuel a g).res with
    | crash => simp [call, hs] at h
    | running => simp [call, hs] at h
    | go i =>
      exfalso
      simp only [call, hs, runMain] at h
      repeat' split at h
      all_goals cases h
    | ret fl' =>
      simp only [call, hs, CallRes.early.injEq] at h
      obtain ⟨rfl, rfl⟩ := h
      refine ⟨h3 _ hs, ?_⟩
      rw [he] at hs ⊢
      unfold setupTail at hs ⊢
      split at hs
      · cases hs
      rename_i hany
      rw [if_neg hany]
      dsimp only at hs ⊢
      split at hs
      · cases hs
      · cases hs
      · rename_i s hi
        exact initLoop_lastFailed U _ _ _ _ _ _ hi rfl
      · cases hs
      · split at hs
        · split at hs <;> cases hs
        · cases hs
  · intro x t h
    obtain ⟨i, e, s0, y, Δ, hi, he, hst, -, -, -, hm, hx⟩ := m1 x t h
    obtain ⟨hA, hB, -⟩ := setup_go U _ _ _ _ _ hw i hi
    obtain ⟨z, w, q, b1, b2, b3, b4, b5⟩ := C15_returned_point hst os t hm
    obtain ⟨-, -, -, -, -, -, -, -, -, -, -, e5, -⟩ := envOf_some he
    rw [hx] at b1
    cases b1
    have hf := C11_statuses hst os
    rw [hm] at hf
    have hc := (mainLoop_sat hst os)
    rw [hm] at hc
    refine ⟨hA, hB, hf, ?_, b2, w, q, b3, by rw [← e5]; exact b4, b5⟩
    exact hc.core.count
  · intro c h
    obtain ⟨i, e, s0, y, Δ, hi, he, hst, hm⟩ := m2 c h
    have hf := C11_statuses hst os
    rw [hm] at hf
    exact hf

theorem limit_env {u o : Option (Fl ℚ)} {M : ℚ} (hf : Faithful u o (.fin 1000)) (hM : LimitIs u M) : o = some (.fin M) := by
  rcases hM with ⟨h, rfl⟩ | h
  · exact hf.2 h
  · exact hf.1 _ h

theorem tol_env {u o : Option (Fl ℚ)} {t : ℚ} (hf : FaithfulTol u o (.fin (1 / 10 ^ 5))) (ht : TolIs u t) : o = some (.fin t) := by
  rcases ht with ⟨h | h, rfl⟩ | ⟨h, h0⟩
  · exact hf.2.2 h
  · exact hf.2.1 h
  · exact hf.1 _ h (fun e => h0 (by cases e; rfl))

/-- **C81 (limits).** In terms of the user's options: after a regular end the number of iterations is below the limit plus 2 (at most the
limit plus 1 for an integer limit), status 5 means that the limit of the iterations is reached and status 6 that the limit of the
evaluations is reached. -/
theorem C81_limits (k : Kernels K F) (hn : ∀ v, 0 ≤ k.nrm v) (ho : ∀ d, SortedDesc d (k.order d)) (U : User (List K) K) (m : ℕ)
    (hC : Counts U m) (fuel : ℕ) (os : List (Orc K F)) (a : Args K) (ex : Extra) (g : Globals K) (hw : WellFormed a)
    (x : List K) (t : MSt K F) (h : call k U fuel os a ex g = .done x t) :
    (∀ M, LimitIs (userOpts a.opts).miter M → (t.niter : K) < M + 2 ∧ (t.ev.flag = 5 → (M : K) ≤ t.niter)) ∧
    (∀ M, LimitIs (userOpts a.opts).msimul M → (t.ev.flag = 6 → (M : K) ≤ t.ev.w.logF.length)) := by
  obtain ⟨i, e, s0, y, Δ, hi, he, hst, -, -, -, hm, hx⟩ := (call_main k hn ho U m hC fuel os a ex g hw).1 x t h
  obtain ⟨-, -, hv, -⟩ := setup_go U _ _ _ _ _ hw i hi
  obtain ⟨hc, hl⟩ := C02_accepted_complete_legal_faithful hv
  obtain ⟨⟨mi, e1, e1'⟩, ⟨ms, e2, e2'⟩, -⟩ := envOf_some he
  constructor
  · intro M hM
    have hM' := limit_env hc.miter hM
    rw [e1] at hM'
    cases hM'
    have hpos : (0 : K) ≤ (M : K) := by
      obtain ⟨v, hv1, hv2⟩ := hl.miter
      rw [e1] at hv1
      cases hv1
      rcases hv2 with h | h | ⟨q, hq, h⟩
      · cases h
      · cases h
      · cases h; exact_mod_cast hq.le
    have := C09_iteration_budget_real hst (M : K) e1' hpos os
    rw [hm] at this
    exact this
  · intro M hM h6
    have hM' := limit_env hc.msimul hM
    rw [e2] at hM'
    cases hM'
    have := C10_evaluation_budget_real hst (M : K) e2' os
    rw [hm] at this
    rw [this.1]
    exact this.2.2 h6

/-- **C81 (status 0).** In terms of the user's tolerances: status 0 is returned only with gradient of the Lagrangian, infeasibility and
complementarity at most 100 times their tolerances (within the tolerances, or within 100 times and `info.f` is the value of the returned
point), and a poised, small interpolation set. -/
theorem C81_status_zero (k : Kernels K F) (hn : ∀ v, 0 ≤ k.nrm v) (ho : ∀ d, SortedDesc d (k.order d)) (U : User (List K) K) (m : ℕ)
    (hC : Counts U m) (fuel : ℕ) (os : List (Orc K F)) (a : Args K) (ex : Extra) (g : Globals K) (hw : WellFormed a)
    (x : List K) (t : MSt K F) (h : call k U fuel os a ex g = .done x t) (h0 : t.ev.flag = 0) (tg tf tb : ℚ)
    (hg : TolIs (userOpts a.opts).tolGrad tg) (hf : TolIs (userOpts a.opts).tolFeas tf) (hb : TolIs (userOpts a.opts).tolBnds tb) :
    t.poised * t.yradius ≤ 1 / 10 ^ 3 ∧
      ((t.glagn ≤ tg ∧ t.feasn ≤ tf ∧ t.compl ≤ tb) ∨
        (t.glagn ≤ 100 * tg ∧ t.feasn ≤ 100 * tf ∧ t.compl ≤ 100 * tb ∧ t.ev.infoF = .fin t.fx)) := by
  obtain ⟨i, e, s0, y, Δ, hi, he, hst, -, -, -, hm, hx⟩ := (call_main k hn ho U m hC fuel os a ex g hw).1 x t h
  obtain ⟨-, -, hv, -⟩ := setup_go U _ _ _ _ _ hw i hi
  have hc := (C02_accepted_complete_legal_faithful hv).1
  obtain ⟨-, -, ⟨q1, e1, e1'⟩, ⟨q2, e2, e2'⟩, ⟨q3, e3, e3'⟩, -⟩ := envOf_some he
  have f1 := tol_env hc.tolGrad hg
  have f2 := tol_env hc.tolFeas hf
  have f3 := tol_env hc.tolBnds hb
  rw [e1] at f1; rw [e2] at f2; rw [e3] at f3
  cases f1; cases f2; cases f3
  rw [← e1', ← e2', ← e3']
  exact C12_status_zero_partial hst os t hm h0

theorem firstCe_length (k : Kernels K F) (U : User (List K) K) (m : ℕ) (hC : Counts U m) (x0 : List K) (nx : K) (N : ℕ) (Δ D : K)
    (ev : EvSt (List K) K) (h : initLoop U x0 nx N Δ emptyEv = .done D ev) : (firstCe ev).length = m := by
  have h1 := ceRows_eq k U m hC x0 nx N Δ D ev h
  have h2 := initLoop_cols U m hC x0 nx N Δ D emptyEv ev h
  unfold ceRows at h1
  unfold firstCe
  cases hce : ev.ceX with
  | nil => rw [hce] at h1; simpa using h1
  | cons c cs =>
    rw [hce] at h1
    have hcol := h2 c (by rw [hce]; simp)
    simp only at h1 ⊢
    rw [← h1]
    have : ∀ l : List (Fl K), (∀ v ∈ l, ∃ q, v = Fl.fin q) →
        (l.filterMap fun v => match v with | .fin q => some q | _ => none).length = l.length := by
      intro l
      induction l with
      | nil => intro _; rfl
      | cons v l ih =>
        intro hl
        obtain ⟨q, rfl⟩ := hl v (by simp)
        simp [ih fun v hv => hl v (by simp [hv])]
    exact this c hcol.2

theorem bounded_pos {u o : Opts} (hc : Completion u o) (vs : List (Var K)) (hne : vs ≠ []) (hb : Bounded u vs) :
    0 < nbBounds (infOf o) (vs.map fun v => (v.lb, v.ub)) := by
  unfold nbBounds infOf
  rw [List.countP_pos_iff]
  have triv : o.inf = some .pinf → ∃ b ∈ vs.map fun v => (v.lb, v.ub),
      ((match o.inf with | some v => v.cast | none => .pinf : Fl K).neg.lt (.fin b.1) ||
        (Fl.fin b.2).lt (match o.inf with | some v => v.cast | none => .pinf : Fl K)) = true := by
    intro h
    rw [h]
    cases vs with
    | nil => exact absurd rfl hne
    | cons v vs => exact ⟨_, List.mem_map_of_mem (List.mem_cons_self), by simp [Fl.cast, Fl.neg, Fl.lt]⟩
  rcases hb with h | h | ⟨q, h, v, hv, hq⟩
  · exact triv (hc.inf.2 h)
  · exact triv (hc.inf.1 _ h)
  · refine ⟨_, List.mem_map_of_mem hv, ?_⟩
    rw [hc.inf.1 _ h]
    simpa [Fl.cast, Fl.neg, Fl.lt] using hq

/-- **C81 (end).** With proper bounds, tame functions, usable options (`C80`: verbosity below 4 or finite limits, BFGS mode only with the
undocumented attribute, finite tolerances), at least one bound or constraint, and no more slack variables than constraint values, a call
with a finite limit of iterations or evaluations ends: status returned early, regular end, or one of the exceptions of the main
loop; nothing else escapes and it does not run on, whatever the kernels return. -/
theorem C81_ends [Archimedean K] (k : Kernels K F) (hn : ∀ v, 0 ≤ k.nrm v) (ho : ∀ d, SortedDesc d (k.order d))
    (U : User (List K) K) (m : ℕ) (hC : Counts U m) (hU : Tame U) (fuel : ℕ) (h0 : 0 < fuel) (a : Args K) (ex : Extra) (g : Globals K)
    (hw : WellFormed a) (hlt : ∀ v ∈ boxes a, v.lb < v.ub)
    (hs0 : a.mi = 0 → g.nbrSlacks = 0) (hs1 : a.mi ≠ 0 → a.mi + twoSided a ≤ m)
    (v : Int) (hv : EffVerbose (userOpts a.opts) v)
    (hv4 : v < 4 ∨ FiniteLimit (userOpts a.opts).miter ∧ FiniteLimit (userOpts a.opts).msimul)
    (hbd : 0 < m ∨ Bounded (userOpts a.opts) (boxes a))
    (hbf : ChoosesBfgs (userOpts a.opts) → ex.bfgsRestart = true)
    (tg tf tb : ℚ) (hg : TolIs (userOpts a.opts).tolGrad tg) (hf : TolIs (userOpts a.opts).tolFeas tf)
    (hb : TolIs (userOpts a.opts).tolBnds tb)
    (M : ℚ) (hM : LimitIs (userOpts a.opts).miter M ∨ LimitIs (userOpts a.opts).msimul M) :
    ∃ N : ℕ, ∀ os : List (Orc K F), N ≤ os.length →
      (∃ fl w, call k U fuel os a ex g = .early fl w) ∨ (∃ x t, call k U fuel os a ex g = .done x t) ∨
        ∃ c, call k U fuel os a ex g = .crash c := by
  by_cases hA : BadArg a
  · exact ⟨0, fun os _ => Or.inl ⟨_, _, (C81_call_results k hn ho U m hC fuel os a ex g hw).1 hA⟩⟩
  by_cases hB : BadBounds (boxes a)
  · exact ⟨0, fun os _ => Or.inl ⟨_, _, (C81_call_results k hn ho U m hC fuel os a ex g hw).2.1 hA hB⟩⟩
  obtain ⟨o, g', lb, ub, Δ, ys, hval, hne, hcb, hg0, hg1, hzip, he⟩ := setup_checked U k.sqrt k.nrm fuel a g hw hA hB
  have hmarks : ∀ y ∈ ys, y.2 = false := by
    obtain ⟨D, zs, e, -, -, -, -, -, d5⟩ := boundsLoop_free (boxes a) 1 one_pos hlt
    unfold checkBounds at hcb
    rw [e] at hcb
    simp only at hcb
    have hz : zs = ys := by
      split at hcb
      · split at hcb
        · cases hcb
        · cases hcb; rfl
      · cases hcb; rfl
    rw [← hz]; exact d5
  have hany : ¬ (ys.any (·.2)) = true := by
    rw [List.any_eq_true]
    rintro ⟨y, hy, hy'⟩
    rw [hmarks y hy] at hy'
    cases hy'
  obtain ⟨N, rfl⟩ : ∃ N, fuel = N + 1 := ⟨fuel - 1, by omega⟩
  obtain ⟨ev, hev⟩ := initLoop_tame U hU (ys.map (·.1)) (k.nrm (ys.map (·.1))) N Δ emptyEv
  rcases hev with hev | hev
  · refine ⟨0, fun os _ => Or.inl ?_⟩
    have : (setup U k.sqrt k.nrm (N + 1) a g).res = .ret ev.flag := by
      rw [he]; unfold setupTail; rw [if_neg hany]; dsimp only
      have hev' : initLoop U (ys.map (·.1)) (k.nrm (ys.map (·.1))) (N + 1) Δ ⟨[], [], [], 0, .nan, 0, .empty⟩ = .failed ev := hev
      rw [hev']
    exact ⟨_, _, by simp only [call, this]; rfl⟩
  have hgo : ∃ i : MainIn K, (setup U k.sqrt k.nrm (N + 1) a g).res = .go i ∧ i.opts = o ∧ i.Δ = Δ ∧ i.ev = ev ∧ i.lb = lb ∧ i.ub = ub := by
    rw [he]; unfold setupTail; rw [if_neg hany]; dsimp only
    have hev' : initLoop U (ys.map (·.1)) (k.nrm (ys.map (·.1))) (N + 1) Δ ⟨[], [], [], 0, .nan, 0, .empty⟩ = .done Δ ev := hev
    rw [hev']
    dsimp only
    by_cases hpos : g'.nbrSlacks > 0
    · rw [if_pos hpos]
      have hmi : a.mi ≠ 0 := by
        intro h
        rw [hg0 h, hs0 h] at hpos
        omega
      obtain ⟨k1, k2⟩ := hg1 hmi
      obtain ⟨sl, hsl⟩ := initSlacks_some k.sqrt g'.nbrSlacks (firstCe ev) ub
        (by rw [firstCe_length k U m hC _ _ _ _ _ _ hev, k1]; exact hs1 hmi) k2
      rw [hsl]
      exact ⟨_, rfl, rfl, rfl, rfl, rfl, rfl⟩
    · rw [if_neg hpos]
      exact ⟨_, rfl, rfl, rfl, rfl, rfl, rfl⟩
  obtain ⟨i, hi, i1, i2, i3, i4, i5⟩ := hgo
  obtain ⟨hc, hl⟩ := C02_accepted_complete_legal_faithful hval
  have hrows : ceRows i.ev = m := by rw [i3]; exact ceRows_eq k U m hC _ _ _ _ _ _ hev
  have hX := (C48_done_complete U _ _ _ _ _ _ _ rfl hev).2.1
  have hdim : dimOf i.ev = (boxes a).length := by
    have hin : InsideBy Δ (boxes a) (ys.map (·.1)) := by
      obtain ⟨D, zs, d1, -, -, d4, -⟩ := C04_initial_points (boxes a) hlt
      rw [hcb] at d1; cases d1; exact d4
    rw [i3]; unfold dimOf; rw [hX]
    simp only [simplex]
    exact hin.length_eq.symm
  have hvb : varBounds i = (boxes a).map (fun v => (v.lb, v.ub)) := by
    unfold varBounds; rw [hdim, i4, i5]; exact hzip
  have hpre : prelimRaise ex i = none := by
    unfold prelimRaise
    rw [i1, C80_initial_reads_partial _ o hval v hv, hrows, hvb]
    have hp : 0 < nbBounds (infOf o) ((boxes a).map fun v => (v.lb, v.ub)) + m := by
      rcases hbd with h | h
      · omega
      · have := bounded_pos hc (boxes a) hne h; omega
    rcases hv4 with h | ⟨h1, h2⟩
    · exact Or.inl ⟨h, Or.inl hp⟩
    · rcases lt_or_ge v 4 with h | h
      · exact Or.inl ⟨h, Or.inl hp⟩
      · exact Or.inr ⟨h, hp, h1, h2⟩
  have hhess : hessRaise i.opts ex = none := by rw [i1, C80_hessian_read_partial _ o hval]; exact hbf
  obtain ⟨e, henv⟩ : ∃ e, envOf k U ex i = some e := by
    obtain ⟨mi, hmi, -⟩ := hl.miter
    obtain ⟨ms, hms, -⟩ := hl.msimul
    obtain ⟨fd, hfd, hfd'⟩ := hl.degree
    have hd : ∃ d, finalDegOf i.opts.finalDegree = some d := by
      rw [i1, hfd]
      rcases hfd' with rfl | rfl | rfl
      · exact ⟨.linear, rfl⟩
      · exact ⟨.diagonal, rfl⟩
      · exact ⟨.quadratic, rfl⟩
    obtain ⟨d, hd⟩ := hd
    unfold envOf
    rw [hd, hhess, i1, tol_env hc.tolGrad hg, tol_env hc.tolFeas hf, tol_env hc.tolBnds hb, hmi, hms]
    exact ⟨_, rfl⟩
  obtain ⟨s0, hini⟩ := mainInit_some k U m hC _ _ _ _ _ _ hev e i.slacks
  rw [← i2, ← i3] at hini
  obtain ⟨y, Δ', hst, -, -, -⟩ := call_starts k hn ho U m hC (N + 1) a ex g hw i hi e henv s0 hini
  obtain ⟨⟨mi, e1, e1'⟩, ⟨ms, e2, e2'⟩, -⟩ := envOf_some henv
  have hlim : e.miter = .fin (M : K) ∨ e.msimul = .fin (M : K) := by
    rcases hM with hM | hM
    · have := limit_env hc.miter hM
      rw [← i1, e1] at this
      cases this
      exact Or.inl e1'
    · have := limit_env hc.msimul hM
      rw [← i1, e2] at this
      cases this
      exact Or.inr e2'
  obtain ⟨N', hN'⟩ := C11_terminates_partial hst (M : K) hlim
  refine ⟨N', fun os hos => Or.inr ?_⟩
  simp only [call, hi, runMain, hpre, henv, hini]
  cases hm : mainLoop e os s0 with
  | running t => exact absurd hm (hN' os hos t)
  | crash c => exact Or.inr ⟨c, rfl⟩
  | done t =>
    obtain ⟨z, -, -, hz, -⟩ := C15_returned_point hst os t hm
    simp only [hz]
    exact Or.inl ⟨_, _, rfl⟩

theorem runMain_opts (k : Kernels K F) (U : User (List K) K) (ex : Extra) (os : List (Orc K F)) (o o' : Opts) (Δ : K)
    (ev : EvSt (List K) K) (lb ub : List K) (ns : ℕ) (sl : List K) (fo ve : Option Int) (ho : o' = { o with fout := fo, verbose := ve })
    (h4 : o'.verbose4 = o.verbose4) :
    runMain k U ex os ⟨o', Δ, ev, lb, ub, ns, sl⟩ = runMain k U ex os ⟨o, Δ, ev, lb, ub, ns, sl⟩ := by
  have h1 : prelimRaise ex ⟨o', Δ, ev, lb, ub, ns, sl⟩ = prelimRaise ex ⟨o, Δ, ev, lb, ub, ns, sl⟩ := by
    unfold prelimRaise lateRaise varBounds infOf
    simp only [h4]
    subst ho
    rfl
  have h2 : envOf k U ex ⟨o', Δ, ev, lb, ub, ns, sl⟩ = envOf k U ex ⟨o, Δ, ev, lb, ub, ns, sl⟩ := by
    unfold envOf hessRaise
    simp only [h4]
    subst ho
    rfl
  unfold runMain
  rw [h1, h2]

theorem verbose4_eff {u o : Opts} (h : validate u = .ok o) {v : Int} (hv : EffVerbose u v) : o.verbose4 = decide (4 ≤ v) := by
  have := effVerbose_completion (C02_accepted_complete_legal_faithful h).1 hv
  unfold Opts.verbose4
  rw [this]

/-- **C81 (output options).** The output channel has no influence on the result of a call (regular result, status, exception, calls of the
user's functions), and neither has the verbosity as long as it stays below 4, or stays from 4 to 6 (it has beyond that: `C55_false`,
`C80_verbosity_raises`). -/
theorem C81_output_options (k : Kernels K F) (U : User (List K) K) (fuel : ℕ) (os : List (Orc K F)) (a : Args K) (ex : Extra) (g : Globals K)
    (hw : WellFormed a) (u : Opts) (ha : a.opts = .inst u) (fo ve : Option Int) (v v' : Int) (hv : EffVerbose u v)
    (hv' : EffVerbose { u with fout := fo, verbose := ve } v') (hvv : v < 4 ↔ v' < 4) :
    call k U fuel os { a with opts := .inst { u with fout := fo, verbose := ve } } ex g = call k U fuel os a ex g := by
  have hca : checkArgs { a with opts := .inst { u with fout := fo, verbose := ve } } g = checkArgs a g := rfl
  have hty : Typed u := by have := hw.opts; rw [ha] at this; exact this
  have hty' : Typed { u with fout := fo, verbose := ve } := ⟨hty.1, hty.2, hty.3, hty.4⟩
  have hiff := C01_fout_verbose_irrelevant u fo ve
  cases hA : checkArgs a g with
  | mk r g' =>
    cases r with
    | ret1 => simp [call, setup, hA, hca]
    | raised => simp [call, setup, hA, hca]
    | ok r c x0 lb ub =>
      cases hval : validate u with
      | error e =>
        cases e with
        | crash o => exact absurd hval ((C01_rejects_iff_illegal u hty).1 o)
        | rejected o =>
          cases hval' : validate { u with fout := fo, verbose := ve } with
          | ok o' => rw [hval'] at hiff; have := hiff.1 ⟨o', rfl⟩; rw [hval] at this; obtain ⟨_, h⟩ := this; cases h
          | error e' =>
            cases e' with
            | crash o' => exact absurd hval' ((C01_rejects_iff_illegal _ hty').1 o')
            | rejected o' => simp only [call, setup, hA, hca, ha, OptArg.dict, hval, hval']
      | ok o =>
        obtain ⟨a1, a2, a3, a4, a5, a6, a7, a8, a9, a10, a11, h1, h2, h3, h4, h5, h6, h7, h8, h9, h10, h11, ho⟩ := validate_ok.1 hval
        obtain ⟨o', hval', hoo⟩ : ∃ o', validate { u with fout := fo, verbose := ve } = .ok o' ∧
            o' = { o with fout := some (fixFout fo), verbose := some (fixVerbose ve) } := by
          refine ⟨_, validate_ok.2 ⟨a1, a2, a3, a4, a5, a6, a7, a8, a9, a10, a11, h1, h2, h3, h4, h5, h6, h7, h8, h9, h10, h11, rfl⟩, ?_⟩
          rw [ho]
        have hv4 : o'.verbose4 = o.verbose4 := by
          rw [verbose4_eff hval hv, verbose4_eff hval' hv']
          congr 1
          apply propext
          omega
        have hrun := fun Δ ev lb ub ns sl => runMain_opts k U ex os o o' Δ ev lb ub ns sl _ _ hoo hv4
        simp only [call, setup, hA, hca, ha, OptArg.dict, hval, hval']
        by_cases hc1 : c ≠ 1
        · rw [if_pos hc1, if_pos hc1]
        rw [if_neg hc1, if_neg hc1]
        by_cases hr1 : r < 1
        · rw [if_pos hr1, if_pos hr1]
        rw [if_neg hr1, if_neg hr1]
        cases lb with
        | missing => rfl
        | bad => rfl
        | col lb =>
          cases ub with
          | missing => rfl
          | bad => rfl
          | col ub =>
            dsimp only
            cases hbp : boundsPart r x0 lb ub with
            | none => rfl
            | some b =>
              cases b with
              | flag2 => rfl
              | ok Δ ys =>
                dsimp only
                by_cases hany : (ys.any (·.2)) = true
                · rw [if_pos hany, if_pos hany]
                rw [if_neg hany, if_neg hany]
                generalize initLoop U _ _ _ _ _ = R
                cases R with
                | crash => rfl
                | running => rfl
                | failed s => rfl
                | stalled s => rfl
                | done D s =>
                  dsimp only
                  by_cases hpos : g'.nbrSlacks > 0
                  · rw [if_pos hpos, if_pos hpos]
                    cases initSlacks k.sqrt g'.nbrSlacks (firstCe s) ub with
                    | none => rfl
                    | some sl => exact hrun _ _ _ _ _ _
                  · rw [if_neg hpos, if_neg hpos]
                    exact hrun _ _ _ _ _ _

namespace Ex

/-- At most three iterations, linear models. -/
def wThree : Opts := { Opts.empty with miter := some (.fin 3), finalDegree := some (.str "linear".toList) }

/-- Status, number of iterations, number of evaluations and returned point. -/
def wSummary : CallRes ℚ Unit → Option (ℕ × ℕ × ℕ × List ℚ)
  | .done x s => some (s.ev.flag, s.niter, s.ev.nsimul, x)
  | _ => none

theorem wArgs_wellFormed (o : Opts) (h : Typed o) : WellFormed (wArgs o) := by
  refine ⟨by simp [wArgs], by simp [wArgs], h, ?_, ?_, ?_, ?_, ?_⟩
  · intro l h; cases h
  · intro l h; cases h
  · intro r c d h; cases h; rfl
  · intro r c d h; cases h; exact Or.inl ⟨rfl, rfl⟩
  · intro r c d h; cases h; exact Or.inl ⟨rfl, rfl⟩

theorem wThree_typed : Typed wThree := ⟨by simp [wThree, Opts.empty], by simp [wThree, Opts.empty], by simp [wThree, Opts.empty],
  by simp [wThree, Opts.empty]⟩

end Ex

/-- A whole call: the minimisation of `-x` from 0 takes three steps and stops at the limit of the iterations. -/
example : Ex.wSummary (call Ex.wKern Ex.down 1 [Ex.orc [1] 1, Ex.orc [2] 1, Ex.orc [3] 1, Ex.orc [4] 1] (Ex.wArgs Ex.wThree) Ex.wPlain .fresh) =
    some (5, 3, 5, [3]) := by decide +kernel

/-- Objective `-x`, but at least `-100`. -/
def Ex.wFlat : User (List ℚ) ℚ := ⟨fun _ x => .num (.fin (max (-x.sum) (-100))), none⟩

/-- The hypotheses of `C81_ends` can be met. -/
example : ∃ N : ℕ, ∀ os : List (Orc ℚ Unit), N ≤ os.length →
    (∃ fl w, call Ex.wKern Ex.wFlat 1 os (Ex.wArgs Ex.wThree) Ex.wPlain .fresh = .early fl w) ∨
      (∃ x t, call Ex.wKern Ex.wFlat 1 os (Ex.wArgs Ex.wThree) Ex.wPlain .fresh = .done x t) ∨
        ∃ c, call Ex.wKern Ex.wFlat 1 os (Ex.wArgs Ex.wThree) Ex.wPlain .fresh = .crash c := by
  refine C81_ends Ex.wKern Ex.nrm1_nonneg Ex.descOrder_sorted Ex.wFlat 0 ⟨fun _ => rfl, fun c h => by cases h⟩ ?_ 1 one_pos _ _ _
    (Ex.wArgs_wellFormed _ Ex.wThree_typed) ?_ (fun _ => rfl) (fun h => absurd rfl h) 1 (Or.inr ⟨rfl, fun _ h => by cases h⟩)
    (Or.inl (by norm_num)) (Or.inr (Or.inl rfl)) ?_ (1 / 10 ^ 5) (1 / 10 ^ 5) (1 / 10 ^ 5) (Or.inl ⟨Or.inl rfl, rfl⟩)
    (Or.inl ⟨Or.inl rfl, rfl⟩) (Or.inl ⟨Or.inl rfl, rfl⟩) 3 (Or.inl (Or.inr rfl))
  · refine ⟨fun w y h => (by cases h), fun w y q h => ?_, fun c h => (by cases h)⟩
    simp only [Ex.wFlat, FOut.num.injEq, Fl.fin.injEq] at h
    rw [← h]
    exact le_trans (by norm_num) (le_max_right _ _)
  · intro v hv
    simp only [boxes, Ex.wArgs, meant, List.length_singleton, List.replicate_one, List.zip_cons_cons, List.zip_nil_left,
      List.zipWith_cons_cons, List.zipWith_nil_left, List.mem_singleton] at hv
    rw [hv]
    norm_num
  · rintro ⟨s, h, -⟩
    cases h

/-- Calls that return early: an illegal tolerance (status 1), crossed bounds (status 2), an objective that raises (status 3). -/
example : Ex.wStatus (call Ex.wKern Ex.down 1 [] (Ex.wArgs { Ex.wThree with tolGrad := some (.fin (-1)) }) Ex.wPlain .fresh) = some 1 ∧
    Ex.wStatus (call Ex.wKern Ex.down 1 [] { Ex.wArgs Ex.wThree with lb := .col [1], ub := .col [0] } Ex.wPlain .fresh) = some 2 ∧
    Ex.wStatus (call Ex.wKern ⟨fun _ _ => .raised, none⟩ 1 [] (Ex.wArgs Ex.wThree) Ex.wPlain .fresh) = some 3 := by
  refine ⟨?_, ?_, ?_⟩ <;> decide +kernel

/-- A call with an inequality: one slack variable, one constraint value. -/
example : Ex.wSummary (call Ex.wKern ⟨fun _ x => .num (.fin (-x.sum)), some fun _ x => .nums [.fin x.sum]⟩ 1
    ([1, 2, 3, 4].map fun j => { Ex.orc [j] 1 with slplus := [0] })
    { Ex.wArgs Ex.wThree with mi := 1, c := .fn } Ex.wPlain .fresh) = some (5, 3, 5, [0]) := by decide +kernel

#print axioms C81_call_results
#print axioms C81_limits
#print axioms C81_status_zero
#print axioms C81_ends
#print axioms C81_output_options

end Sqpdfo
