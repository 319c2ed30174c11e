import Verif.Props.C98_C99_Causal
import Verif.Props.C81_Whole
import Verif.Props.C17_C19_Step

/-! # C109: larger limits continue the same run -/

set_option linter.unusedSectionVars false

namespace Sqpdfo
open Spec
variable {K F : Type} [Field K] [LinearOrder K] [IsStrictOrderedRing K]

/-- The same run with other limits of iterations and evaluations. -/
def Spec.limited (e : Env K F) (mi ms : Fl K) : Env K F := { e with miter := mi, msimul := ms }

/-- `b` is at least the limit `a`: a count that reaches `b` has reached `a`. -/
def Spec.Above (a b : Fl K) : Prop := ∀ j : ℕ, b.le (.fin (j : K)) = true → a.le (.fin (j : K)) = true

theorem evalReplaced_limits (e : Env K F) (mi ms : Fl K) : ∀ (js : List ℕ) (s : MSt K F),
    evalReplaced (limited e mi ms) js s = evalReplaced e js s := by
  intro js
  induction js with
  | nil => intro s; rfl
  | cons j js ih => intro s; simp only [evalReplaced, ih]; rfl

theorem improve_limits (e : Env K F) (mi ms : Fl K) (o : Orc K F) (s : MSt K F) :
    improve (limited e mi ms) o s = improve e o s := by
  have h : ∀ r s, repairStage (limited e mi ms) o r s = repairStage e o r s := by
    intro r s
    unfold repairStage
    dsimp only
    rw [evalReplaced_limits]
    rfl
  unfold improve
  dsimp only
  simp only [h]
  rfl

theorem stepStage_limits (e : Env K F) (mi ms : Fl K) (o : Orc K F) (s : MSt K F) :
    stepStage (limited e mi ms) o s = stepStage e o s := rfl

/-- A pass either stops at a limit, or larger limits do not change it. -/
theorem pass_limits (e : Env K F) (mi ms : Fl K) (hi : Above e.miter mi) (hs : Above e.msimul ms) (o : Orc K F) (s : MSt K F) :
    pass (limited e mi ms) o s = pass e o s ∨ pass e o s = s.stop 5 ∨ pass e o s = s.stop 6 := by
  by_cases h1 : e.miter.le (.fin s.niter) = true
  · right; left; unfold pass; rw [if_pos h1]; rfl
  by_cases h2 : e.msimul.le (.fin s.ev.nsimul) = true
  · right; right; unfold pass; rw [if_neg h1, if_pos h2]; rfl
  left
  have h1' : ¬ (limited e mi ms).miter.le (.fin s.niter) = true := fun h => h1 (hi _ h)
  have h2' : ¬ (limited e mi ms).msimul.le (.fin s.ev.nsimul) = true := fun h => h2 (hs _ h)
  unfold pass
  rw [if_neg h1, if_neg h2, if_neg h1', if_neg h2']
  simp only [improve_limits]
  rfl

/-- C109 for the main loop, from any state: with larger limits the passes are the same as long as no limit is reached.  A run that
ends otherwise ends in the same way; a run that ends at a limit ends in the state that the longer run has after
the same number of passes (but for the status). -/
theorem C109_loop (e : Env K F) (mi ms : Fl K) (hi : Above e.miter mi) (hs : Above e.msimul ms) :
    ∀ (os : List (Orc K F)) (s0 : MSt K F),
      mainLoop (limited e mi ms) os s0 = mainLoop e os s0 ∨
      ∃ (j : ℕ) (s : MSt K F) (fl : ℕ), j < os.length ∧ (fl = 5 ∨ fl = 6) ∧
        mainLoop e (os.take j) s0 = .running s ∧ mainLoop (limited e mi ms) (os.take j) s0 = .running s ∧
        mainLoop e os s0 = .done { s with ev := { s.ev with flag := fl } } := by
  intro os
  induction os with
  | nil => intro s0; exact Or.inl rfl
  | cons o os ih =>
    intro s0
    rcases pass_limits e mi ms hi hs o s0 with h | h | h
    · simp only [mainLoop, h]
      cases hp : pass e o s0 with
      | ret t => exact Or.inl rfl
      | crash c => exact Or.inl rfl
      | cont t =>
        rcases ih t with g | ⟨j, s, fl, hj, hfl, g1, g2, g3⟩
        · exact Or.inl g
        · refine Or.inr ⟨j + 1, s, fl, by simpa using hj, hfl, ?_, ?_, g3⟩
          · simp only [List.take_succ_cons, mainLoop, hp]; exact g1
          · simp only [List.take_succ_cons, mainLoop, h, hp]; exact g2
    · exact Or.inr ⟨0, s0, 5, by simp, Or.inl rfl, rfl, rfl, by simp only [mainLoop, h]; rfl⟩
    · exact Or.inr ⟨0, s0, 6, by simp, Or.inr rfl, rfl, rfl, by simp only [mainLoop, h]; rfl⟩

theorem mainLoop_append (e : Env K F) : ∀ (os os' : List (Orc K F)) (s t : MSt K F),
    mainLoop e os s = .running t → mainLoop e (os ++ os') s = mainLoop e os' t := by
  intro os
  induction os with
  | nil => intro os' s t h; simp only [mainLoop, MainRes.running.injEq] at h; rw [h]; rfl
  | cons o os ih =>
    intro os' s t h
    simp only [List.cons_append, mainLoop] at h ⊢
    cases hp : pass e o s with
    | cont v => rw [hp] at h; exact ih os' v t h
    | ret v => rw [hp] at h; cases h
    | crash c => rw [hp] at h; cases h

/-! ### Whole calls -/

/-- The options with other limits. -/
def Spec.raised (u : Opts) (M N : ℚ) : Opts := { u with miter := some (.fin M), msimul := some (.fin N) }

/-- The limits have no influence on the set-up, apart from being handed over. -/
theorem setup_limits (U : User (List K) K) (sqrt : K → K) (nrm : List K → K) (fuel : ℕ) (a : Args K) (g : Globals K)
    (u : Opts) (ha : a.opts = .inst u) (M N : ℚ) (hM : 0 < M) (hN : 0 < N) (i : MainIn K)
    (h : (setup U sqrt nrm fuel a g).res = .go i) :
    (setup U sqrt nrm fuel { a with opts := .inst (raised u M N) } g).res = .go { i with opts := raised i.opts M N } := by
  have hca : checkArgs { a with opts := .inst (raised u M N) } g = checkArgs a g := rfl
  unfold setup at h ⊢
  rw [hca]
  cases hA : checkArgs a g with
  | mk r g' =>
    rw [hA] at h
    cases r with
    | ret1 => cases h
    | raised => cases h
    | ok r c x0 lb ub =>
      simp only [ha, OptArg.dict] at h ⊢
      cases hval : validate u with
      | error e => rw [hval] at h; cases e <;> cases h
      | ok o =>
        obtain ⟨a1, a2, a3, a4, a5, a6, a7, a8, a9, a10, a11, h1, h2, h3, h4, h5, h6, h7, h8, h9, h10, h11, ho⟩ := validate_ok.1 hval
        have p : ∀ q : ℚ, 0 < q → checkPos (.fin 1000) (some (.fin q)) = .ok (.fin q) := by
          intro q hq
          simp [checkPos, Fl.le, not_le.2 hq]
        have hval' : validate (raised u M N) = .ok (raised o M N) := by
          refine validate_ok.2 ⟨a1, a2, a3, .fin M, .fin N, a6, a7, a8, a9, a10, a11, h1, h2, h3, p M hM, p N hN, h6, h7, h8, h9, h10, h11, ?_⟩
          rw [ho]
          rfl
        rw [hval] at h
        rw [hval']
        dsimp only at h ⊢
        by_cases hc1 : c ≠ 1
        · rw [if_pos hc1] at h; cases h
        rw [if_neg hc1] at h ⊢
        by_cases hr1 : r < 1
        · rw [if_pos hr1] at h; cases h
        rw [if_neg hr1] at h ⊢
        cases lb with
        | missing => cases h
        | bad => cases h
        | col lb =>
          cases ub with
          | missing => cases h
          | bad => cases h
          | col ub =>
            dsimp only at h ⊢
            cases hbp : boundsPart r x0 lb ub with
            | none => rw [hbp] at h; cases h
            | some b =>
              rw [hbp] at h
              cases b with
              | flag2 => cases h
              | ok Δ ys =>
                dsimp only at h ⊢
                by_cases hany : (ys.any (·.2)) = true
                · rw [if_pos hany] at h; cases h
                rw [if_neg hany] at h ⊢
                cases hR : initLoop U (ys.map (·.1)) (nrm (ys.map (·.1))) fuel Δ ⟨[], [], [], 0, .nan, 0, .empty⟩ with
                | crash => rw [hR] at h; cases h
                | running => rw [hR] at h; cases h
                | failed s => rw [hR] at h; cases h
                | stalled s => rw [hR] at h; cases h
                | done D s =>
                  rw [hR] at h
                  dsimp only at h ⊢
                  by_cases hpos : g'.nbrSlacks > 0
                  · rw [if_pos hpos] at h ⊢
                    cases hsl : initSlacks sqrt g'.nbrSlacks (firstCe s) ub with
                    | none => rw [hsl] at h; cases h
                    | some sl =>
                      rw [hsl] at h
                      simp only [SetupRes.go.injEq] at h ⊢
                      rw [← h]
                  · rw [if_neg hpos] at h ⊢
                    simp only [SetupRes.go.injEq] at h ⊢
                    rw [← h]

theorem prelimRaise_limits (ex : Extra) (i : MainIn K) (M N : ℚ) (h : prelimRaise ex i = none) :
    prelimRaise ex { i with opts := raised i.opts M N } = none := by
  unfold prelimRaise at h ⊢
  have hv : (raised i.opts M N).verbose4 = i.opts.verbose4 := rfl
  have hb : varBounds { i with opts := raised i.opts M N } = varBounds i := rfl
  have hf : (infOf (raised i.opts M N) : Fl K) = infOf i.opts := rfl
  have hm : printsAsInt (raised i.opts M N).miter = true := rfl
  have hm' : printsAsInt (raised i.opts M N).msimul = true := rfl
  dsimp only at h ⊢
  rw [hb, hf]
  unfold lateRaise at h ⊢
  rw [hv, hm, hm']
  split at h
  · rename_i h4
    rw [if_pos h4]
    split at h
    · cases h
    rename_i c1
    rw [if_neg c1]
    split at h
    · cases h
    split at h
    · cases h
    rw [if_neg (by simp), if_neg (by simp)]
    exact h
  · rename_i h4
    rw [if_neg h4]
    exact h

theorem envOf_limits (k : Kernels K F) (U : User (List K) K) (ex : Extra) (i : MainIn K) (M N : ℚ) (e : Env K F)
    (h : envOf k U ex i = some e) :
    envOf k U ex { i with opts := raised i.opts M N } = some (limited e (.fin (M : K)) (.fin (N : K))) := by
  unfold envOf at h ⊢
  have h2 : hessRaise (raised i.opts M N) ex = hessRaise i.opts ex := rfl
  dsimp only [raised] at h2 ⊢
  rw [h2]
  cases h3 : (tolOf i.opts.tolGrad : Option K) with
  | none => rw [h3] at h; cases h
  | some tg =>
  cases h4 : (tolOf i.opts.tolFeas : Option K) with
  | none => rw [h3, h4] at h; cases h
  | some tf =>
  cases h5 : (tolOf i.opts.tolBnds : Option K) with
  | none => rw [h3, h4, h5] at h; cases h
  | some tb =>
  cases h6 : i.opts.miter with
  | none => rw [h3, h4, h5, h6] at h; cases h
  | some mi =>
  cases h7 : i.opts.msimul with
  | none => rw [h3, h4, h5, h6, h7] at h; cases h
  | some ms =>
  cases h8 : finalDegOf i.opts.finalDegree with
  | none => rw [h3, h4, h5, h6, h7, h8] at h; cases h
  | some fd =>
  cases h9 : hessRaise i.opts ex with
  | some r => rw [h3, h4, h5, h6, h7, h8, h9] at h; cases h
  | none =>
  rw [h3, h4, h5, h6, h7, h8, h9] at h
  simp only [Option.some.injEq] at h ⊢
  rw [← h]
  rfl

theorem above_cast {M M' : ℚ} (h : M ≤ M') : Above (K := K) (.fin (M : K)) (.fin (M' : K)) := by
  intro j hj
  simp only [Fl.le, decide_eq_true_eq] at hj ⊢
  exact le_trans (by exact_mod_cast h) hj

theorem call_done (k : Kernels K F) (U : User (List K) K) (fuel : ℕ) (os : List (Orc K F)) (a : Args K) (ex : Extra) (g : Globals K)
    (x : List K) (t : MSt K F) (h : call k U fuel os a ex g = .done x t) :
    ∃ (i : MainIn K) (e : Env K F) (s0 : MSt K F), (setup U k.sqrt k.nrm fuel a g).res = .go i ∧ prelimRaise ex i = none ∧
      envOf k U ex i = some e ∧ mainInit e i.Δ i.slacks i.ev = some s0 ∧ mainLoop e os s0 = .done t ∧ t.ev.X[t.ixbest]? = some x := by
  unfold call at h
  dsimp only at h
  cases hs : (setup U k.sqrt k.nrm fuel a g).res with
  | ret fl => rw [hs] at h; cases h
  | crash => rw [hs] at h; cases h
  | running => rw [hs] at h; cases h
  | go i =>
    rw [hs] at h
    simp only [runMain] at h
    cases hp : prelimRaise ex i with
    | some r => rw [hp] at h; cases h
    | none =>
      rw [hp] at h
      dsimp only at h
      cases he : envOf k U ex i with
      | none => rw [he] at h; cases h
      | some e =>
        rw [he] at h
        dsimp only at h
        cases hi : mainInit e i.Δ i.slacks i.ev with
        | none => rw [hi] at h; cases h
        | some s0 =>
          rw [hi] at h
          dsimp only at h
          cases hm : mainLoop e os s0 with
          | running v => rw [hm] at h; cases h
          | crash c => rw [hm] at h; cases h
          | done v =>
            rw [hm] at h
            dsimp only at h
            cases hx : v.ev.X[v.ixbest]? with
            | none => rw [hx] at h; cases h
            | some z =>
              rw [hx] at h
              simp only [CallRes.done.injEq] at h
              obtain ⟨rfl, rfl⟩ := h
              exact ⟨i, e, s0, rfl, hp, he, hi, hm, hx⟩

/-- **C109.**  The full statement also says that *the second call returns no worse point*, which is false (`C109_worse_false`).  Proved:
`optimize` is called twice with the same arguments and options, except that the limits of the iterations and of
the evaluations are larger (or equal, finite) in the second call; the numerical kernels return the same results in the passes that both calls make.  If the first call
ends regularly, then either the second call returns the same result, or the first call stops at a limit (status 5 or 6) and the second
call makes the same passes and goes on from there: whatever the kernels return later, its history begins with the complete history of the first call (points, values, calls of
the user's functions; huge constraint values excepted, `C98_history_false`), and the point that the first call returns is the iterate of the second call at that moment. -/
theorem C109_call_partial (k : Kernels K F) (hn : ∀ v, 0 ≤ k.nrm v) (ho : ∀ d, SortedDesc d (k.order d)) (U : User (List K) K) (m : ℕ)
    (hC : Counts U m) (fuel : ℕ) (os : List (Orc K F)) (a : Args K) (ex : Extra) (g : Globals K) (hw : WellFormed a)
    (u : Opts) (ha : a.opts = .inst u) (M N M' N' : ℚ) (hM : LimitIs u.miter M) (hN : LimitIs u.msimul N) (hMM : M ≤ M') (hNN : N ≤ N')
    (x : List K) (t : MSt K F) (h : call k U fuel os a ex g = .done x t) :
    call k U fuel os { a with opts := .inst (raised u M' N') } ex g = .done x t ∨
    ((t.ev.flag = 5 ∨ t.ev.flag = 6) ∧ ∃ j < os.length,
      call k U fuel (os.take j) { a with opts := .inst (raised u M' N') } ex g = .running ∧
      ∀ (os' : List (Orc K F)) (x' : List K) (t' : MSt K F),
        call k U fuel (os.take j ++ os') { a with opts := .inst (raised u M' N') } ex g = .done x' t' →
          (∃ d, Longer U t.ev t'.ev d) ∧
          ∃ (i : MainIn K) (e : Env K F) (s0 s : MSt K F),
            (setup U k.sqrt k.nrm fuel { a with opts := .inst (raised u M' N') } g).res = .go i ∧
            envOf k U ex i = some e ∧ mainInit e i.Δ i.slacks i.ev = some s0 ∧
            mainLoop e (os.take j) s0 = .running s ∧ mainLoop e (os.take j ++ os') s0 = .done t' ∧
            s.ev.X[s.ixbest]? = some x ∧ s.fx = t.fx ∧ s.niter = t.niter ∧ s.ev.nsimul = t.ev.nsimul) := by
  obtain ⟨i, e, s0, hset, hpre, henv, hini, hml, hx⟩ := call_done k U fuel os a ex g x t h
  obtain ⟨y, Δ, hst, -⟩ := call_starts k hn ho U m hC fuel a ex g hw i hset e henv s0 hini
  have hpos : (0 < M ∧ 0 < N) ∧ e.miter = .fin (M : K) ∧ e.msimul = .fin (N : K) := by
    obtain ⟨-, -, hv, -⟩ := setup_go U _ _ _ _ _ hw i hset
    rw [ha] at hv
    obtain ⟨hc, hl⟩ := C02_accepted_complete_legal_faithful hv
    obtain ⟨⟨mi, e1, e1'⟩, ⟨ms, e2, e2'⟩, -⟩ := envOf_some henv
    have hM1 := limit_env hc.miter hM
    have hN1 := limit_env hc.msimul hN
    rw [e1] at hM1
    rw [e2] at hN1
    cases hM1
    cases hN1
    refine ⟨⟨?_, ?_⟩, e1', e2'⟩
    · obtain ⟨v, hv1, hv2⟩ := hl.miter
      rw [e1] at hv1
      cases hv1
      rcases hv2 with h | h | ⟨q, hq, h⟩
      · cases h
      · cases h
      · cases h; exact hq
    · obtain ⟨v, hv1, hv2⟩ := hl.msimul
      rw [e2] at hv1
      cases hv1
      rcases hv2 with h | h | ⟨q, hq, h⟩
      · cases h
      · cases h
      · cases h; exact hq
  obtain ⟨⟨hM0, hN0⟩, hemi, hems⟩ := hpos
  have hset' := setup_limits U k.sqrt k.nrm fuel a g u ha M' N' (lt_of_lt_of_le hM0 hMM) (lt_of_lt_of_le hN0 hNN) i hset
  have henv' := envOf_limits k U ex i M' N' e henv
  have hpre' := prelimRaise_limits ex i M' N' hpre
  have hini' : mainInit (limited e (.fin (M' : K)) (.fin (N' : K))) i.Δ i.slacks i.ev = some s0 := hini
  have hcall : ∀ os', call k U fuel os' { a with opts := .inst (raised u M' N') } ex g =
      match mainLoop (limited e (.fin (M' : K)) (.fin (N' : K))) os' s0 with
        | .running _ => .running
        | .crash c => .crash c
        | .done t =>
          match t.ev.X[t.ixbest]? with
          | none => .crash .index
          | some x => .done x t := by
    intro os'
    simp only [call, hset', runMain, hpre', henv', hini']
    cases mainLoop (limited e (.fin (M' : K)) (.fin (N' : K))) os' s0 with
    | running v => rfl
    | crash c => rfl
    | done v => dsimp only; cases v.ev.X[v.ixbest]? <;> rfl
  rcases C109_loop e (.fin (M' : K)) (.fin (N' : K)) (hemi ▸ above_cast hMM) (hems ▸ above_cast hNN) os s0 with hl | hl
  · left
    rw [hcall, hl, hml]
    simp only [hx]
  · obtain ⟨j, s, fl, hj, hfl, g1, g2, g3⟩ := hl
    rw [hml] at g3
    simp only [MainRes.done.injEq] at g3
    right
    refine ⟨by rw [g3]; exact hfl, j, hj, by rw [hcall, g2], fun os' x' t' h' => ?_⟩
    rw [hcall, mainLoop_append _ _ _ _ _ g2] at h'
    cases hm' : mainLoop (limited e (.fin (M' : K)) (.fin (N' : K))) os' s with
    | running v => rw [hm'] at h'; cases h'
    | crash c => rw [hm'] at h'; cases h'
    | done v =>
      rw [hm'] at h'
      have hv : v = t' := by
        dsimp only at h'
        split at h'
        · cases h'
        · simp only [CallRes.done.injEq] at h'; exact h'.2
      subst hv
      have hU : e.U = U := (envOf_withU k U U ex i e henv).2
      refine ⟨?_, _, limited e (.fin (M' : K)) (.fin (N' : K)), s0, s, hset', henv', hini', g2, by rw [mainLoop_append _ _ _ _ _ g2, hm'], ?_, ?_, ?_, ?_⟩
      · obtain ⟨d, hd⟩ := mainLoop_added _ os' s v (hst.memory _ s g1).inv.hlen (Or.inr hm')
        have hd : Longer e.U s.ev v.ev d := hd
        rw [hU] at hd
        rw [g3]
        exact ⟨d, hd.X, hd.logF, hd.logC, hd.nsimul, hd.fX, hd.ce⟩
      · rw [g3] at hx; exact hx
      all_goals rw [g3]

/-! ### The limits and the quality of the result -/

namespace Ex

/-- At most `M` iterations, quadratic models. -/
def lQuad (M : ℚ) : Opts := { Opts.empty with miter := some (.fin M), finalDegree := some (.str "quadratic".toList) }

/-- Kernel results of the run of `C17_merit_increases`. -/
def lOrcs : List (Orc ℚ Unit) := [orc [-2] 1, improve2, orc [5 / 10 ^ 6] (5 / 10 ^ 6), orc [1] 1]

end Ex

/-- The returned point is not better with larger limits: the minimisation of `-x` from 0 returns `1e-5` after at most three
iterations and `5e-6` after at most four, with the same results of the kernels (the trial point of the fourth iteration is compared with the value memorised in the
first one, see `C17_merit_increases`). -/
theorem C109_worse_false :
    ∃ t t', call Ex.wKern Ex.down 1 Ex.lOrcs (Ex.wArgs (Ex.lQuad 3)) Ex.wPlain .fresh = .done [1 / 10 ^ 5] t ∧
      call Ex.wKern Ex.down 1 Ex.lOrcs (Ex.wArgs (Ex.lQuad 4)) Ex.wPlain .fresh = .done [5 / 10 ^ 6] t' ∧
      t.fx < t'.fx ∧ t.ev.flag = 5 ∧ t'.ev.flag = 5 := by
  have h : (match call Ex.wKern Ex.down 1 Ex.lOrcs (Ex.wArgs (Ex.lQuad 3)) Ex.wPlain .fresh,
      call Ex.wKern Ex.down 1 Ex.lOrcs (Ex.wArgs (Ex.lQuad 4)) Ex.wPlain .fresh with
    | .done x t, .done x' t' => decide (x = [1 / 10 ^ 5] ∧ x' = [5 / 10 ^ 6] ∧ t.fx < t'.fx ∧ t.ev.flag = 5 ∧ t'.ev.flag = 5)
    | _, _ => false) = true := by decide +kernel
  split at h
  · rename_i x t x' t' h1 h2
    obtain ⟨rfl, rfl, h3, h4, h5⟩ := of_decide_eq_true h
    exact ⟨t, t', h1, h2, h3, h4, h5⟩
  · cases h

theorem Ex.lQuad_typed (M : ℚ) : Typed (Ex.lQuad M) := ⟨by simp [Ex.lQuad, Opts.empty], by simp [Ex.lQuad, Opts.empty],
  by simp [Ex.lQuad, Opts.empty], by simp [Ex.lQuad, Opts.empty]⟩

/-- Both calls above are as in `C109_call_partial`: the call with four iterations continues the call with three. -/
example : ∃ (x : List ℚ) (t : MSt ℚ Unit), call Ex.wKern Ex.down 1 Ex.lOrcs (Ex.wArgs (Ex.lQuad 3)) Ex.wPlain .fresh = .done x t ∧
    (call Ex.wKern Ex.down 1 Ex.lOrcs (Ex.wArgs (raised (Ex.lQuad 3) 4 1000)) Ex.wPlain .fresh = .done x t ∨
      (t.ev.flag = 5 ∨ t.ev.flag = 6) ∧ ∃ j < Ex.lOrcs.length,
        call Ex.wKern Ex.down 1 (Ex.lOrcs.take j) (Ex.wArgs (raised (Ex.lQuad 3) 4 1000)) Ex.wPlain .fresh = .running) := by
  obtain ⟨t, -, h, -⟩ := C109_worse_false
  refine ⟨_, t, h, ?_⟩
  rcases C109_call_partial Ex.wKern Ex.nrm1_nonneg Ex.descOrder_sorted Ex.down 0 ⟨fun _ => rfl, fun c h => by cases h⟩ 1 Ex.lOrcs
    (Ex.wArgs (Ex.lQuad 3)) Ex.wPlain .fresh (Ex.wArgs_wellFormed _ (Ex.lQuad_typed 3)) (Ex.lQuad 3) rfl 3 1000 4 1000 (Or.inr rfl)
    (Or.inl ⟨rfl, rfl⟩) (by norm_num) le_rfl _ t h with g | ⟨g1, j, hj, g2, -⟩
  · exact Or.inl g
  · exact Or.inr ⟨g1, j, hj, g2⟩

/-- Here the first call stops at the limit after two passes, the second one evaluates one more point. -/
example : (match call Ex.wKern Ex.down 1 Ex.lOrcs (Ex.wArgs (Ex.lQuad 3)) Ex.wPlain .fresh,
      call Ex.wKern Ex.down 1 Ex.lOrcs (Ex.wArgs (raised (Ex.lQuad 3) 4 1000)) Ex.wPlain .fresh with
    | .done _ t, .done _ t' => decide (t'.ev.X = t.ev.X ++ [[5 / 10 ^ 6]] ∧ t'.ev.w.logF = t.ev.w.logF ++ [[5 / 10 ^ 6]])
    | _, _ => false) = true := by decide +kernel

/-- Larger limits for a state of the main loop: a run of two passes that is not stopped is the same. -/
example : Above (K := ℚ) (.fin 3) (.fin 4) ∧ Above (K := ℚ) (.fin 3) .pinf ∧ ¬ Above (K := ℚ) (.fin 4) (.fin 3) := by
  refine ⟨fun j h => ?_, fun j h => ?_, fun h => ?_⟩
  · simp only [Fl.le, decide_eq_true_eq] at h ⊢; linarith
  · simp [Fl.le] at h
  · have := h 3 (by simp [Fl.le])
    simp only [Fl.le, decide_eq_true_eq] at this
    norm_num at this

#print axioms C109_loop
#print axioms C109_call_partial
#print axioms C109_worse_false

end Sqpdfo
