import Verif.Lemmas.Entry
import Verif.Props.C04_C05_Bounds

/-! # C03, C20, C21, C23: arguments, process state, options object -/

set_option linter.unusedSectionVars false

namespace Sqpdfo
open Spec
variable {K : Type} [Field K] [LinearOrder K] [IsStrictOrderedRing K]

/-- C03: for arguments of the right types and lengths, missing or illegal arguments give
status 1, otherwise inconsistent bounds give status 2, in both cases without any call of a
user function; and these are the only ways to get status 1 or 2 from the set-up. -/
theorem C03_bad_arguments_reported (U : User (List K) K) (sqrt : K → K) (nrm : List K → K)
    (fuel : ℕ) (a : Args K) (g : Globals K) (hw : WellFormed a) :
    (BadArg a → (setup U sqrt nrm fuel a g).res = .ret 1 ∧
      (setup U sqrt nrm fuel a g).w = ⟨[], []⟩) ∧
    (¬ BadArg a → BadBounds (boxes a) → (setup U sqrt nrm fuel a g).res = .ret 2 ∧
      (setup U sqrt nrm fuel a g).w = ⟨[], []⟩) ∧
    (¬ BadArg a → ¬ BadBounds (boxes a) →
      ∀ fl, (setup U sqrt nrm fuel a g).res = .ret fl → fl = 3) := by
  by_cases h1 : a.f = .missing
  · have hb : BadArg a := Or.inl h1
    refine ⟨fun _ => ?_, fun h => absurd hb h, fun h => absurd hb h⟩
    simp [setup, checkArgs, h1, World.empty]
  have hf : a.f = .fn := by
    cases h : a.f with
    | missing => exact absurd h h1
    | notFn => exact absurd h hw.f
    | fn => rfl
  by_cases h2 : a.c = .missing ∧ 0 < a.me + a.mi
  · have hb : BadArg a := Or.inr (Or.inl h2)
    refine ⟨fun _ => ?_, fun h => absurd hb h, fun h => absurd hb h⟩
    have h2' : a.c = .missing ∧ a.me + a.mi > 0 := h2
    simp [setup, checkArgs, hf, h2', World.empty]
  cases hx : a.x0 with
  | missing =>
    have hb : BadArg a := Or.inr (Or.inr (Or.inl hx))
    refine ⟨fun _ => ?_, fun h => absurd hb h, fun h => absurd hb h⟩
    have : checkArgs a g = (.ret1, g) := by
      have h2' : ¬ (a.c = .missing ∧ a.me + a.mi > 0) := h2
      simp only [checkArgs, hf, hx, h2', hw.c, if_false]
    simp [setup, this, World.empty]
  | mat r c d =>
    obtain ⟨L, V, e1, e2, g', hca, hLV⟩ := checkArgs_ok hw g hf h2 hx
    have hd := hw.data _ _ _ hx
    cases hv : validate a.opts.dict with
    | error e =>
      have hnl : ¬ Legal (userOpts a.opts) := by
        rw [← C01_accepts_iff_legal, ← dict_eq, hv]; simp
      have hb : BadArg a := Or.inr (Or.inr (Or.inr (Or.inr hnl)))
      refine ⟨fun _ => ?_, fun h => absurd hb h, fun h => absurd hb h⟩
      cases e with
      | rejected o => simp [setup, hca, hv, World.empty]
      | crash o =>
        exact absurd hv ((C01_rejects_iff_illegal a.opts.dict (dict_eq a.opts ▸ hw.opts)).1 o)
    | ok o =>
      have hleg : Legal (userOpts a.opts) := by
        rw [← C01_accepts_iff_legal, ← dict_eq, hv]; exact ⟨o, rfl⟩
      by_cases hvec : r * c ≠ 0 ∧ (r = 1 ∨ c = 1)
      · have hnb : ¬ BadArg a := by
          rintro (h | h | h | ⟨r', c', d', h, h'⟩ | h)
          · exact h1 h
          · exact h2 h
          · rw [hx] at h; cases h
          · rw [hx] at h; cases h; exact h' hvec
          · exact h hleg
        obtain ⟨hL, hV, hlL, hlV⟩ := hLV hvec.1 hvec.2
        have hrpos : 0 < r := Nat.pos_of_ne_zero fun h => hvec.1 (by simp [h])
        have hcpos : 0 < c := Nat.pos_of_ne_zero fun h => hvec.1 (by simp [h])
        have hr' : (if r = 1 ∧ c > 1 then c else r) = d.length := by
          rw [hd]
          rcases hvec.2 with rfl | rfl
          · by_cases h : c > 1
            · simp [h]
            · have : c = 1 := by omega
              simp [this]
          · simp
        have hc' : (if r = 1 ∧ c > 1 then r else c) = 1 := by
          rcases hvec.2 with rfl | rfl
          · by_cases h : c > 1
            · simp [h]
            · have : c = 1 := by omega
              simp [this]
          · simp
        have hdne : d.length ≠ 0 := by rw [hd]; exact hvec.1
        have hbox : boxes a = List.zipWith (fun b x => ⟨b.1, b.2, x⟩) (List.zip L V) d := by
          simp [boxes, hx, hL, hV]
        have hbp := boundsPart_eq d L V e1 e2 hlL hlV
        rw [← hbox] at hbp
        have hne : boxes a ≠ [] := by
          intro h
          have := congrArg List.length h
          rw [hbox] at this
          simp [hlL, hlV] at this
          exact hdne (by simp [this])
        have hbad := C05_status2_iff_bad (boxes a) hne
        refine ⟨fun h => absurd h hnb, fun _ hbb => ?_, fun _ hbb fl hfl => ?_⟩
        · have hcb := hbad.2 hbb
          rw [hcb] at hbp
          have : ¬ d.length < 1 := by omega
          simp [setup, hca, hv, hr', hc', hbp, this, World.empty]
        · have hcb : checkBounds (boxes a) ≠ .flag2 := fun h => hbb (hbad.1 h)
          have hlt : ¬ d.length < 1 := by omega
          simp only [setup, hca, hv, hr', hc', hbp, hlt, ne_eq, not_true_eq_false, if_false] at hfl
          cases hcb' : checkBounds (boxes a) with
          | flag2 => exact absurd hcb' hcb
          | ok Δ ys =>
            rw [hcb'] at hfl
            simp only at hfl
            split at hfl
            · cases hfl
            · split at hfl
              · cases hfl
              · cases hfl
              · rename_i s hs
                cases hfl
                exact initLoop_failed U _ _ _ _ _ _ hs rfl
              · cases hfl
              · split at hfl
                · split at hfl <;> cases hfl
                · cases hfl
      · have hb : BadArg a := Or.inr (Or.inr (Or.inr (Or.inl ⟨r, c, d, hx, hvec⟩)))
        refine ⟨fun _ => ?_, fun h => absurd hb h, fun h => absurd hb h⟩
        simp only [setup, hca, hv]
        by_cases hc1 : (if r = 1 ∧ c > 1 then r else c) = 1
        · have hr1 : (if r = 1 ∧ c > 1 then c else r) < 1 := by
            by_contra hge
            apply hvec
            by_cases h : r = 1 ∧ c > 1
            · exact ⟨by rw [h.1]; omega, Or.inl h.1⟩
            · simp only [h, if_false] at hc1 hge
              exact ⟨by rw [hc1]; omega, Or.inr hc1⟩
          simp [hc1, hr1, World.empty]
        · simp [hc1, World.empty]

/-- C23: with inequalities and long enough bound lists, the number of slack variables is `mi`
plus the number of two-sided constraints, the slacks start at zero, and both bound vectors
are extended by that many entries `0` and `10^20`. -/
theorem C23_slack_count (a : Args K) (g : Globals K) (hw : WellFormed a) (hf : a.f = .fn)
    (hc : a.c = .fn) (hmi : a.mi ≠ 0) {r c : ℕ} {d : List K} (hx : a.x0 = .mat r c d)
    (p : ℕ → Bool)
    (hp : ∀ i, p i = true ↔ TwoSided (a.li.getD (List.replicate (a.mi + a.me) (-10 ^ 9)))
      (a.ui.getD (List.replicate (a.mi + a.me) (10 ^ 9))) i) :
    ∃ L V r' c', checkArgs a g =
      (.ok r' c' d
        (.col (L ++ List.replicate (a.mi + (List.range (a.mi + a.me)).countP p) 0))
        (.col (V ++ List.replicate (a.mi + (List.range (a.mi + a.me)).countP p) (10 ^ 20))),
       ⟨a.mi + (List.range (a.mi + a.me)).countP p,
        List.replicate (a.mi + (List.range (a.mi + a.me)).countP p) 0⟩) ∧
      normBnd r c (-10 ^ 20) a.lb = .col L ∧ normBnd r c (10 ^ 20) a.ub = .col V := by
  obtain ⟨L, hL, -⟩ := normBnd_ok (v := (-10 ^ 20 : K)) (hw.lb _ _ _ hx)
  obtain ⟨V, hV, -⟩ := normBnd_ok (v := (10 ^ 20 : K)) (hw.ub _ _ _ hx)
  have hli : a.mi + a.me ≤ (a.li.getD (List.replicate (a.mi + a.me) (-10 ^ 9))).length := by
    cases h : a.li with
    | none => simp
    | some l => simpa using hw.li l h
  have hui : a.mi + a.me ≤ (a.ui.getD (List.replicate (a.mi + a.me) (10 ^ 9))).length := by
    cases h : a.ui with
    | none => simp
    | some l => simpa using hw.ui l h
  have hk := slackCount_some _ _ p (fun i l u hl hu => by
    rw [hp i, TwoSided]
    constructor
    · rintro ⟨l', u', h1, h2, h3⟩
      rw [hl] at h1; rw [hu] at h2; cases h1; cases h2; exact h3
    · intro h; exact ⟨l, u, hl, hu, h⟩) (a.mi + a.me) a.mi hli hui
  refine ⟨L, V, if r = 1 ∧ c > 1 then c else r, if r = 1 ∧ c > 1 then r else c, ?_, hL, hV⟩
  unfold checkArgs
  have hsplit : (if r = 1 ∧ c > 1 then (c, r) else (r, c)) =
      (if r = 1 ∧ c > 1 then c else r, if r = 1 ∧ c > 1 then r else c) := by
    split_ifs <;> rfl
  simp only [hf, hc, reduceCtorEq, false_and, hx, hL, hV, hmi, if_false, ciBounds, hsplit]
  have hk' : slackCount a.mi a.me (a.li.getD (List.replicate (a.mi + a.me) (-10 ^ 9)))
      (a.ui.getD (List.replicate (a.mi + a.me) (10 ^ 9))) =
      some (a.mi + (List.range (a.mi + a.me)).countP p) := hk
  rw [hk']
  simp [extendBnd]

/-- C21: an options *instance* (or `None`) is never changed. -/
theorem C21_instance_unchanged (U : User (List K) K) (sqrt : K → K) (nrm : List K → K)
    (fuel : ℕ) (a : Args K) (g : Globals K) (h : ∀ o, a.opts ≠ .cls o) :
    (setup U sqrt nrm fuel a g).opts = a.opts := by
  have hafter : ∀ o, a.opts.after o = a.opts := by
    intro o
    cases ho : a.opts with
    | missing => rfl
    | inst _ => rfl
    | cls o' => exact absurd ho (h o')
  unfold setup
  split
  · rfl
  · rfl
  · split
    · simp [hafter]
    · simp [hafter]
    · simp only [hafter]
      repeat' split
      all_goals rfl

/-- Number of slacks after the set-up when there are no inequalities. -/
theorem setup_slacks_zero (U : User (List K) K) (sqrt : K → K) (nrm : List K → K)
    (fuel : ℕ) (a : Args K) (g : Globals K) (hmi : a.mi = 0) (hg : g.nbrSlacks = 0) :
    (setup U sqrt nrm fuel a g).g = g := by
  have h1 : (checkArgs a g).2 = g := by
    unfold checkArgs
    repeat' (first | rfl | split)
  unfold setup
  split
  · rename_i g1 h; rw [h] at h1; exact h1
  · rename_i g1 h; rw [h] at h1; exact h1
  · rename_i g1 h
    rw [h] at h1
    simp only at h1
    subst h1
    have : ¬ (g1.nbrSlacks > 0) := by omega
    split
    · rfl
    · rfl
    · simp only [this, if_false]
      repeat' split
      all_goals rfl

/-- The process variables after the argument checks of a call with inequalities, and the
result of these checks, do not depend on the previous process variables (unless the checks
end before the variables are written, then they are kept). -/
theorem checkArgs_mi (a : Args K) (g g' : Globals K) (hmi : a.mi ≠ 0) :
    (checkArgs a g).1 = (checkArgs a g').1 ∧
    (∀ r c d lb ub, (checkArgs a g).1 = .ok r c d lb ub →
      (checkArgs a g).2 = (checkArgs a g').2) := by
  unfold checkArgs
  cases a.f with
  | missing => simp
  | notFn => simp
  | fn =>
    simp only
    split_ifs with h1 h2
    · simp
    · simp
    · cases a.x0 with
      | missing => simp
      | mat r c d =>
        simp only
        cases slackCount a.mi a.me (ciBounds a).1 (ciBounds a).2 with
        | none => simp
        | some k =>
          simp only
          split_ifs <;> simp

/-- C20, full statement: *the result of a call does not depend on previous calls*.  It is
false (`C20_result_depends_on_history`).  Proved here (`_partial`): it does not depend on the
process variables left by previous calls if the call has inequalities, or if the process
has no slack variables. -/
theorem C20_independent_partial {R : Type} (main : MainIn K → R × List K)
    (U : User (List K) K) (sqrt : K → K) (nrm : List K → K) (fuel : ℕ) (a : Args K)
    (g g' : Globals K) (h : a.mi ≠ 0 ∨ (g.nbrSlacks = 0 ∧ g'.nbrSlacks = 0)) :
    (optimize main U sqrt nrm fuel a g).1 = (optimize main U sqrt nrm fuel a g').1 := by
  have key : (setup U sqrt nrm fuel a g).res = (setup U sqrt nrm fuel a g').res := by
    by_cases hmi : a.mi = 0
    · have hz : g.nbrSlacks = 0 ∧ g'.nbrSlacks = 0 := by
        rcases h with h | h
        · exact absurd hmi h
        · exact h
      have e : ∀ g : Globals K, (checkArgs a g).2 = g := by
        intro g
        unfold checkArgs
        repeat' (first | rfl | split)
      have e1 : (checkArgs a g).1 = (checkArgs a g').1 := by
        unfold checkArgs
        simp only [hmi, if_true]
        cases a.f with
        | missing => rfl
        | notFn => rfl
        | fn =>
          simp only
          split_ifs
          · rfl
          · rfl
          · cases a.x0 <;> rfl
      have p1 : checkArgs a g = ((checkArgs a g').1, g) := Prod.ext e1 (e g)
      have p2 : checkArgs a g' = ((checkArgs a g').1, g') := Prod.ext rfl (e g')
      unfold setup
      rw [p1, p2]
      cases (checkArgs a g').1 with
      | ret1 => rfl
      | raised => rfl
      | ok r c x0 lb ub =>
        simp only [hz.1, hz.2, gt_iff_lt, lt_irrefl, if_false]
        split
        · rfl
        · rfl
        · split_ifs
          · rfl
          · rfl
          · split
            · split
              · rfl
              · rfl
              · split_ifs
                · rfl
                · split <;> rfl
            · rfl
    · obtain ⟨e1, e2⟩ := checkArgs_mi a g g' hmi
      unfold setup
      cases hr : (checkArgs a g').1 with
      | ret1 =>
        have p1 : checkArgs a g = (.ret1, (checkArgs a g).2) := Prod.ext (e1.trans hr) rfl
        have p2 : checkArgs a g' = (.ret1, (checkArgs a g').2) := Prod.ext hr rfl
        rw [p1, p2]
      | raised =>
        have p1 : checkArgs a g = (.raised, (checkArgs a g).2) := Prod.ext (e1.trans hr) rfl
        have p2 : checkArgs a g' = (.raised, (checkArgs a g').2) := Prod.ext hr rfl
        rw [p1, p2]
      | ok r c d lb ub =>
        have := e2 r c d lb ub (e1.trans hr)
        have p : checkArgs a g = checkArgs a g' := Prod.ext e1 this
        rw [p]
  unfold optimize
  simp only [key]
  cases (setup U sqrt nrm fuel a g').res <;> rfl

/-- One call in a session: the user's functions and the arguments. -/
structure Call (K : Type) where
  U : User (List K) K
  a : Args K

/-- The process variables after a sequence of calls. -/
def session {R : Type} (main : MainIn K → R × List K) (sqrt : K → K) (nrm : List K → K)
    (fuel : ℕ) : List (Call K) → Globals K → Globals K
  | [], g => g
  | c :: cs, g => session main sqrt nrm fuel cs (optimize main c.U sqrt nrm fuel c.a g).2

/-- C20 for sessions (`_partial`, same restriction): after any sequence of calls without
inequalities the result of a call is the one in a fresh process; for a call with
inequalities this holds after any sequence of calls. -/
theorem C20_session_partial {R : Type} (main : MainIn K → R × List K) (sqrt : K → K)
    (nrm : List K → K) (fuel : ℕ) (cs : List (Call K)) (c : Call K)
    (h : c.a.mi ≠ 0 ∨ ∀ c' ∈ cs, c'.a.mi = 0) :
    (optimize main c.U sqrt nrm fuel c.a (session main sqrt nrm fuel cs .fresh)).1 =
      (optimize main c.U sqrt nrm fuel c.a .fresh).1 := by
  apply C20_independent_partial
  rcases h with h | h
  · exact Or.inl h
  · refine Or.inr ⟨?_, rfl⟩
    have gen : ∀ (cs : List (Call K)) (g : Globals K), (∀ c' ∈ cs, c'.a.mi = 0) →
        g.nbrSlacks = 0 → (session main sqrt nrm fuel cs g).nbrSlacks = 0 := by
      intro cs
      induction cs with
      | nil => intro g _ hg; exact hg
      | cons c cs ih =>
        intro g hall hg
        apply ih _ (fun c' hc' => hall c' (by simp [hc']))
        have := setup_slacks_zero c.U sqrt nrm fuel c.a g (hall c (by simp)) hg
        unfold optimize
        simp only [this, hg]
        cases (setup c.U sqrt nrm fuel c.a g).res <;> simp [hg]
    exact gen cs .fresh h rfl

/-! ### Concrete sessions -/

/-- Objective `x ↦ 1`, constraint `c(x) = 4`. -/
def exU : User (List ℚ) ℚ := ⟨fun _ _ => .num (.fin 1), some fun _ _ => .nums [.fin 4]⟩
/-- Objective `x ↦ 1`, no constraints. -/
def exV : User (List ℚ) ℚ := ⟨fun _ _ => .num (.fin 1), none⟩
/-- A problem with one inequality. -/
def exA : Args ℚ :=
  ⟨.missing, .fn, .mat 1 2 [1, 2], .missing, .missing, 0, 1, .fn, none, none⟩
/-- A problem without constraints. -/
def exB : Args ℚ :=
  ⟨.missing, .fn, .mat 1 2 [1, 2], .missing, .missing, 0, 0, .missing, none, none⟩

/-- Negation of C20: the same unconstrained problem is handed to the main loop in a fresh
process, but raises an exception after a problem with an inequality has been solved. -/
theorem C20_result_depends_on_history :
    let opt := optimize (fun _ : MainIn ℚ => ((), ([] : List ℚ))) exV (fun x => x) (fun _ => 1) 1 exB
    (opt .fresh).1 = .result () ∧
    (opt (session (fun _ : MainIn ℚ => ((), ([] : List ℚ))) (fun x => x) (fun _ => 1) 1
      [⟨exU, exA⟩] .fresh)).1 = .crash := by
  decide +kernel

/-- C21, the other half is false: after a successful validation of a *class* its attributes
are overwritten, and a second call with the same class raises an exception, whatever the
other arguments are. -/
theorem C21_class_second_call_crashes (U : User (List K) K) (sqrt : K → K)
    (nrm : List K → K) (fuel : ℕ) (a : Args K) (g g' : Globals K) (o : Opts)
    (ho : a.opts = .cls o) (hl : Legal o) {r c d lb ub g1}
    (hargs : checkArgs a g = (.ok r c d lb ub, g1)) {r' c' d' lb' ub' g1'}
    (hargs' : ∀ oa, checkArgs { a with opts := oa } g' = (.ok r' c' d' lb' ub', g1')) :
    (setup U sqrt nrm fuel a g).opts ≠ a.opts ∧
    (setup U sqrt nrm fuel { a with opts := (setup U sqrt nrm fuel a g).opts } g').res =
      .crash := by
  obtain ⟨o', hv⟩ := (C01_accepts_iff_legal o).2 hl
  have hL := (C02_accepted_complete_legal_faithful hv).2
  have hopts : (setup U sqrt nrm fuel a g).opts = .cls o' := by
    simp only [setup, hargs, ho, OptArg.dict, hv, OptArg.after]
    repeat' split
    all_goals rfl
  obtain ⟨k, hk, -⟩ := hL.algo
  have hne : o' ≠ o := by
    rintro rfl
    obtain ⟨s, _, hs, _⟩ := hl.algo _ hk
    cases hs
  constructor
  · rw [hopts, ho]; intro h; cases h; exact hne rfl
  · rw [hopts]
    have hcrash : ∃ o'', validate o' = .error (.crash o'') := by
      refine ⟨{ o' with fout := some (fixFout o'.fout), verbose := some (fixVerbose o'.verbose) }, ?_⟩
      simp only [validate, hk, checkName, liftField]
      rfl
    obtain ⟨o'', h2⟩ := hcrash
    simp [setup, hargs', OptArg.dict, h2]

/-! ### Concrete cases -/

/-- A row start point with explicit bounds, the options of C01's example. -/
def exC : Args ℚ :=
  ⟨.inst exampleOpts, .fn, .mat 1 2 [1, 2], .col [0, 0], .col [5, 1/2], 1, 2, .fn,
    some [0, 0, -1], some [0, 10 ^ 9, 1]⟩

theorem exC_wellFormed : WellFormed exC := by
  refine ⟨by decide, by decide, ?_, ?_, ?_, ?_, ?_, ?_⟩
  · exact ⟨by simp [exC, userOpts, exampleOpts, Opts.empty], by simp [exC, userOpts, exampleOpts, Opts.empty],
      by simp [exC, userOpts, exampleOpts, Opts.empty], by simp [exC, userOpts, exampleOpts, Opts.empty]⟩
  · intro l h; simp only [exC, Option.some.injEq] at h; subst h; decide
  · intro l h; simp only [exC, Option.some.injEq] at h; subst h; decide
  · intro r c d h; simp only [exC, X0Arg.mat.injEq] at h; obtain ⟨rfl, rfl, rfl⟩ := h; rfl
  · intro r c d h; simp only [exC, X0Arg.mat.injEq] at h; obtain ⟨rfl, rfl, rfl⟩ := h
    exact Or.inr (Or.inr ⟨_, rfl, rfl⟩)
  · intro r c d h; simp only [exC, X0Arg.mat.injEq] at h; obtain ⟨rfl, rfl, rfl⟩ := h
    exact Or.inr (Or.inr ⟨_, rfl, rfl⟩)

/-- Two inequalities, one of them two-sided: three slacks. -/
example : (checkArgs exC .fresh).2 = ⟨3, [0, 0, 0]⟩ := by decide +kernel

/-- Crossed bounds: status 2; the same with an illegal option: status 1. -/
example : BadBounds (boxes { exC with ub := .col [5, -1] }) :=
  Or.inl ⟨⟨0, -1, 2⟩, by simp [boxes, exC, meant], by norm_num⟩

example : BadArg { exC with opts := .inst { exampleOpts with tolBnds := some (.fin (-1)) } } :=
  Or.inr (Or.inr (Or.inr (Or.inr fun h => by
    have := h.tolBnds (.fin (-1)) rfl
    rcases this with h | h | ⟨q, h1, h2⟩
    · cases h
    · cases h
    · cases h2; norm_num at h1)))

/-- The class case of C21 is satisfiable. -/
example : (setup exV (fun x => x) (fun _ => 1) 1 { exB with opts := .cls Opts.empty } .fresh).opts
    ≠ .cls Opts.empty := by decide +kernel

#print axioms C03_bad_arguments_reported
#print axioms C23_slack_count
#print axioms C21_instance_unchanged
#print axioms C21_class_second_call_crashes
#print axioms C20_independent_partial
#print axioms C20_session_partial
#print axioms C20_result_depends_on_history

end Sqpdfo
