import Verif.Lemmas.Whole

/-! # The set-up with usable arguments -/

set_option linter.unusedSectionVars false

namespace Sqpdfo
open Spec
variable {K F : Type} [Field K] [LinearOrder K] [IsStrictOrderedRing K]

/-- The part of `setup` after the checks. -/
def setupTail (U : User (List K) K) (sqrt : K → K) (nrm : List K → K) (fuel : ℕ) (o : Opts) (oa : OptArg) (g : Globals K)
    (lb ub : List K) (Δ : K) (ys : List (K × Bool)) : Setup K :=
  if ys.any (·.2) then ⟨.crash, g, oa, .empty⟩
  else
    let x := ys.map (·.1)
    match initLoop U x (nrm x) fuel Δ ⟨[], [], [], 0, .nan, 0, .empty⟩ with
    | .crash => ⟨.crash, g, oa, .empty⟩
    | .running => ⟨.running, g, oa, .empty⟩
    | .failed s => ⟨.ret s.flag, g, oa, s.w⟩
    | .stalled s => ⟨.crash, g, oa, s.w⟩
    | .done Δ s =>
      if g.nbrSlacks > 0 then
        match initSlacks sqrt g.nbrSlacks (firstCe s) ub with
        | none => ⟨.crash, g, oa, s.w⟩
        | some sl =>
          ⟨.go ⟨o, Δ, s, lb, ub, g.nbrSlacks, sl⟩, { g with slacks := sl }, oa, s.w⟩
      else ⟨.go ⟨o, Δ, s, lb, ub, 0, []⟩, g, oa, s.w⟩

/-- The set-up of arguments that pass the checks. -/
theorem setup_checked (U : User (List K) K) (sqrt : K → K) (nrm : List K → K) (fuel : ℕ) (a : Args K) (g : Globals K)
    (hw : WellFormed a) (hA : ¬ BadArg a) (hB : ¬ BadBounds (boxes a)) :
    ∃ o g' lb ub Δ ys, validate (userOpts a.opts) = .ok o ∧ boxes a ≠ [] ∧ checkBounds (boxes a) = .ok Δ ys ∧
      (a.mi = 0 → g' = g) ∧ (a.mi ≠ 0 → g'.nbrSlacks = a.mi + twoSided a ∧ g'.nbrSlacks ≤ ub.length) ∧
      (List.zip lb ub).take (boxes a).length = (boxes a).map (fun v => (v.lb, v.ub)) ∧
      setup U sqrt nrm fuel a g = setupTail U sqrt nrm fuel o (a.opts.after o) g' lb ub Δ ys := by
  have h1 : a.f ≠ .missing := fun h => hA (Or.inl h)
  have hf : a.f = .fn := by
    cases h : a.f with
    | missing => exact absurd h h1
    | notFn => exact absurd h hw.f
    | fn => rfl
  have h2 : ¬ (a.c = .missing ∧ 0 < a.me + a.mi) := fun h => hA (Or.inr (Or.inl h))
  cases hx : a.x0 with
  | missing => exact absurd (Or.inr (Or.inr (Or.inl hx))) hA
  | mat r c d =>
    obtain ⟨L, V, e1, e2, g', hca, hLV⟩ := checkArgs_ok hw g hf h2 hx
    have hd := hw.data _ _ _ hx
    have hvec : r * c ≠ 0 ∧ (r = 1 ∨ c = 1) := by
      by_contra hv; exact hA (Or.inr (Or.inr (Or.inr (Or.inl ⟨r, c, d, hx, hv⟩))))
    obtain ⟨hL, hV, hlL, hlV⟩ := hLV hvec.1 hvec.2
    have hr' : (if r = 1 ∧ c > 1 then c else r) = d.length := by
      rw [hd]
      rcases hvec.2 with rfl | rfl
      · by_cases h : c > 1
        · simp [h]
        · have h0 := hvec.1
          have : c = 1 := by
            have : c ≠ 0 := fun h => h0 (by simp [h])
            omega
          simp [this]
      · simp
    have hc' : (if r = 1 ∧ c > 1 then r else c) = 1 := by
      rcases hvec.2 with rfl | rfl
      · by_cases h : c > 1
        · simp [h]
        · have h0 := hvec.1
          have : c = 1 := by
            have : c ≠ 0 := fun h => h0 (by simp [h])
            omega
          simp [this]
      · simp
    have hdne : d.length ≠ 0 := by rw [hd]; exact hvec.1
    have hbox : boxes a = List.zipWith (fun b x => ⟨b.1, b.2, x⟩) (List.zip L V) d := by
      simp [boxes, hx, hL, hV]
    have hbp := boundsPart_eq d L V e1 e2 hlL hlV
    rw [← hbox] at hbp
    have hlen : (boxes a).length = d.length := by rw [hbox]; simp [hlL, hlV]
    have hne : boxes a ≠ [] := by
      intro h
      rw [h] at hlen
      exact hdne hlen.symm
    have hlt : ¬ d.length < 1 := by omega
    have hzip : (List.zip (L ++ e1) (V ++ e2)).take (boxes a).length = (boxes a).map (fun v => (v.lb, v.ub)) := by
      rw [hlen]
      apply List.ext_getElem
      · simp [hlen, hlL, hlV]
      · intro i h1 h2
        simp only [List.length_map, hlen] at h2
        simp only [List.getElem_take, List.getElem_zip, List.getElem_map]
        rw [List.getElem_append_left (by omega), List.getElem_append_left (by omega)]
        simp only [hbox, List.getElem_zipWith, List.getElem_zip]
    have hg : (a.mi = 0 → g' = g) ∧ (a.mi ≠ 0 → g'.nbrSlacks = a.mi + twoSided a ∧ g'.nbrSlacks ≤ (V ++ e2).length) := by
      constructor
      · intro h0
        have hs : (checkArgs a g).2 = g := by
          unfold checkArgs
          simp only [hf, hw.c, if_false, hx, h0, if_true]
          split <;> rfl
        rw [hca] at hs
        exact hs
      · intro h0
        have hc : a.c = .fn := by
          cases h : a.c with
          | missing => exact absurd ⟨h, by omega⟩ h2
          | notFn => exact absurd h hw.c
          | fn => rfl
        classical
        obtain ⟨L', V', r', c', hca', -, -⟩ := C23_slack_count a g hw hf hc h0 hx
          (fun i => decide (TwoSided (a.li.getD (List.replicate (a.mi + a.me) (-10 ^ 9)))
            (a.ui.getD (List.replicate (a.mi + a.me) (10 ^ 9))) i)) (fun i => by simp)
        rw [hca] at hca'
        simp only [Prod.mk.injEq, ArgRes.ok.injEq, BndArg.col.injEq] at hca'
        obtain ⟨⟨-, -, -, -, hub⟩, hg'⟩ := hca'
        have hk : g'.nbrSlacks = a.mi + twoSided a := by
          rw [hg']; unfold twoSided; congr
        refine ⟨hk, ?_⟩
        rw [hub, hg']
        simp
    cases hv : validate a.opts.dict with
    | error e =>
      exfalso
      apply hA
      refine Or.inr (Or.inr (Or.inr (Or.inr ?_)))
      rw [← C01_accepts_iff_legal, ← dict_eq, hv]; simp
    | ok o =>
      cases hcb' : checkBounds (boxes a) with
      | flag2 => exact absurd ((C05_status2_iff_bad _ hne).1 hcb') hB
      | ok Δ ys =>
        refine ⟨o, g', _, _, Δ, ys, by rw [← dict_eq]; exact hv, hne, rfl, hg.1, hg.2, hzip, ?_⟩
        simp only [setup, hca, hv, hr', hc', hbp, hlt, ne_eq, not_true_eq_false, if_false, hcb', setupTail]
        rfl

/-- A column of small numbers. -/
def SmallCol (c : List (Fl K)) : Prop := ∀ v ∈ c, ∃ q, v = Fl.fin q ∧ |q| < 10 ^ 25

theorem samplePass_tame (U : User (List K) K) (hU : Tame U) : ∀ (ys : List (List K)) (i : ℕ) (s : EvSt (List K) K),
    s.fX.length = i → s.ceX.length ≤ i → (∀ c ∈ s.ceX, SmallCol c) →
    ∃ t, samplePass U ys i s = .failed t ∨ samplePass U ys i s = .full t ∧ ∀ c ∈ t.ceX, SmallCol c := by
  intro ys
  induction ys with
  | nil => intro i s _ _ h; exact ⟨s, Or.inr ⟨rfl, h⟩⟩
  | cons y ys ih =>
    intro i s h1 h2 hs
    obtain ⟨u, hu, he⟩ := C06_failures_reported_not_recorded U y i s h1.le h2 (hU.number _ _)
    simp only [samplePass, hu]
    cases he with
    | fail _ g1 _ _ => exact ⟨u, Or.inl (by rw [if_pos (by rw [g1]; decide)])⟩
    | good q r ce ce' nf g1 g2 g5 g6 g7 g3 g4 =>
      by_cases h0 : u.flag ≠ 0
      · exact ⟨u, Or.inl (by rw [if_pos h0])⟩
      · rw [if_neg h0]
        have hr : ¬ (big < |r|) := by
          have hq := hU.low _ _ _ g1
          have hb : (0 : K) < 10 ^ 25 := by positivity
          rw [not_lt, abs_le]
          unfold big
          rcases le_or_gt q (10 ^ 25) with h | h
          · rw [g2.1 h]; exact ⟨hq, h⟩
          · rw [g2.2 h]; exact ⟨by linarith, le_refl _⟩
        have hget : u.fX[i]? = some (.fin r) := by
          rw [g3, List.getElem?_append_right (by omega)]; simp [h1]
        rw [hget]
        simp only [tooBig, hr, decide_false, Bool.false_eq_true, if_false]
        refine ih (i + 1) u (by rw [g3]; simp [h1]) ?_ ?_
        · rcases g4 with ⟨_, g4⟩ | ⟨_, g4⟩
          · rw [g4]; omega
          · rw [g4]; simp; omega
        · rcases g4 with ⟨_, g4⟩ | ⟨hne, g4⟩
          · rw [g4]; exact hs
          · rw [g4]
            intro c hc
            rcases List.mem_append.1 hc with hc | hc
            · exact hs c hc
            · simp only [List.mem_singleton] at hc
              subst hc
              have hce : answerC U s.w y = some (.nums ce) := by
                rcases g5 with ⟨_, h⟩ | h
                · exact absurd h hne
                · exact h
              have hsm : ∀ v ∈ ce, ∃ q, v = Fl.fin q ∧ |q| < 10 ^ 25 := by
                intro v hv
                obtain ⟨cf, hcf, hcv⟩ := Option.map_eq_some_iff.1 hce
                rcases hU.cons cf hcf _ _ _ hcv v hv with rfl | h
                · exact absurd (Or.inr (Or.inr (Or.inr (Or.inr (Or.inr ⟨ce, hce, hv⟩))))) nf
                · exact h
              intro v hv
              obtain ⟨j, hj, rfl⟩ := List.getElem_of_mem hv
              have hl := g6.length_eq
              have hcl := g6.get (i := j) (by omega) hj
              simp only [List.get_eq_getElem] at hcl
              obtain ⟨q', hq', hq''⟩ := hsm ce[j] (List.getElem_mem _)
              have := (hcl.2.2 q' hq').2.2
              rw [abs_lt] at hq''
              exact ⟨q', this hq''.1.le hq''.2.le, abs_lt.2 hq''⟩

theorem finVals_small (ce : List (List (Fl K))) (h : ∀ c ∈ ce, SmallCol c) : ∀ q ∈ finVals ce, |q| < 10 ^ 25 := by
  intro q hq
  unfold finVals at hq
  rw [List.mem_filterMap] at hq
  obtain ⟨v, hv, hvq⟩ := hq
  obtain ⟨c, hc, hvc⟩ := List.mem_flatten.1 hv
  obtain ⟨q', rfl, hq'⟩ := h c hc v hvc
  simp only [Option.some.injEq] at hvq
  rw [← hvq]; exact hq'

/-- The sampling of tame functions ends in its first round, with a reported failure or completely. -/
theorem initLoop_tame (U : User (List K) K) (hU : Tame U) (x0 : List K) (nx : K) (N : ℕ) (Δ : K) (s : EvSt (List K) K) :
    ∃ t, initLoop U x0 nx (N + 1) Δ s = .failed t ∨ initLoop U x0 nx (N + 1) Δ s = .done Δ t := by
  obtain ⟨t, ht⟩ := samplePass_tame U hU (simplex x0 Δ) 0 ({ s with X := [], fX := [], ceX := [] } : EvSt (List K) K) rfl
    (by simp) (by simp)
  simp only [initLoop]
  rcases ht with ht | ⟨ht, hc⟩
  · exact ⟨t, Or.inl (by rw [ht])⟩
  · refine ⟨t, Or.inr ?_⟩
    rw [ht]
    have hs := finVals_small t.ceX hc
    have h1 : replaceHuge t.ceX = some t.ceX := by
      unfold replaceHuge
      rw [if_neg]
      rw [List.any_eq_true]
      rintro ⟨q, hq, hb⟩
      have := (abs_lt.1 (hs q hq)).2
      replace hb := of_decide_eq_true hb
      unfold big at hb
      linarith
    have h2 : replaceHugeNeg t.ceX = some t.ceX := by
      unfold replaceHugeNeg
      rw [if_neg]
      rw [List.any_eq_true]
      rintro ⟨q, hq, hb⟩
      have := (abs_lt.1 (hs q hq)).1
      replace hb := of_decide_eq_true hb
      unfold big at hb
      linarith
    simp only [h1, h2]

theorem initSlacks_some (sqrt : K → K) (ns : ℕ) (ce ub : List K) (h1 : ns ≤ ce.length) (h2 : ns ≤ ub.length) :
    ∃ sl, initSlacks sqrt ns ce ub = some sl := by
  unfold initSlacks
  refine mapM_fin _ _ fun i hi => ?_
  rw [List.mem_range] at hi
  simp only [h1, h2, if_true]
  rw [List.getElem?_eq_getElem (by omega : ce.length - ns + i < ce.length),
    List.getElem?_eq_getElem (by omega : ub.length - ns + i < ub.length)]
  simp only
  split <;> exact ⟨_, rfl⟩

end Sqpdfo
