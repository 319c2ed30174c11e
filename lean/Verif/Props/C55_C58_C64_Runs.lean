import Verif.Lemmas.MainCe
import Verif.Props.C12_C16_Results
import Verif.Props.C17_C19_Step

/-! # C55-C58, C64: verbosity, constraint data, internal errors -/

set_option linter.unusedSectionVars false

namespace Sqpdfo
open Spec
variable {K F : Type} [Field K] [LinearOrder K] [IsStrictOrderedRing K]

/-! ## C64: constraint data -/

/-- The constraint data of a state: for every column of the interpolation set the stored values
are what the constraint function answered, in a call really made, at exactly this point; `info.ce`
belongs to the current point. -/
def Spec.CeConsistent (e : Env K F) (s : MSt K F) : Prop :=
  (∀ j < s.cur, ∃ (i : ℕ) (y c : List K) (w : World (List K)),
    s.set.ind[j]? = some i ∧ s.set.Y[j]? = some y ∧ s.ev.X[i]? = some y ∧
      s.set.ceY[j]? = some c ∧ c.length = e.me ∧ w.logF ++ [y] <+: s.ev.w.logF ∧
      answerC e.U w y = some (.nums (c.map Fl.fin))) ∧
  s.set.Y[0]? = some s.x ∧ s.set.ceY[0]? = some s.infoCe

theorem CeCore.consistent {e : Env K F} {s : MSt K F} (h : CeCore e [] s) (hI : Core e [] s) :
    CeConsistent e s := by
  refine ⟨fun j hj => ?_, hI.Y0, h.info⟩
  obtain ⟨i, y, f, b1, b2, -, b4, -⟩ := hI.link j hj (by simp)
  obtain ⟨c, c1, c2⟩ := h.pair.2 j (by simp) i b1
  obtain ⟨y', w, d1, d2, d3⟩ := h.hist i _ c1
  rw [b4, Option.some.injEq] at d1
  subst d1
  obtain ⟨c', e1, e2, -⟩ := h.cols _ (List.mem_of_getElem? c1)
  refine ⟨i, y, c, w, b1, b2, b4, c2, ?_, d2, d3⟩
  have := congrArg List.length e1
  simp only [List.length_map] at this
  rw [this, e2]

/-- C64: between the passes and on return the constraint data are consistent. -/
theorem C64_constraint_data {e : Env K F} {x0 : List K} {fuel : ℕ} {Δ : K} {sl : List K}
    {s0 : MSt K F} (H : Starts e x0 fuel Δ sl s0) (hT : e.Tame) (os : List (Orc K F)) :
    (mainLoop e os s0).Sat (CeConsistent e) (CeConsistent e) (fun _ => True) := by
  have hp : ∀ o s, (Inv e [] s ∧ Ce e [] s) → (pass e o s).Sat (fun s => Inv e [] s ∧ Ce e [] s)
      (CeConsistent e) (fun _ => True) := by
    rintro o s ⟨hI, hc⟩
    exact ((pass_sat e H.ok o s hI).and (pass_ce H.ok H.constr hT o s hc hI)).mono
      (fun _ h => ⟨h.1.1, h.2⟩) (fun _ h => h.2.consistent h.1.1.core) (fun _ _ => trivial)
  have := mainLoop_induct e _ _ _ hp os s0
    ⟨H.started.1, startState_ce H.constr hT x0 fuel Δ sl s0 H.state⟩
  cases hm : mainLoop e os s0 with
  | done t => rw [hm] at this; exact this
  | running t => rw [hm] at this; exact this.2.toCeCore.consistent this.1.toCore
  | crash c => trivial

open Ex

/-- One constraint `c`, objective `f`, one variable. -/
def Ex.envC (f : List ℚ → ℚ) (c : List ℚ → ℚ) (v : Bool) : Env ℚ Unit :=
  { env ⟨fun _ x => .num (.fin (f x)), some fun _ x => .nums [.fin (c x)]⟩ (.fin 10) (.fin 100) with
    me := 1
    verbose4 := v }

theorem Ex.envC_constr (f c : List ℚ → ℚ) (v : Bool) : (envC f c v).Constr := by
  refine ⟨fun h => (by cases h), ?_⟩
  intro g hg w y vs hv
  simp only [envC, env, Option.some.injEq] at hg
  subst hg
  simp only [COut.nums.injEq] at hv
  subst hv
  rfl

theorem Ex.envC_starts {f c : List ℚ → ℚ} {v : Bool} {x0 : List ℚ} {s : MSt ℚ Unit}
    (hx : x0.length = 1) (h : start (envC f c v) x0 = some s) :
    Starts (envC f c v) x0 1 1 [] s :=
  ⟨⟨nrm1_nonneg, descOrder_sorted⟩, envC_constr f c v, hx, one_pos, h⟩

theorem Ex.envC_tame {f c : List ℚ → ℚ} {v : Bool} (hc : ∀ x, |c x| < 10 ^ 25) :
    (envC f c v).Tame := by
  refine ⟨one_pos, ?_⟩
  intro g hg w y vs hv q hq
  simp only [envC, env, Option.some.injEq] at hg
  subst hg
  simp only [COut.nums.injEq] at hv
  subst hv
  rw [List.mem_singleton] at hq
  exact Or.inr ⟨_, hq, hc y⟩

/-- A step that reduces the constraint violation by `p`. -/
def Ex.stepC (x : List ℚ) (p : ℚ) : Orc ℚ Unit := { orc x 0 with rpred := p }

/-- The current point and its constraint value after a run. -/
def Ex.point (s : MSt ℚ Unit) : List ℚ × List ℚ × List (List ℚ) := (s.x, s.infoCe, s.set.ceY)

/-- A constrained run with a successful step; the data after it. -/
example : look (envC (fun _ => 0) (fun x => if x = [1] then 1 else if x = [2] then 2 else 1 / 2)
      false) [1] [stepC [9 / 10] (1 / 10)] false (fun _ => false)
    (fun s => decide (point s = ([9 / 10], [1 / 2], [[1 / 2], [1]]))) (fun _ => false) = true := by
  decide +kernel

example : ∃ s0, Starts (envC (fun _ => 0)
      (fun x => if x = [1] then 1 else if x = [2] then 2 else 1 / 2) false) [1] 1 1 [] s0 ∧
    (envC (fun _ => 0) (fun x => if x = [1] then 1 else if x = [2] then 2 else 1 / 2)
      false).Tame := by
  have h : (start (envC (fun _ => 0)
      (fun x => if x = [1] then 1 else if x = [2] then 2 else 1 / 2) false) [1]).isSome = true := by
    decide +kernel
  obtain ⟨s, hs⟩ := Option.isSome_iff_exists.1 h
  refine ⟨s, envC_starts rfl hs, envC_tame ?_⟩
  intro x
  split_ifs <;> norm_num [abs_of_pos]

/-! ## C57: internal errors in unconstrained runs -/

/-- Crashes other than wrong shapes of the constraint data. -/
def NotShape (c : Crash) : Prop := c ≠ .ceShape

theorem augmX_noCe {e : Env K F} (hC : e.Constr) (hme : e.me = 0) {y : List K} {m : ℕ}
    {s s' : EvSt (List K) K} (h : augmX e.U (.fin big) y m s = some s') : s'.ceX = s.ceX := by
  have ho : (sqpdfoFunc e.U y s.w).1.c = [] := by
    unfold sqpdfoFunc
    cases hc : e.U.c with
    | none => simp only
    | some cf =>
      simp only
      split
      · rfl
      · rename_i vs hvs
        have := hC.some cf hc _ _ _ hvs
        rw [hme] at this
        exact List.length_eq_zero_iff.1 this
  simp only [augmX, ho] at h
  split at h
  · cases h
  · cases h
  · split at h
    · cases h; rfl
    split at h
    · cases h; rfl
    split at h
    · cases h; rfl
    split at h
    · cases h; rfl
    · cases h; simp

section C57
variable {e : Env K F}

/-- No constraint values are recorded. -/
def NoCe (s : MSt K F) : Prop := s.ev.ceX = []

theorem resNorm_some (hns : e.ns = 0) (ce sl : List K) : e.resNorm ce sl = some (e.nrm ce) := by
  simp [Env.resNorm, resid, hns]

theorem evalReplaced_noCe (hC : e.Constr) (hme : e.me = 0) : ∀ (js : List ℕ) (s : MSt K F),
    NoCe s → (evalReplaced e js s).Sat NoCe (fun _ => True) NotShape := by
  intro js
  induction js with
  | nil => intro s h; exact h
  | cons j js ih =>
    intro s h
    rw [evalReplaced]
    split
    swap
    · intro h; cases h
    dsimp only
    split
    · intro h; cases h
    rename_i ev ha
    split
    · intro h; cases h
    split
    · intro h; cases h
    rw [if_neg (by omega)]
    apply ih
    exact (augmX_noCe hC hme ha).trans h

theorem callSmallf_noCe (hns : e.ns = 0) (s : MSt K F) (h : NoCe s) :
    (callSmallf e s).Sat NoCe (fun _ => True) NotShape := by
  unfold callSmallf
  have hm : ∀ l : List (List K), l.mapM (fun c => e.resNorm c s.sl) = some (l.map e.nrm) := by
    intro l
    induction l with
    | nil => rfl
    | cons a l ih => rw [List.mapM_cons, ih, resNorm_some hns]; rfl
  rw [hm]
  split
  · rename_i h0; split at h0 <;> cases h0
  simp only
  split
  · intro h; cases h
  split
  · intro h; cases h
  · exact h

theorem accepted_noCe (hme : e.me = 0) (o : Orc K F) (f rho norms : K) (pos : ℕ) (s : MSt K F)
    (h : NoCe s) : (accepted e o f rho norms pos s).Sat NoCe (fun _ => True) NotShape := by
  unfold accepted
  simp only
  rw [if_neg (by rintro ⟨h1, -⟩; omega)]
  split
  · intro h; cases h
  split
  · intro h; cases h
  · exact h

theorem replaceAt_noCe (hme : e.me = 0) (o : Orc K F) (f rho norms : K) (pos : ℕ) (s : MSt K F)
    (h : NoCe s) : (replaceAt e o f rho norms pos s).Sat NoCe (fun _ => True) NotShape := by
  unfold replaceAt
  rw [if_neg (by rintro ⟨h1, -⟩; omega)]
  simp only
  split
  · split
    · intro h; cases h
    split
    · intro h; cases h
    · exact h
  · exact h

theorem reduce_noCe (o : Orc K F) (f norms : K) (s : MSt K F) (h : NoCe s) :
    (reduce e o f norms s).Sat NoCe (fun _ => True) NotShape := by
  unfold reduce
  simp only
  split
  · trivial
  · exact h

theorem rejectStep_noCe (hme : e.me = 0) (o : Orc K F) (f rho norms : K) (s : MSt K F)
    (h : NoCe s) : (rejectStep e o f rho norms s).Sat NoCe (fun _ => True) NotShape := by
  unfold rejectStep
  simp only
  split
  · refine PassRes.Sat.bind (Q := NoCe) ?_ (fun u hu => hu)
    unfold augmentRejected
    simp only
    rw [if_neg (by rintro ⟨h1, -⟩; omega)]
    exact h
  · unfold replaceOrReduce
    split
    · simp only
      split
      · exact PassRes.Sat.bind (Q := NoCe) (replaceAt_noCe hme o f rho norms _ _ h) (fun u hu => hu)
      · split
        · exact PassRes.Sat.bind (Q := NoCe) (replaceAt_noCe hme o f rho norms _ _ h)
            (fun u hu => hu)
        · exact reduce_noCe o f norms _ h
    · exact reduce_noCe o f norms _ h

theorem decideStep_noCe (hme : e.me = 0) (hns : e.ns = 0) (o : Orc K F) (norms : K) (s : MSt K F)
    (h : NoCe s) : (decideStep e o norms s).Sat NoCe (fun _ => True) NotShape := by
  unfold decideStep
  split
  · intro h; cases h
  rw [resNorm_some hns]
  simp only
  split
  · exact h
  split
  · split
    · trivial
    split
    · exact accepted_noCe hme o _ _ norms _ _ h
    · split
      · exact accepted_noCe hme o _ _ norms _ _ h
      · exact rejectStep_noCe hme o _ _ norms _ h
  · exact rejectStep_noCe hme o _ _ norms _ h

theorem evalTrial_noCe (hC : e.Constr) (hme : e.me = 0) (o : Orc K F) (s : MSt K F)
    (h : NoCe s) : (evalTrial e o s).Sat NoCe (fun _ => True) NotShape := by
  unfold evalTrial
  simp only
  split
  · intro h; cases h
  rename_i ev ha
  have hce : ev.ceX = [] := (augmX_noCe hC hme ha).trans h
  split
  · trivial
  split
  · rename_i hn; rw [hce] at hn; simp [finVals] at hn
  · exact hce

theorem pass_noCe (hC : e.Constr) (hme : e.me = 0) (hns : e.ns = 0) (o : Orc K F) (s : MSt K F)
    (h : NoCe s) : (pass e o s).Sat NoCe (fun _ => True) NotShape := by
  unfold pass
  split
  · trivial
  split
  · trivial
  split
  · trivial
  simp only
  refine PassRes.Sat.bind (Q := NoCe) ?_ ?_
  · split
    · unfold improve
      split
      · simp only
        split
        · trivial
        split
        · trivial
        unfold repairStage
        simp only
        refine PassRes.Sat.bind (Q := NoCe) ?_ ?_
        · exact PassRes.Sat.bind (Q := NoCe) (evalReplaced_noCe hC hme _ _ h)
            (fun t ht => callSmallf_noCe hns t ht)
        · intro t ht
          unfold improveEnd
          split
          · trivial
          simp only
          split
          · trivial
          · exact ht
      · intro h; cases h
    · exact h
  · intro t ht
    unfold stepStage
    refine PassRes.Sat.bind (Q := NoCe) ?_ ?_
    · unfold globalise
      split
      · exact ht
      split
      · intro h; cases h
      rw [resNorm_some hns]
      exact ht
    · intro t ht
      simp only
      split
      · trivial
      refine PassRes.Sat.bind (Q := NoCe) ?_ (fun u hu => decideStep_noCe hme hns o _ u hu)
      refine PassRes.Sat.bind (Q := NoCe) ?_ (fun u hu => evalTrial_noCe hC hme o u hu)
      unfold penalty
      split
      · simp only
        split
        · trivial
        · exact ht
      · exact ht

end C57

/-- C57: an unconstrained run only raises if the objective returns something that is not a number,
or if an improvement point cannot be evaluated. -/
theorem C57_unconstrained_errors {e : Env K F} {x0 : List K} {fuel : ℕ} {Δ : K} {sl : List K}
    {s0 : MSt K F} (H : Starts e x0 fuel Δ sl s0) (hme : e.me = 0) (hns : e.ns = 0)
    (os : List (Orc K F)) (c : Crash) (h : mainLoop e os s0 = .crash c) :
    c = .nonNumber ∨ c = .improvementFailed := by
  have h0 : NoCe s0 := by
    have hs := H.state
    unfold startState at hs
    cases hi : initLoop e.U x0 (e.nrm x0) fuel Δ emptyEv with
    | crash => rw [hi] at hs; cases hs
    | failed t => rw [hi] at hs; cases hs
    | stalled t => rw [hi] at hs; cases hs
    | running => rw [hi] at hs; cases hs
    | done D ev =>
      rw [hi] at hs
      simp only at hs
      have := (initLoop_start e H.constr x0 _ _ _ _ _ _ rfl hi).2.1 hme
      unfold mainInit at hs
      split at hs
      · split at hs
        · cases hs
        · simp only [Option.some.injEq] at hs; subst hs; exact this
      · cases hs
  have hp : ∀ o s, (Inv e [] s ∧ NoCe s) → (pass e o s).Sat (fun s => Inv e [] s ∧ NoCe s)
      (fun _ => True) (fun c => Outside c ∧ NotShape c) := by
    rintro o s ⟨hI, hc⟩
    exact ((pass_sat e H.ok o s hI).and (pass_noCe H.constr hme hns o s hc)).mono
      (fun _ h => ⟨h.1.1, h.2⟩) (fun _ _ => trivial) (fun _ h => h)
  have := mainLoop_induct e _ _ _ hp os s0 ⟨H.started.1, h0⟩
  rw [h] at this
  rcases this with ⟨h1 | h1 | h1, h2⟩
  · exact Or.inl h1
  · exact Or.inr h1
  · exact absurd h1 h2

/-- Both errors occur (a non-number at the trial point; a failing improvement point is in
`C51_false`). -/
example : look (env ⟨fun _ x => if x = [5] then .other else .num (.fin (-x.sum)), none⟩ (.fin 10)
    (.fin 100)) [0] [orc [5] 1] false (fun _ => false) (fun _ => false)
    (fun c => decide (c = .nonNumber)) = true := by decide +kernel

/-! ## C56: constraint value of the trial point -/

/-- C56, full statement: *the constraint value used for a trial point is that of this trial
point*.  False for histories of zeros (`C56_false`).  Proved: it is true after every evaluation at
which some recorded constraint value is nonzero. -/
theorem C56_trial_value_partial (e : Env K F) (o : Orc K F) (s t : MSt K F)
    (h : evalTrial e o s = .cont t) (hz : SomeNonzero t.ev.ceX) :
    (t.ev.ceX[t.m]?).bind colK = some t.ceplus := by
  unfold evalTrial at h
  simp only at h
  split at h
  · cases h
  split at h
  · cases h
  split at h
  · split at h
    · cases h
    split at h
    · cases h
    · rename_i c hc
      cases h
      exact hc
  · rename_i hn
    cases h
    exact absurd hz hn

/-- While all recorded constraint values are zero, no value is available at all. -/
theorem C56_zero_history {e : Env K F} {x0 : List K} {fuel : ℕ} {Δ : K} {sl : List K}
    {s0 : MSt K F} (H : Starts e x0 fuel Δ sl s0) (hT : e.Tame) (os : List (Orc K F))
    (s : MSt K F) (h : mainLoop e os s0 = .running s) (hz : ¬ SomeNonzero s.ev.ceX) :
    s.ceplus = [] := by
  have hp : ∀ o s, (Inv e [] s ∧ Ce e [] s) → (pass e o s).Sat (fun s => Inv e [] s ∧ Ce e [] s)
      (fun _ => True) (fun _ => True) := by
    rintro o s ⟨hI, hc⟩
    exact ((pass_sat e H.ok o s hI).and (pass_ce H.ok H.constr hT o s hc hI)).mono
      (fun _ h => ⟨h.1.1, h.2⟩) (fun _ _ => trivial) (fun _ _ => trivial)
  have := mainLoop_induct e _ _ _ hp os s0
    ⟨H.started.1, startState_ce H.constr hT x0 fuel Δ sl s0 H.state⟩
  rw [h] at this
  exact this.2.zero.resolve_right hz

theorem Ex.look_crash (e : Env ℚ Unit) (x0 : List ℚ) (os : List (Orc ℚ Unit)) (c : Crash)
    (h : look e x0 os false (fun _ => false) (fun _ => false) (fun d => decide (d = c)) = true) :
    ∃ s, start e x0 = some s ∧ mainLoop e os s = .crash c := by
  unfold look at h
  split at h
  · cases h
  · rename_i s hs
    refine ⟨s, hs, ?_⟩
    cases hm : mainLoop e os s with
    | done t => rw [hm] at h; cases h
    | running t => rw [hm] at h; cases h
    | crash d => rw [hm] at h; rw [of_decide_eq_true h]

/-- Negation of C56: with a constraint that vanishes identically the first successful step
raises. -/
theorem C56_false :
    ∃ s0, Starts (envC (fun x => - x.sum) (fun _ => 0) false) [0] 1 1 [] s0 ∧
      mainLoop (envC (fun x => - x.sum) (fun _ => 0) false) [orc [1] 1] s0 = .crash .ceShape := by
  obtain ⟨s, hs, h⟩ := look_crash (envC (fun x => - x.sum) (fun _ => 0) false) [0] [orc [1] 1]
    .ceShape (by decide +kernel)
  exact ⟨s, envC_starts rfl hs, h⟩

/-! ## C58: huge constraint values -/

theorem ce_foldl_max_ge : ∀ (l : List K) (a v : K), v = a ∨ v ∈ l → v ≤ l.foldl max a := by
  intro l
  induction l with
  | nil => intro a v h; rcases h with rfl | h; exacts [le_refl _, by cases h]
  | cons b l ih =>
    intro a v h
    rw [List.foldl_cons]
    rcases h with rfl | h
    · exact le_trans (le_max_left _ _) (ih _ _ (Or.inl rfl))
    · rcases List.mem_cons.1 h with rfl | h
      · exact le_trans (le_max_right _ _) (ih _ _ (Or.inl rfl))
      · exact ih _ _ (Or.inr h)

theorem ce_maxList_ge {l : List K} {M : K} (h : maxList l = some M) {v : K} (hv : v ∈ l) : v ≤ M := by
  cases l with
  | nil => cases hv
  | cons a l =>
    simp only [maxList, Option.some.injEq] at h
    rw [← h]
    exact ce_foldl_max_ge l a v (List.mem_cons.1 hv)

theorem mem_finVals {ce : List (List (Fl K))} {q : K} :
    q ∈ finVals ce ↔ ∃ col ∈ ce, Fl.fin q ∈ col := by
  unfold finVals
  rw [List.mem_filterMap]
  constructor
  · rintro ⟨v, hv, hq⟩
    obtain ⟨col, h1, h2⟩ := List.mem_flatten.1 hv
    refine ⟨col, h1, ?_⟩
    cases v with
    | fin r => simp only [Option.some.injEq] at hq; rw [← hq]; exact h2
    | nan => cases hq
    | pinf => cases hq
    | ninf => cases hq
  · rintro ⟨col, h1, h2⟩
    exact ⟨.fin q, List.mem_flatten.2 ⟨col, h1, h2⟩, rfl⟩

/-- C58, full statement: *values of `1e25` or more are replaced by a value not smaller than every
other recorded value*.  False (`C58_false`).  Proved: the smaller values are kept, the shape is
kept, and the claim holds if some recorded value lies in `[0, 1e25)`. -/
theorem C58_replacement_partial (ce ce' : List (List (Fl K))) (h : replaceHuge ce = some ce') :
    ce'.length = ce.length ∧
    (∀ (i : ℕ) (col : List (Fl K)), ce[i]? = some col →
      ∃ col', ce'[i]? = some col' ∧ col'.length = col.length ∧
        ∀ (j : ℕ) (q : K), col[j]? = some (.fin q) →
          (q < 10 ^ 25 → col'[j]? = some (.fin q)) ∧
          (10 ^ 25 ≤ q → (∃ v ∈ finVals ce, 0 ≤ v ∧ v < 10 ^ 25) →
            ∃ r, col'[j]? = some (.fin r) ∧ ∀ v ∈ finVals ce', v ≤ r)) := by
  unfold replaceHuge at h
  split at h
  · split at h
    · cases h
    · rename_i M hM
      simp only [Option.some.injEq] at h
      subst h
      refine ⟨by simp, fun i col hcol => ⟨_, by rw [List.getElem?_map, hcol]; rfl, by simp, ?_⟩⟩
      intro j q hq
      constructor
      · intro hlt
        rw [List.getElem?_map, hq]
        simp only [Option.map_some]
        rw [if_neg (show ¬ big ≤ q from not_le.2 hlt)]
      · rintro hge ⟨v, hv, hv0, hv1⟩
        have hvM : v ≤ M := ce_maxList_ge hM (List.mem_filter.2 ⟨hv, by
          rw [decide_eq_true_eq]; exact hv1⟩)
        refine ⟨10 * M, ?_, ?_⟩
        · rw [List.getElem?_map, hq]
          simp only [Option.map_some]
          rw [if_pos (show big ≤ q from hge)]
        · intro u hu
          obtain ⟨c1, h1, h2⟩ := mem_finVals.1 hu
          obtain ⟨c0, h3, rfl⟩ := List.mem_map.1 h1
          obtain ⟨x, h4, h5⟩ := List.mem_map.1 h2
          cases x with
          | nan => cases h5
          | pinf => cases h5
          | ninf => cases h5
          | fin p =>
            simp only at h5
            split at h5
            · simp only [Fl.fin.injEq] at h5; exact h5.ge
            · rename_i hp
              simp only [Fl.fin.injEq] at h5
              subst h5
              have : p ≤ M := ce_maxList_ge hM (List.mem_filter.2 ⟨mem_finVals.2 ⟨c0, h3, h4⟩, by
                rw [decide_eq_true_eq]; exact not_le.1 hp⟩)
              linarith
  · rename_i hn
    simp only [Option.some.injEq] at h
    subst h
    refine ⟨rfl, fun i col hcol => ⟨col, hcol, rfl, fun j q hq => ⟨fun _ => hq, fun hge => ?_⟩⟩⟩
    exfalso
    apply hn
    rw [List.any_eq_true]
    exact ⟨q, mem_finVals.2 ⟨col, List.mem_of_getElem? hcol, List.mem_of_getElem? hq⟩,
      decide_eq_true hge⟩

theorem ce_foldl_min_le : ∀ (l : List K) (a v : K), v = a ∨ v ∈ l → l.foldl min a ≤ v := by
  intro l
  induction l with
  | nil => intro a v h; rcases h with rfl | h; exacts [le_refl _, by cases h]
  | cons b l ih =>
    intro a v h
    rw [List.foldl_cons]
    rcases h with rfl | h
    · exact le_trans (ih _ _ (Or.inl rfl)) (min_le_left _ _)
    · rcases List.mem_cons.1 h with rfl | h
      · exact le_trans (ih _ _ (Or.inl rfl)) (min_le_right _ _)
      · exact ih _ _ (Or.inr h)

theorem ce_minList_le {l : List K} {M : K} (h : minList l = some M) {v : K} (hv : v ∈ l) : M ≤ v := by
  cases l with
  | nil => cases hv
  | cons a l =>
    simp only [minList, Option.some.injEq] at h
    rw [← h]
    exact ce_foldl_min_le l a v (List.mem_cons.1 hv)

/-- The corresponding statement for values of `-1e25` or less. -/
theorem C58_negative_partial (ce ce' : List (List (Fl K))) (h : replaceHugeNeg ce = some ce') :
    ce'.length = ce.length ∧
    (∀ (i : ℕ) (col : List (Fl K)), ce[i]? = some col →
      ∃ col', ce'[i]? = some col' ∧ col'.length = col.length ∧
        ∀ (j : ℕ) (q : K), col[j]? = some (.fin q) →
          (-10 ^ 25 < q → col'[j]? = some (.fin q)) ∧
          (q ≤ -10 ^ 25 → (∃ v ∈ finVals ce, v ≤ 0 ∧ -10 ^ 25 < v) →
            ∃ r, col'[j]? = some (.fin r) ∧ ∀ v ∈ finVals ce', r ≤ v)) := by
  unfold replaceHugeNeg at h
  split at h
  · split at h
    · cases h
    · rename_i M hM
      simp only [Option.some.injEq] at h
      subst h
      refine ⟨by simp, fun i col hcol => ⟨_, by rw [List.getElem?_map, hcol]; rfl, by simp, ?_⟩⟩
      intro j q hq
      constructor
      · intro hlt
        rw [List.getElem?_map, hq]
        simp only [Option.map_some]
        rw [if_neg (show ¬ q ≤ -big from not_le.2 hlt)]
      · rintro hge ⟨v, hv, hv0, hv1⟩
        have hvM : M ≤ v := ce_minList_le hM (List.mem_filter.2 ⟨hv, by
          rw [decide_eq_true_eq]; exact hv1⟩)
        refine ⟨10 * M, ?_, ?_⟩
        · rw [List.getElem?_map, hq]
          simp only [Option.map_some]
          rw [if_pos (show q ≤ -big from hge)]
        · intro u hu
          obtain ⟨c1, h1, h2⟩ := mem_finVals.1 hu
          obtain ⟨c0, h3, rfl⟩ := List.mem_map.1 h1
          obtain ⟨x, h4, h5⟩ := List.mem_map.1 h2
          cases x with
          | nan => cases h5
          | pinf => cases h5
          | ninf => cases h5
          | fin p =>
            simp only at h5
            split at h5
            · simp only [Fl.fin.injEq] at h5; exact h5.le
            · rename_i hp
              simp only [Fl.fin.injEq] at h5
              subst h5
              have : M ≤ p := ce_minList_le hM (List.mem_filter.2 ⟨mem_finVals.2 ⟨c0, h3, h4⟩, by
                rw [decide_eq_true_eq]; exact not_le.1 hp⟩)
              linarith
  · rename_i hn
    simp only [Option.some.injEq] at h
    subst h
    refine ⟨rfl, fun i col hcol => ⟨col, hcol, rfl, fun j q hq => ⟨fun _ => hq, fun hge => ?_⟩⟩⟩
    exfalso
    apply hn
    rw [List.any_eq_true]
    exact ⟨q, mem_finVals.2 ⟨col, List.mem_of_getElem? hcol, List.mem_of_getElem? hq⟩,
      decide_eq_true hge⟩

example : replaceHuge ([[.fin 3], [.fin (10 ^ 26)]] : List (List (Fl ℚ))) =
    some [[.fin 3], [.fin 30]] := by decide +kernel

example : replaceHugeNeg ([[.fin (-3)], [.fin (-10 ^ 26)]] : List (List (Fl ℚ))) =
    some [[.fin (-3)], [.fin (-30)]] := by decide +kernel

/-- Negation of C58: constraint value `-1` at the first points (the constraint `c ≤ 0` or `c = 0`), a
trial point with value `1e26` is recorded with the value `-10`, the smallest of the history. -/
theorem C58_false :
    ∃ s0, Starts (envC (fun x => - x.sum) (fun x => if x = [5] then 10 ^ 26 else -1) false) [0] 1 1
        [] s0 ∧
      ∃ t, mainLoop (envC (fun x => - x.sum) (fun x => if x = [5] then 10 ^ 26 else -1) false)
          [stepC [5] 1] s0 = .running t ∧
        t.ev.ceX = [[.fin (-1)], [.fin (-1)], [.fin (-10)]] ∧
        t.ev.X[2]? = some [5] := by
  have h : look (envC (fun x => - x.sum) (fun x => if x = [5] then 10 ^ 26 else -1) false) [0]
      [stepC [5] 1] false (fun _ => false)
      (fun t => decide (t.ev.ceX = [[.fin (-1)], [.fin (-1)], [.fin (-10)]] ∧
        t.ev.X[2]? = some [5])) (fun _ => false) = true := by decide +kernel
  unfold look at h
  split at h
  · cases h
  · rename_i s hs
    refine ⟨s, envC_starts rfl hs, ?_⟩
    cases hm : mainLoop (envC (fun x => - x.sum) (fun x => if x = [5] then 10 ^ 26 else -1) false)
        [stepC [5] 1] s with
    | done t => rw [hm] at h; cases h
    | crash d => rw [hm] at h; cases h
    | running t => rw [hm] at h; exact ⟨t, rfl, of_decide_eq_true h⟩

/-! ## C55: verbosity -/

/-- The environment with another verbosity. -/
def Env.withVerbose (e : Env K F) (b : Bool) : Env K F := { e with verbose4 := b }

/-- What the repair reports agrees with the poisedness computed for the repaired set, for the set
of the state `s` and the given radius. -/
def RepairReports (e : Env K F) (o : Orc K F) (radius : K) (s : MSt K F) : Prop :=
  let r := repairY e.dist e.build o.propose (6 / 5)
    ((if o.normgx ≤ cEps ∨ s.pred = -1 then 1 else 10) * (1 + cEpsL) * radius)
    (e.order (dists e.dist s.set.Y)) s.set.Y s.set.fac
  o.poisedness r.st.fac r.st.Y = (r.maximprove, r.radius)

/-- The state handed to the repair by a pass from `s`. -/
def beforeRepair (e : Env K F) (o : Orc K F) (s : MSt K F) : MSt K F :=
  let s := { s.measure o.k1 with ev := { s.ev with flag := Status.success } }
  let pr := o.poisedness s.set.fac s.set.Y
  let s := { s with poised := pr.1, yradius := pr.2 }
  { s with niter := s.niter + 1, epsCur := newEpsCur e s }

/-- A pass from `s` enters the improvement block if it gets as far as the convergence test. -/
def EntersImprove (e : Env K F) (o : Orc K F) (s : MSt K F) : Prop :=
  (o.k1.glagn ≤ e.tolGrad ∧ o.k1.feasn ≤ e.tolFeas ∧ o.k1.compl ≤ e.tolBnds) ∨
    s.delta < 1 / 10 ^ 10 ∨ s.pred = -1

/-- The repair reports the poisedness in every pass of the run that enters the improvement. -/
def ReportsAlong (e : Env K F) : List (Orc K F) → MSt K F → Prop
  | [], _ => True
  | o :: os, s =>
    (EntersImprove e o s → RepairReports e o (repRadius (beforeRepair e o s)) (beforeRepair e o s)) ∧
      match pass e o s with
      | .cont t => ReportsAlong e os t
      | _ => True

instance decReportsAlong (e : Env K F) : ∀ (os : List (Orc K F)) (s : MSt K F),
    Decidable (ReportsAlong e os s)
  | [], _ => isTrue trivial
  | o :: os, s => by
    have i1 : Decidable (EntersImprove e o s) := by unfold EntersImprove; infer_instance
    have i2 : Decidable (RepairReports e o (repRadius (beforeRepair e o s)) (beforeRepair e o s)) := by
      unfold RepairReports; infer_instance
    have i3 : Decidable (match pass e o s with
      | .cont t => ReportsAlong e os t
      | _ => True) := by
      cases pass e o s with
      | cont t => exact decReportsAlong e os t
      | ret t => exact isTrue trivial
      | crash c => exact isTrue trivial
    unfold ReportsAlong
    infer_instance

theorem evalReplaced_verbose (e : Env K F) (b : Bool) : ∀ (js : List ℕ) (s : MSt K F),
    evalReplaced (e.withVerbose b) js s = evalReplaced e js s := by
  intro js
  induction js with
  | nil => intro s; rfl
  | cons j js ih =>
    intro s
    simp only [evalReplaced, ih]
    rfl

theorem repairStage_verbose (e : Env K F) (b : Bool) (o : Orc K F) (radius : K) (s : MSt K F)
    (h : RepairReports e o radius s) :
    repairStage (e.withVerbose b) o radius s = repairStage e o radius s := by
  have h1 : callSmallf (e.withVerbose b) = callSmallf e := rfl
  have h2 : improveEnd (e.withVerbose b) o.k2 radius = improveEnd e o.k2 radius := rfl
  have h3 : ∀ t : MSt K F, t.newGx (e.withVerbose b) = t.newGx e := fun _ => rfl
  have e1 : (e.withVerbose b).dist = e.dist := rfl
  have e2 : (e.withVerbose b).build = e.build := rfl
  have e3 : (e.withVerbose b).order = e.order := rfl
  unfold RepairReports at h
  unfold repairStage
  simp only [evalReplaced_verbose, h1, h2, h3]
  simp only [e1, e2, e3, h, ite_self]

theorem stepStage_verbose (e : Env K F) (b : Bool) (o : Orc K F) (s : MSt K F) :
    stepStage (e.withVerbose b) o s = stepStage e o s := rfl

/-- A pass that does not enter the improvement block does not depend on the verbosity, whatever
the repair reports. -/
theorem C55_step_partial (e : Env K F) (b : Bool) (o : Orc K F) (s : MSt K F)
    (hn : ¬ EntersImprove e o s) : pass (e.withVerbose b) o s = pass e o s := by
  have hx : ∀ e' : Env K F, e'.tolGrad = e.tolGrad → e'.tolFeas = e.tolFeas →
      e'.tolBnds = e.tolBnds → pass e' o s =
        if e'.miter.le (.fin s.niter) then s.stop Status.stopOnMaxIter
        else if e'.msimul.le (.fin s.ev.nsimul) then s.stop Status.stopOnMaxSimul
        else if o.k1.fail then s.stop Status.failUnexpected
        else stepStage e' o
          { s.measure o.k1 with ev := { s.ev with flag := Status.success } } := by
    intro e' a1 a2 a3
    unfold pass
    split
    · rfl
    split
    · rfl
    split
    · rfl
    rw [a1, a2, a3]
    dsimp only
    split
    · rename_i h; exact absurd h hn
    · rfl
  exact (hx (e.withVerbose b) rfl rfl rfl).trans (hx e rfl rfl rfl).symm

/-- C55, full statement: *the verbosity does not change the run*.  False (`C55_false`).  Proved:
runs with different verbosity are equal if the value reported by the repair of the set is the
poisedness of the repaired set. -/
theorem C55_verbosity_partial (e : Env K F) (b : Bool) : ∀ (os : List (Orc K F)) (s : MSt K F),
    ReportsAlong e os s → mainLoop (e.withVerbose b) os s = mainLoop e os s := by
  intro os
  induction os with
  | nil => intro s _; rfl
  | cons o os ih =>
    rintro s ⟨h, hr⟩
    have hp : pass (e.withVerbose b) o s = pass e o s := by
      by_cases hI : EntersImprove e o s
      swap
      · exact C55_step_partial e b o s hI
      replace h := h hI
      have h1 : improve (e.withVerbose b) o
            { s.measure o.k1 with ev := { s.ev with flag := Status.success } } =
          improve e o { s.measure o.k1 with ev := { s.ev with flag := Status.success } } := by
        have h2 := repairStage_verbose e b o _ _ h
        unfold beforeRepair at h2
        dsimp only at h2
        unfold improve
        dsimp only
        show (if e.n + 1 ≤ _ then (if _ ∧ _ ∧ _ ∧ _ then _ else if _ then _ else
          repairStage (e.withVerbose b) o _ _) else _) = _
        rw [show ∀ s, newEpsCur (e.withVerbose b) s = newEpsCur e s from fun _ => rfl, h2]
        rfl
      unfold pass
      dsimp only
      rw [h1]
      rfl
    rw [mainLoop, mainLoop, hp]
    cases hc : pass e o s with
    | cont t => rw [hc] at hr; exact ih t hr
    | ret t => rfl
    | crash c => rfl

/-- The runs of the counterexample: constraint `x - 0.8999`, constant objective.  A successful step
to `0.9`, a step without predicted reduction, a pass in which nothing is far and nothing can be
improved. -/
def Ex.verboseRun : List (Orc ℚ Unit) :=
  [stepC [9 / 10] (1 / 10), orc [8 / 10] 0,
   { stepC [8 / 10] (1 / 10) with
      k1 := ⟨false, 0, 1 / 10 ^ 4, 0⟩
      k2 := ⟨false, 0, 1 / 10 ^ 4, 0⟩
      poisedness := fun _ _ => (1, 1 / 10)
      propose := fun _ _ _ => ([8 / 10], 1) }]

/-- The same run with a repair that reports what it should (nothing replaced: poisedness 0
according to the code); its hypotheses are met and the runs agree. -/
def Ex.reportRun : List (Orc ℚ Unit) :=
  verboseRun.map fun o => { o with poisedness := fun _ _ => (0, 1 / 10) }

example : look (envC (fun _ => 0) (fun x => x.sum - 8999 / 10000) false) [1] [] false
    (fun _ => false)
    (fun s => decide (ReportsAlong (envC (fun _ => 0) (fun x => x.sum - 8999 / 10000) false)
      reportRun s ∧ ¬ ReportsAlong (envC (fun _ => 0) (fun x => x.sum - 8999 / 10000) false)
      verboseRun s)) (fun _ => false) = true := by decide +kernel

/-- Negation of C55: with the same kernel results the quiet run ends with status 0 after the third
pass, the verbose run goes on and evaluates another point. -/
theorem C55_false :
    ∃ s0, Starts (envC (fun _ => 0) (fun x => x.sum - 8999 / 10000) false) [1] 1 1 [] s0 ∧
      Starts (envC (fun _ => 0) (fun x => x.sum - 8999 / 10000) true) [1] 1 1 [] s0 ∧
      (∃ t, mainLoop (envC (fun _ => 0) (fun x => x.sum - 8999 / 10000) false) verboseRun s0 =
        .done t ∧ t.ev.flag = 0 ∧ t.ev.nsimul = 4) ∧
      ∃ t, mainLoop (envC (fun _ => 0) (fun x => x.sum - 8999 / 10000) true) verboseRun s0 =
        .running t ∧ t.ev.nsimul = 5 := by
  obtain ⟨s, hs, t, ht, h⟩ := look_done
    (envC (fun _ => 0) (fun x => x.sum - 8999 / 10000) false) [1] verboseRun
    (fun t => decide (t.ev.flag = 0 ∧ t.ev.nsimul = 4)) (by decide +kernel)
  have hs' : start (envC (fun _ => 0) (fun x => x.sum - 8999 / 10000) true) [1] = some s := hs
  refine ⟨s, envC_starts rfl hs, envC_starts rfl hs', ⟨t, ht, of_decide_eq_true h⟩, ?_⟩
  have h : look (envC (fun _ => 0) (fun x => x.sum - 8999 / 10000) true) [1]
      verboseRun false (fun _ => false)
      (fun t => decide (t.ev.nsimul = 5)) (fun _ => false) = true := by decide +kernel
  unfold look at h
  rw [hs'] at h
  simp only at h
  cases hm : mainLoop (envC (fun _ => 0) (fun x => x.sum - 8999 / 10000) true) verboseRun s with
  | done t => rw [hm] at h; cases h
  | crash d => rw [hm] at h; cases h
  | running t => rw [hm] at h; exact ⟨t, rfl, of_decide_eq_true h⟩

#print axioms C64_constraint_data
#print axioms C57_unconstrained_errors
#print axioms C56_trial_value_partial
#print axioms C56_zero_history
#print axioms C56_false
#print axioms C58_replacement_partial
#print axioms C58_negative_partial
#print axioms C58_false
#print axioms C55_verbosity_partial
#print axioms C55_step_partial
#print axioms C55_false

end Sqpdfo
