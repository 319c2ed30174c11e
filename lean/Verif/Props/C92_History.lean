import Verif.Spec.History
import Verif.Props.C81_Whole

/-! # C92: the convergence history in `convhist.m` -/

set_option linter.unusedSectionVars false

namespace Sqpdfo
open Spec
variable {K F : Type} [Field K] [LinearOrder K] [IsStrictOrderedRing K]

/-- `repairStage` in terms of `repaired`. -/
theorem repairStage_repaired (e : Env K F) (o : Orc K F) (radius : K) (s : MSt K F) :
    repairStage e o radius s = (repaired e o radius s).bind fun s => improveEnd e o.k2 radius (s.newGx e).storeG := rfl

/-- The numbers of evaluations in the lines do not decrease and lie between those of the two states. -/
def Between (a b : ℕ) (L : List (HLine K)) : Prop :=
  L.Pairwise (fun l l' => l.nsimul ≤ l'.nsimul) ∧ (∀ l ∈ L, a ≤ l.nsimul ∧ l.nsimul ≤ b) ∧ a ≤ b

theorem Between.append {a b c : ℕ} {L L' : List (HLine K)} (h : Between a b L) (h' : Between b c L') : Between a c (L ++ L') := by
  obtain ⟨h1, h2, h3⟩ := h
  obtain ⟨k1, k2, k3⟩ := h'
  refine ⟨List.pairwise_append.2 ⟨h1, k1, fun l hl l' hl' => (h2 l hl).2.trans (k2 l' hl').1⟩, ?_, h3.trans k3⟩
  intro l hl
  rcases List.mem_append.1 hl with h | h
  · exact ⟨(h2 l h).1, (h2 l h).2.trans k3⟩
  · exact ⟨h3.trans (k2 l h).1, (k2 l h).2⟩

theorem Between.nil {a b : ℕ} (h : a ≤ b) : Between (K := K) a b [] := ⟨List.Pairwise.nil, by simp, h⟩

theorem Between.single {a b : ℕ} (l : HLine K) (h : a ≤ l.nsimul) (h' : l.nsimul ≤ b) : Between a b [l] :=
  ⟨List.pairwise_singleton _ _, by simpa using ⟨h, h'⟩, h.trans h'⟩

/-- What is written between the state `s` and the end `r` of a stage. -/
def Wrote (s : MSt K F) (L : List (HLine K)) : PassRes K F → Prop
  | .cont t => ∃ d, t.niter = s.niter + d ∧ L.map (·.niter) = List.range' (s.niter + 1) d ∧ Between s.ev.nsimul t.ev.nsimul L
  | .ret t => ∃ d, t.niter = s.niter + d ∧
      L.map (·.niter) = List.range' (s.niter + 1) d ++ (if twice t.ev.flag then [t.niter] else []) ∧
      Between s.ev.nsimul t.ev.nsimul L ∧ (t.ev.flag = 0 ∨ twice t.ev.flag → L.getLast? = some t.line)
  | .crash _ => ∃ d b, L.map (·.niter) = List.range' (s.niter + 1) d ∧ Between s.ev.nsimul b L

theorem Wrote.append {s t : MSt K F} {L L' : List (HLine K)} {r : PassRes K F} (h : Wrote s L (.cont t)) (h' : Wrote t L' r) :
    Wrote s (L ++ L') r := by
  obtain ⟨d, h1, h2, h3⟩ := h
  have hr : ∀ d', List.range' (s.niter + 1) d ++ List.range' (t.niter + 1) d' = List.range' (s.niter + 1) (d + d') := by
    intro d'
    rw [h1, show s.niter + d + 1 = s.niter + 1 + d by omega, List.range'_append_1]
  cases r with
  | cont u =>
    obtain ⟨d', k1, k2, k3⟩ := h'
    refine ⟨d + d', by omega, ?_, h3.append k3⟩
    rw [List.map_append, h2, k2, hr]
  | ret u =>
    obtain ⟨d', k1, k2, k3, k4⟩ := h'
    refine ⟨d + d', by omega, ?_, h3.append k3, fun hf => ?_⟩
    · rw [List.map_append, h2, k2, ← List.append_assoc, hr]
    · rw [List.getLast?_append, k4 hf]; rfl
  | crash c =>
    obtain ⟨d', b, k1, k2⟩ := h'
    refine ⟨d + d', b, ?_, h3.append k2⟩
    rw [List.map_append, h2, k1, hr]

theorem augmX_nsimul {P : Type} (U : User P K) (fm : Fl K) (y : P) (m : ℕ) (s s' : EvSt P K) (h : augmX U fm y m s = some s') :
    s'.nsimul = s.nsimul + 1 := by
  unfold augmX at h
  dsimp only at h
  repeat' split at h
  all_goals first | (cases h; rfl) | cases h

theorem evalReplaced_cnt (e : Env K F) : ∀ (js : List ℕ) (s t : MSt K F), evalReplaced e js s = .cont t →
    t.niter = s.niter ∧ s.ev.nsimul ≤ t.ev.nsimul := by
  intro js
  induction js with
  | nil => intro s t h; cases h; exact ⟨rfl, le_rfl⟩
  | cons j js ih =>
    intro s t h
    unfold evalReplaced at h
    split at h
    · dsimp only at h
      split at h
      · cases h
      · rename_i ev hev
        have hn := augmX_nsimul _ _ _ _ _ _ hev
        split at h
        · cases h
        · split at h
          · cases h
          · split at h
            · split at h
              · cases h
              · obtain ⟨a, b⟩ := ih _ _ h
                refine ⟨a, le_trans ?_ b⟩
                show s.ev.nsimul ≤ ev.nsimul; omega
            · obtain ⟨a, b⟩ := ih _ _ h
              refine ⟨a, le_trans ?_ b⟩
              show s.ev.nsimul ≤ ev.nsimul; omega
    · cases h

theorem evalReplaced_noRet (e : Env K F) : ∀ (js : List ℕ) (s t : MSt K F), evalReplaced e js s ≠ .ret t := by
  intro js
  induction js with
  | nil => intro s t h; cases h
  | cons j js ih =>
    intro s t h
    unfold evalReplaced at h
    dsimp only at h
    repeat' split at h
    all_goals first | exact ih _ _ h | cases h

theorem callSmallf_cnt (e : Env K F) (s t : MSt K F) (h : callSmallf e s = .cont t) :
    t.niter = s.niter ∧ t.ev.nsimul = s.ev.nsimul := by
  unfold callSmallf at h
  dsimp only at h
  repeat' split at h
  all_goals first | (cases h; exact ⟨rfl, rfl⟩) | cases h

theorem callSmallf_noRet (e : Env K F) (s t : MSt K F) : callSmallf e s ≠ .ret t := by
  intro h
  unfold callSmallf at h
  dsimp only at h
  repeat' split at h
  all_goals cases h

theorem repaired_cnt (e : Env K F) (o : Orc K F) (radius : K) (s t : MSt K F) (h : repaired e o radius s = .cont t) :
    t.niter = s.niter ∧ s.ev.nsimul ≤ t.ev.nsimul := by
  unfold repaired at h
  dsimp only at h
  cases hr : evalReplaced e _ _ with
  | ret u => rw [hr] at h; cases h
  | crash c => rw [hr] at h; cases h
  | cont u =>
    rw [hr] at h
    obtain ⟨a, b⟩ := evalReplaced_cnt e _ _ _ hr
    obtain ⟨c, d⟩ := callSmallf_cnt e _ _ h
    exact ⟨c.trans a, le_trans b d.ge⟩

theorem repaired_noRet (e : Env K F) (o : Orc K F) (radius : K) (s t : MSt K F) : repaired e o radius s ≠ .ret t := by
  intro h
  unfold repaired at h
  dsimp only at h
  cases hr : evalReplaced e _ _ with
  | ret u => exact evalReplaced_noRet _ _ _ _ hr
  | crash c => rw [hr] at h; cases h
  | cont u => rw [hr] at h; exact callSmallf_noRet _ _ _ h

theorem improveEnd_wrote (e : Env K F) (k : Meas K) (radius : K) (s : MSt K F) :
    Wrote s (improveEndLines e k s) (improveEnd e k radius s) := by
  unfold improveEnd improveEndLines
  split
  · exact ⟨0, rfl, rfl, .nil le_rfl, fun h => by simp [Status.failUnexpected, twice] at h⟩
  · dsimp only
    split
    · refine ⟨1, rfl, rfl, .single _ le_rfl le_rfl, fun _ => rfl⟩
    · exact ⟨0, rfl, rfl, .nil le_rfl⟩

theorem improve_wrote (e : Env K F) (o : Orc K F) (s : MSt K F) : Wrote s (improveLines e o s) (improve e o s) := by
  unfold improve improveLines
  split
  swap
  · exact ⟨0, s.ev.nsimul, rfl, .nil le_rfl⟩
  dsimp only
  split
  · exact ⟨1, rfl, rfl, .single _ le_rfl le_rfl, fun _ => rfl⟩
  generalize hs' : ({ s with
        niter := s.niter + 1
        epsCur := newEpsCur e { s with
          poised := (o.poisedness s.set.fac s.set.Y).1
          yradius := (o.poisedness s.set.fac s.set.Y).2 }
        poised := (o.poisedness s.set.fac s.set.Y).1
        yradius := (o.poisedness s.set.fac s.set.Y).2 } : MSt K F) = s'
  have h1 : s'.niter = s.niter + 1 := by subst hs'; rfl
  have h2 : s'.ev.nsimul = s.ev.nsimul := by subst hs'; rfl
  have h3 : ∀ t : MSt K F, t.niter = s'.niter → s'.ev.nsimul ≤ t.ev.nsimul → Wrote s [s'.line] (.cont t) := by
    intro t a b
    refine ⟨1, by rw [a, h1], ?_, .single _ ?_ ?_⟩
    · show [s'.niter] = _; rw [h1]; rfl
    · exact h2.ge
    · exact b
  split
  · refine ⟨1, h1, ?_, ?_, fun _ => rfl⟩
    · show [s'.niter, s'.niter] = _; rw [h1]; rfl
    · show Between _ s'.ev.nsimul _
      rw [h2]
      exact (Between.single s'.line h2.ge h2.le).append (Between.single (b := s.ev.nsimul) s'.line h2.ge h2.le)
  · rw [repairStage_repaired]
    cases hr : repaired e o (repRadius s') s' with
    | ret t => exact absurd hr (repaired_noRet _ _ _ _ _)
    | crash c =>
      refine ⟨1, s.ev.nsimul, ?_, .single _ h2.ge h2.le⟩
      show [s'.niter] = _; rw [h1]; rfl
    | cont t =>
      obtain ⟨a, b⟩ := repaired_cnt _ _ _ _ _ hr
      exact (h3 (t.newGx e).storeG a b).append (improveEnd_wrote e o.k2 _ _)

/-- A stage does not return. -/
def NoRet (r : PassRes K F) : Prop := ∀ t, r ≠ .ret t

theorem accepted_noRet (e : Env K F) (o : Orc K F) (fxplus rho norms : K) (pos : ℕ) (s : MSt K F) :
    NoRet (accepted e o fxplus rho norms pos s) := by
  intro t h
  unfold accepted at h
  dsimp only at h
  repeat' split at h
  all_goals cases h

theorem replaceAt_noRet (e : Env K F) (o : Orc K F) (fxplus rho norms : K) (pos : ℕ) (s : MSt K F) :
    NoRet (replaceAt e o fxplus rho norms pos s) := by
  intro t h
  unfold replaceAt at h
  dsimp only at h
  repeat' split at h
  all_goals cases h

theorem augmentRejected_noRet (e : Env K F) (o : Orc K F) (fxplus : K) (s : MSt K F) :
    NoRet (augmentRejected e o fxplus s) := by
  intro t h
  unfold augmentRejected at h
  dsimp only at h
  repeat' split at h
  all_goals cases h

theorem restore_noRet {r : PassRes K F} (h : NoRet r) : NoRet (r.bind fun s => .cont s.restoreF) := by
  intro t ht
  cases r with
  | cont u => cases ht
  | ret u => exact h u rfl
  | crash c => cases ht

theorem reduce_flag (e : Env K F) (o : Orc K F) (fxplus norms : K) (s t : MSt K F) (h : reduce e o fxplus norms s = .ret t) :
    t.ev.flag = 15 := by
  unfold reduce at h
  dsimp only at h
  split at h
  · cases h; rfl
  · cases h

theorem rejectStep_flag (e : Env K F) (o : Orc K F) (fxplus rho norms : K) (s t : MSt K F)
    (h : rejectStep e o fxplus rho norms s = .ret t) : t.ev.flag = 15 := by
  unfold rejectStep at h
  dsimp only at h
  split at h
  · exact absurd h (restore_noRet (augmentRejected_noRet _ _ _ _) t)
  · unfold replaceOrReduce at h
    dsimp only at h
    split at h
    · split at h
      · exact absurd h (restore_noRet (replaceAt_noRet _ _ _ _ _ _ _) t)
      · split at h
        · exact absurd h (restore_noRet (replaceAt_noRet _ _ _ _ _ _ _) t)
        · exact reduce_flag _ _ _ _ _ _ h
    · exact reduce_flag _ _ _ _ _ _ h

theorem decideStep_flag (e : Env K F) (o : Orc K F) (norms : K) (s t : MSt K F) (h : decideStep e o norms s = .ret t) :
    t.ev.flag = 8 ∨ t.ev.flag = 15 := by
  unfold decideStep at h
  dsimp only at h
  split at h
  · cases h
  · split at h
    · cases h
    · split at h
      · cases h
      · split at h
        · split at h
          · cases h; exact Or.inl rfl
          · split at h
            · exact absurd h (accepted_noRet _ _ _ _ _ _ _ t)
            · split at h
              · exact absurd h (accepted_noRet _ _ _ _ _ _ _ t)
              · exact Or.inr (rejectStep_flag _ _ _ _ _ _ _ h)
        · exact Or.inr (rejectStep_flag _ _ _ _ _ _ _ h)

theorem decide_wrote (e : Env K F) (o : Orc K F) (norms : K) (s : MSt K F) (h : Inv e [] s) (hX : s.ev.X[s.m]? = some o.xnew) :
    Wrote s (decideLines (decideStep e o norms s)) (decideStep e o norms s) := by
  have hs := decideStep_sat e o norms s h hX
  cases hr : decideStep e o norms s with
  | cont t =>
    rw [hr] at hs
    exact ⟨0, hs.2.niter, rfl, .nil hs.2.nsimul.ge⟩
  | crash c => exact ⟨0, _, rfl, .nil le_rfl⟩
  | ret t =>
    rw [hr] at hs
    obtain ⟨g1, g2, g3, -⟩ := hs
    have hf : t.ev.flag = 15 := by
      rcases decideStep_flag _ _ _ _ _ hr with h8 | h15
      · have := g1.flags; omega
      · exact h15
    have hl : decideLines (PassRes.ret t) = [t.line] := if_pos hf
    rw [hl]
    refine ⟨0, g2, ?_, .single _ g3.ge le_rfl, fun _ => rfl⟩
    rw [if_pos (show twice t.ev.flag from Or.inr (Or.inr hf))]
    rfl

theorem globalise_line (e : Env K F) (s : MSt K F) (h : Inv e [] s) :
    (globalise e s).Sat (fun t => Inv e [] t ∧ t.line = s.line) (fun _ => False) (fun _ => True) := by
  unfold globalise
  split
  · exact ⟨h, rfl⟩
  · split
    · trivial
    · split
      · trivial
      · exact ⟨{ h with link := fun j hj hp => h.link j hj hp }, rfl⟩

theorem penalty_line (e : Env K F) (o : Orc K F) (s : MSt K F) (h : Inv e [] s) :
    (penalty o s).Sat (fun t => Inv e [] t ∧ t.line = s.line) (fun t => t.ev.flag = 30 ∧ t.line = s.line) (fun _ => True) := by
  unfold penalty
  split
  · rename_i hlt
    have hmono : s.sigma ≤ max (sigmab o) (3 / 2 * s.sigma) := le_max_of_le_left hlt.le
    dsimp only
    split
    · exact ⟨rfl, rfl⟩
    · exact ⟨{ h with link := fun j hj hp => h.link j hj hp, sigma := le_trans h.sigma hmono }, rfl⟩
  · exact ⟨h, rfl⟩

theorem step_wrote (e : Env K F) (o : Orc K F) (s : MSt K F) (h : Inv e [] s) : Wrote s (stepLines e o s) (stepStage e o s) := by
  unfold stepLines stepStage
  have hg := globalise_line e s h
  cases hr : globalise e s with
  | ret t => rw [hr] at hg; exact hg.elim
  | crash c => exact ⟨0, _, rfl, .nil le_rfl⟩
  | cont v =>
    rw [hr] at hg
    obtain ⟨hv, hl⟩ := hg
    have hn : v.niter = s.niter := congrArg HLine.niter hl
    have hm : v.ev.nsimul = s.ev.nsimul := congrArg HLine.nsimul hl
    show Wrote s _ (if o.tfail then _ else _)
    have d1 : Inv e [] { v with niter := v.niter + 1 } := { hv with link := fun j hj hp => hv.link j hj hp }
    generalize hu : ({ v with niter := v.niter + 1 } : MSt K F) = u at d1
    have e1 : u.niter = s.niter + 1 := by subst hu; show v.niter + 1 = _; rw [hn]
    have e2 : u.ev.nsimul = s.ev.nsimul := by subst hu; exact hm
    have one : ∀ w : MSt K F, w.niter = u.niter → u.ev.nsimul ≤ w.ev.nsimul → Wrote s [u.line] (.cont w) := by
      intro w a b
      refine ⟨1, by rw [a, e1], ?_, .single _ e2.ge b⟩
      show [u.niter] = _; rw [e1]; rfl
    have fin : ∀ w : MSt K F, w.niter = u.niter → u.ev.nsimul ≤ w.ev.nsimul → (w.ev.flag = 3 ∨ w.ev.flag = 30) →
        Wrote s [u.line] (.ret w) := by
      intro w a b c
      have c' : ¬ twice w.ev.flag := by unfold twice; omega
      refine ⟨1, by rw [a, e1], ?_, .single _ e2.ge b, fun h => ?_⟩
      · rw [if_neg c']
        show [u.niter] = _; rw [e1]; rfl
      · rcases h with h | h
        · omega
        · exact absurd h c'
    dsimp only
    rw [hu]
    split
    · exact fin _ rfl le_rfl (Or.inr rfl)
    · have hp := penalty_line e o u d1
      cases hpr : penalty o u with
      | crash c =>
        obtain ⟨d, -, b, f⟩ := one u rfl le_rfl
        exact ⟨1, u.ev.nsimul, by show [u.niter] = _; rw [e1]; rfl, f⟩
      | ret w =>
        rw [hpr] at hp
        exact fin w (congrArg HLine.niter hp.2) (congrArg HLine.nsimul hp.2).ge (Or.inr hp.1)
      | cont w =>
        rw [hpr] at hp
        have w1 : w.niter = u.niter := congrArg HLine.niter hp.2
        have w2 : w.ev.nsimul = u.ev.nsimul := congrArg HLine.nsimul hp.2
        have ht := evalTrial_sat e o w hp.1
        simp only [PassRes.bind]
        cases her : evalTrial e o w with
        | crash c => exact ⟨1, u.ev.nsimul, by show [u.niter] = _; rw [e1]; rfl, .single _ e2.ge le_rfl⟩
        | ret z =>
          rw [her] at ht
          obtain ⟨-, b, c, -, -, d⟩ := ht
          exact fin z (c.trans w1) (by omega) (Or.inl b)
        | cont z =>
          rw [her] at ht
          obtain ⟨a, b, c, -, -, d⟩ := ht
          exact (one z (c.trans w1) (by omega)).append (decide_wrote e o _ z a b)

theorem rest_wrote (e : Env K F) (he : e.Ok) (o : Orc K F) (s : MSt K F) (h : Inv e [] s) (b : Prop) [Decidable b] :
    Wrote s (if b then improveLines e o s ++ (match improve e o s with
        | .cont s => stepLines e o s
        | _ => []) else stepLines e o s)
      ((if b then improve e o s else .cont s).bind (stepStage e o)) := by
  by_cases hb : b
  · rw [if_pos hb, if_pos hb]
    have hi := improve_wrote e o s
    have hsat := improve_sat e he o s h
    cases hr : improve e o s with
    | cont t =>
      rw [hr] at hi hsat
      exact hi.append (step_wrote e o t hsat.1)
    | ret t => rw [hr] at hi; simp only [List.append_nil]; exact hi
    | crash c => rw [hr] at hi; simp only [List.append_nil]; exact hi
  · rw [if_neg hb, if_neg hb]
    exact step_wrote e o s h

theorem pass_wrote (e : Env K F) (he : e.Ok) (o : Orc K F) (s : MSt K F) (h : Inv e [] s) :
    Wrote s (passLines e o s) (pass e o s) := by
  unfold passLines pass
  split
  · refine ⟨0, rfl, ?_, .single _ le_rfl le_rfl, fun _ => rfl⟩
    show [s.niter] = [] ++ ite (twice 5) [s.niter] []
    rw [if_pos (by decide)]; rfl
  split
  · refine ⟨0, rfl, ?_, .single _ le_rfl le_rfl, fun _ => rfl⟩
    show [s.niter] = [] ++ ite (twice 6) [s.niter] []
    rw [if_pos (by decide)]; rfl
  split
  · exact ⟨0, rfl, rfl, .nil le_rfl, fun h => by simp [Status.failUnexpected, twice] at h⟩
  dsimp only
  have h1 : Inv e [] ({ s.measure o.k1 with ev := { s.ev with flag := Status.success } } : MSt K F) :=
    { h with link := fun j hj hp => h.link j hj hp, flag := rfl }
  have hz : Wrote s [] (.cont ({ s.measure o.k1 with ev := { s.ev with flag := Status.success } } : MSt K F)) :=
    ⟨0, rfl, rfl, .nil le_rfl⟩
  exact hz.append (rest_wrote e he o _ h1 _)

/-- The end of the loop as the end of a stage. -/
def MainRes.toPass : MainRes K F → PassRes K F
  | .done t => .ret t
  | .running t => .cont t
  | .crash c => .crash c

theorem main_wrote (e : Env K F) (he : e.Ok) : ∀ (os : List (Orc K F)) (s : MSt K F), Inv e [] s →
    Wrote s (mainLines e os s) (mainLoop e os s).toPass := by
  intro os
  induction os with
  | nil => intro s _; exact ⟨0, rfl, rfl, .nil le_rfl⟩
  | cons o os ih =>
    intro s h
    have hp := pass_wrote e he o s h
    have hsat := pass_sat e he o s h
    simp only [mainLines, mainLoop]
    cases hr : pass e o s with
    | cont t =>
      rw [hr] at hp hsat
      exact hp.append (ih t hsat.1)
    | ret t => rw [hr] at hp; simp only [List.append_nil]; exact hp
    | crash c => rw [hr] at hp; simp only [List.append_nil]; exact hp

/-- **C92 (main loop).** When the main loop ends, the lines are the history of its final state, whatever the kernels return. -/
theorem C92_loop {e : Env K F} {x0 : List K} {fuel : ℕ} {Δ : K} {sl : List K} {s0 : MSt K F} (H : Starts e x0 fuel Δ sl s0)
    (os : List (Orc K F)) (t : MSt K F) (h : mainLoop e os s0 = .done t) :
    IsHistory e.n t.niter t.ev.nsimul t.ev.flag ⟨t.niter, t.ev.nsimul, t.ev.infoF, t.glagn, t.feasn⟩ (mainLines e os s0) := by
  have hs := H.started
  have hw := main_wrote e H.ok os s0 hs.inv
  rw [h] at hw
  obtain ⟨d, h1, h2, ⟨h3, h4, -⟩, h5⟩ := hw
  rw [hs.niter] at h1 h2
  have hd : d = t.niter := by omega
  subst hd
  exact ⟨h2, h3, fun l hl => ⟨hs.nsimul.trans (h4 l hl).1, (h4 l hl).2⟩, h5⟩

/-- **C92 (interrupted loop).** An exception leaves a history without repetition up to some iteration. -/
theorem C92_interrupted {e : Env K F} {x0 : List K} {fuel : ℕ} {Δ : K} {sl : List K} {s0 : MSt K F} (H : Starts e x0 fuel Δ sl s0)
    (os : List (Orc K F)) (c : Crash) (h : mainLoop e os s0 = .crash c) :
    ∃ d, (mainLines e os s0).map (·.niter) = List.range' 1 d ∧
      (mainLines e os s0).Pairwise (fun l l' => l.nsimul ≤ l'.nsimul) ∧ ∀ l ∈ mainLines e os s0, e.n + 1 ≤ l.nsimul := by
  have hs := H.started
  have hw := main_wrote e H.ok os s0 hs.inv
  rw [h] at hw
  obtain ⟨d, b, h2, h3, h4, -⟩ := hw
  rw [hs.niter] at h2
  exact ⟨d, h2, h3, fun l hl => hs.nsimul.trans (h4 l hl).1⟩

theorem checkArgs_missing {a : Args K} (hw : WellFormed a) (g : Globals K) (h : Missing a) : (checkArgs a g).1 = .ret1 := by
  unfold checkArgs
  cases hf : a.f with
  | missing => rfl
  | notFn => exact absurd hf hw.f
  | fn =>
    dsimp only
    by_cases h2 : a.c = .missing ∧ a.me + a.mi > 0
    · rw [if_pos h2]
    · rw [if_neg h2, if_neg hw.c]
      rcases h with h | h | h
      · rw [hf] at h; cases h
      · exact absurd h h2
      · rw [h]

theorem checkArgs_present {a : Args K} (hw : WellFormed a) (g : Globals K) (h : ¬ Missing a) :
    ∃ r c d lb ub, (checkArgs a g).1 = .ok r c d lb ub := by
  have hf : a.f = .fn := by
    cases hf : a.f with
    | missing => exact absurd (Or.inl hf) h
    | notFn => exact absurd hf hw.f
    | fn => rfl
  have h2 : ¬ (a.c = .missing ∧ 0 < a.me + a.mi) := fun k => h (Or.inr (Or.inl k))
  cases hx : a.x0 with
  | missing => exact absurd (Or.inr (Or.inr hx)) h
  | mat r c d =>
    obtain ⟨L, V, e1, e2, g', hca, -⟩ := checkArgs_ok hw g hf h2 hx
    rw [hca]
    exact ⟨_, _, _, _, _, rfl⟩

/-- **C92 (calls).** What a call with arguments of the right types does with the file: nothing if the objective, the constraints or the
start point is missing; otherwise the file is rewritten.  An early return leaves an empty list; an exception leaves a file without the closing
bracket; a regular end leaves a complete file, with the history if the verbosity in effect is 1, 2 or 3, and without any line otherwise. -/
theorem C92_calls_partial (k : Kernels K F) (hn : ∀ v, 0 ≤ k.nrm v) (ho : ∀ d, SortedDesc d (k.order d)) (U : User (List K) K) (m : ℕ)
    (hC : Counts U m) (fuel : ℕ) (os : List (Orc K F)) (a : Args K) (ex : Extra) (g : Globals K) (hw : WellFormed a) :
    (Missing a → callFile k U fuel os a ex g = none) ∧
    (¬ Missing a → ∃ L b, callFile k U fuel os a ex g = some ⟨L, b⟩) ∧
    (¬ Missing a → ∀ fl w, call k U fuel os a ex g = .early fl w → callFile k U fuel os a ex g = some ⟨[], true⟩) ∧
    (∀ L b, callFile k U fuel os a ex g = some ⟨L, b⟩ → call k U fuel os a ex g = .raised → b = false) ∧
    (∀ L b c, callFile k U fuel os a ex g = some ⟨L, b⟩ → call k U fuel os a ex g = .crash c → b = false) ∧
    (∀ x t, call k U fuel os a ex g = .done x t → ∀ v, EffVerbose (userOpts a.opts) v →
      ∃ L, callFile k U fuel os a ex g = some ⟨L, true⟩ ∧
        (1 ≤ v → v < 4 → IsHistory (boxes a).length t.niter t.ev.nsimul t.ev.flag
          ⟨t.niter, t.ev.nsimul, t.ev.infoF, t.glagn, t.feasn⟩ L) ∧
        (v < 1 ∨ 4 ≤ v → L = [])) := by
  by_cases hM : Missing a
  · have hc := checkArgs_missing hw g hM
    have hnone : callFile k U fuel os a ex g = none := by unfold callFile; rw [hc]
    refine ⟨fun _ => hnone, fun h => absurd hM h, fun h => absurd hM h, ?_, ?_, ?_⟩
    · intro L b h; rw [hnone] at h; cases h
    · intro L b c h; rw [hnone] at h; cases h
    · intro x t h
      obtain ⟨i, e, s0, y, Δ, hi, -⟩ := (call_main k hn ho U m hC fuel os a ex g hw).1 x t h
      obtain ⟨hA, -⟩ := setup_go U _ _ _ _ _ hw i hi
      exact absurd (hM.elim Or.inl fun h => h.elim (fun h => Or.inr (Or.inl h)) fun h => Or.inr (Or.inr (Or.inl h))) hA
  · obtain ⟨r, c, d, lb, ub, hc⟩ := checkArgs_present hw g hM
    have hcf : callFile k U fuel os a ex g = match (setup U k.sqrt k.nrm fuel a g).res with
      | .ret _ => some ⟨[], true⟩
      | .crash => some ⟨[], false⟩
      | .running => some ⟨[], false⟩
      | .go i =>
        match prelimRaise ex i, envOf k U ex i with
        | none, some e =>
          match mainInit e i.Δ i.slacks i.ev with
          | none => some ⟨[], false⟩
          | some s0 => some ⟨if i.opts.prints then mainLines e os s0 else [],
              match mainLoop e os s0 with
              | .done _ => true
              | _ => false⟩
        | _, _ => some ⟨[], false⟩ := by
      unfold callFile; rw [hc]; rfl
    refine ⟨fun h => absurd h hM, fun _ => ?_, fun _ fl w h => ?_, fun L b h h' => ?_, fun L b cr h h' => ?_, ?_⟩
    · rw [hcf]
      repeat' split
      all_goals exact ⟨_, _, rfl⟩
    · rw [hcf]
      cases hs : (setup U k.sqrt k.nrm fuel a g).res with
      | ret fl' => rfl
      | crash => simp [call, hs] at h
      | running => simp [call, hs] at h
      | go i =>
        exfalso
        simp only [call, hs, runMain] at h
        repeat' split at h
        all_goals cases h
    · rw [hcf] at h
      cases hs : (setup U k.sqrt k.nrm fuel a g).res with
      | ret fl' => simp [call, hs] at h'
      | crash => rw [hs] at h; cases h; rfl
      | running => rw [hs] at h; cases h; rfl
      | go i =>
        rw [hs] at h
        dsimp only at h
        simp only [call, hs, runMain] at h'
        cases hp : prelimRaise ex i with
        | some z => rw [hp] at h; cases h; rfl
        | none =>
          cases he : envOf k U ex i with
          | none => rw [hp, he] at h; cases h; rfl
          | some e =>
            rw [hp, he] at h h'
            dsimp only at h h'
            cases hi : mainInit e i.Δ i.slacks i.ev with
            | none => rw [hi] at h; cases h; rfl
            | some s0 =>
              rw [hi] at h h'
              dsimp only at h h'
              cases hm : mainLoop e os s0 with
              | running t => rw [hm] at h; cases h; rfl
              | crash c => rw [hm] at h; cases h; rfl
              | done t =>
                rw [hm] at h'
                dsimp only at h'
                split at h' <;> cases h'
    · obtain ⟨i, e, s0, y, Δ, hi, he, hst, hm⟩ := (call_main k hn ho U m hC fuel os a ex g hw).2 cr h'
      rw [hcf, hi] at h
      simp only [call, hi, runMain] at h'
      dsimp only at h
      cases hp : prelimRaise ex i with
      | some z => rw [hp] at h; cases h; rfl
      | none =>
        rw [hp, he] at h h'
        dsimp only at h h'
        cases hin : mainInit e i.Δ i.slacks i.ev with
        | none => rw [hin] at h; cases h; rfl
        | some s1 =>
          rw [hin] at h h'
          dsimp only at h h'
          cases hm' : mainLoop e os s1 with
          | running t => rw [hm'] at h; cases h; rfl
          | crash c => rw [hm'] at h; cases h; rfl
          | done t =>
            obtain ⟨y', Δ', hst', -⟩ := call_starts k hn ho U m hC fuel a ex g hw i hi e he s1 hin
            obtain ⟨z, -, -, hz, -⟩ := C15_returned_point hst' os t hm'
            rw [hm'] at h'
            dsimp only at h'
            rw [hz] at h'
            cases h'
    · intro x t h v hv
      cases hs : (setup U k.sqrt k.nrm fuel a g).res with
      | ret fl' => simp [call, hs] at h
      | crash => simp [call, hs] at h
      | running => simp [call, hs] at h
      | go i =>
        rw [hcf, hs]
        dsimp only
        simp only [call, hs, runMain] at h
        cases hp : prelimRaise ex i with
        | some z => rw [hp] at h; cases h
        | none =>
          cases he : envOf k U ex i with
          | none => rw [hp, he] at h; cases h
          | some e =>
            rw [hp, he] at h
            dsimp only at h ⊢
            cases hin : mainInit e i.Δ i.slacks i.ev with
            | none => rw [hin] at h; cases h
            | some s1 =>
              rw [hin] at h
              dsimp only at h ⊢
              cases hm' : mainLoop e os s1 with
              | running t => rw [hm'] at h; cases h
              | crash c => rw [hm'] at h; cases h
              | done t' =>
                obtain ⟨y', Δ', hst', -, -, hdim⟩ := call_starts k hn ho U m hC fuel a ex g hw i hs e he s1 hin
                rw [hm'] at h
                dsimp only at h
                split at h
                · cases h
                cases h
                obtain ⟨-, -, hval, -⟩ := setup_go U _ _ _ _ _ hw i hs
                have hve := effVerbose_completion (C02_accepted_complete_legal_faithful hval).1 hv
                have hpr : i.opts.prints = decide (1 ≤ v ∧ v < 4) := by unfold Opts.prints; rw [hve]
                refine ⟨_, rfl, fun v1 v2 => ?_, fun hv' => ?_⟩
                · rw [hpr, if_pos (by simpa using ⟨v1, v2⟩), ← hdim]
                  exact C92_loop hst' os _ hm'
                · rw [hpr, if_neg (by simp; omega)]

/-- Lines and closing bracket of the file. -/
def Ex.fileOf (os : List (Orc ℚ Unit)) (o : Opts) : Option (List (ℕ × ℕ) × Bool) :=
  (callFile Ex.wKern Ex.down 1 os (Ex.wArgs o) Ex.wPlain .fresh).map fun f => (f.lines.map fun l => (l.niter, l.nsimul), f.closed)

/-- A call with the history: three iterations, the last one repeated at the limit of the iterations. -/
example : Ex.fileOf [Ex.orc [1] 1, Ex.orc [2] 1, Ex.orc [3] 1, Ex.orc [4] 1] Ex.wThree =
    some ([(1, 2), (2, 3), (3, 4), (3, 5)], true) := by decide +kernel

/-- `C92_calls_partial` applies to this call. -/
example (x : List ℚ) (t : MSt ℚ Unit) (h : call Ex.wKern Ex.down 1 [Ex.orc [1] 1, Ex.orc [2] 1, Ex.orc [3] 1, Ex.orc [4] 1]
    (Ex.wArgs Ex.wThree) Ex.wPlain .fresh = .done x t) :
    ∃ L, callFile Ex.wKern Ex.down 1 [Ex.orc [1] 1, Ex.orc [2] 1, Ex.orc [3] 1, Ex.orc [4] 1] (Ex.wArgs Ex.wThree) Ex.wPlain .fresh =
      some ⟨L, true⟩ ∧ L.getLast?.map (·.niter) = some t.niter := by
  have hd : Ex.wSummary (call Ex.wKern Ex.down 1 [Ex.orc [1] 1, Ex.orc [2] 1, Ex.orc [3] 1, Ex.orc [4] 1] (Ex.wArgs Ex.wThree)
    Ex.wPlain .fresh) = some (5, 3, 5, [3]) := by decide +kernel
  rw [h] at hd
  simp only [Ex.wSummary, Option.some.injEq, Prod.mk.injEq] at hd
  obtain ⟨L, h1, h2, -⟩ := (C92_calls_partial Ex.wKern Ex.nrm1_nonneg Ex.descOrder_sorted Ex.down 0
    ⟨fun _ => rfl, fun c h => by cases h⟩ 1 _ _ Ex.wPlain .fresh (Ex.wArgs_wellFormed _ Ex.wThree_typed)).2.2.2.2.2 x t h 1
    (Or.inr ⟨rfl, fun _ h => by cases h⟩)
  refine ⟨L, h1, ?_⟩
  rw [(h2 le_rfl (by norm_num)).last (Or.inr (Or.inl hd.1))]
  rfl

/-- **C92 is false as stated.** Verbosity 0 does not leave the file alone (a complete file without lines replaces the old content), the
same file comes from verbosity 4 although the iterations are printed on the screen, and the last iteration of a call that stops at
the limit of the iterations has two lines. -/
theorem C92_false : ∃ os : List (Orc ℚ Unit),
    Ex.fileOf os { Ex.wThree with verbose := some 0 } = some ([], true) ∧
    Ex.fileOf os { Ex.wThree with verbose := some 4 } = some ([], true) ∧
    Ex.fileOf os { Ex.wThree with verbose := some 1 } = some ([(1, 2), (2, 3), (3, 4), (3, 5)], true) ∧
    Ex.wSummary (call Ex.wKern Ex.down 1 os (Ex.wArgs { Ex.wThree with verbose := some 0 }) Ex.wPlain .fresh) = some (5, 3, 5, [3]) ∧
    Ex.wSummary (call Ex.wKern Ex.down 1 os (Ex.wArgs { Ex.wThree with verbose := some 4 }) Ex.wPlain .fresh) = some (5, 3, 5, [3]) :=
  ⟨[Ex.orc [1] 1, Ex.orc [2] 1, Ex.orc [3] 1, Ex.orc [4] 1], by decide +kernel, by decide +kernel, by decide +kernel,
    by decide +kernel, by decide +kernel⟩

/-- A failed objective during the sampling: an empty list, closed. -/
example : ((callFile Ex.wKern ⟨fun _ _ => .raised, none⟩ 1 [] (Ex.wArgs Ex.wThree) Ex.wPlain .fresh).map
    fun f => (f.lines.length, f.closed)) = some (0, true) := by decide +kernel

/-- A missing start point: the file is left alone. -/
example : (callFile Ex.wKern Ex.down 1 [] { Ex.wArgs Ex.wThree with x0 := .missing } Ex.wPlain .fresh).isNone = true := by decide +kernel

end Sqpdfo

#print axioms Sqpdfo.C92_loop
#print axioms Sqpdfo.C92_interrupted
#print axioms Sqpdfo.C92_calls_partial
#print axioms Sqpdfo.C92_false
