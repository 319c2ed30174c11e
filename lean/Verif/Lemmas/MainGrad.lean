import Verif.Lemmas.MainLog

/-! # The model gradients belong to the current interpolation set -/

set_option linter.unusedSectionVars false

namespace Sqpdfo
open Spec
variable {K F : Type} [Field K] [LinearOrder K] [IsStrictOrderedRing K]

/-- The factorisation is that of the points. -/
def Built (e : Env K F) (s : MSt K F) : Prop := s.set.fac = e.build s.set.Y

/-- Factorisation, `gx` and `info.g` belong to the current set. -/
structure Fresh (e : Env K F) (s : MSt K F) : Prop where
  fac : s.set.fac = e.build s.set.Y
  gx : s.gx = e.model s.set.fac s.x s.set.fY s.set.ceY
  info : s.infoG = s.gx

theorem fresh_new {e : Env K F} {s : MSt K F} (h : Built e s) : Fresh e (s.newGx e).storeG := ⟨h, rfl, rfl⟩

/-- Two states with the same set, base point and gradients. -/
structure SameG (s t : MSt K F) : Prop where
  set : t.set = s.set
  x : t.x = s.x
  gx : t.gx = s.gx
  info : t.infoG = s.infoG

theorem SameG.refl (s : MSt K F) : SameG s s := ⟨rfl, rfl, rfl, rfl⟩

theorem SameG.trans {s t u : MSt K F} (h : SameG s t) (h' : SameG t u) : SameG s u :=
  ⟨h'.set.trans h.set, h'.x.trans h.x, h'.gx.trans h.gx, h'.info.trans h.info⟩

theorem Fresh.same {e : Env K F} {s t : MSt K F} (h : Fresh e s) (g : SameG s t) : Fresh e t :=
  ⟨by rw [g.set]; exact h.fac, by rw [g.set, g.x, g.gx]; exact h.gx, by rw [g.info, g.gx]; exact h.info⟩

theorem swapInY_built {P C : Type} [DecidableEq C] (build : List P → F) (i j : ℕ) (s t : IntSet P C F K)
    (hs : s.fac = build s.Y) (h : swapInY build i j s = some t) : t.fac = build t.Y := by
  unfold swapInY at h
  split at h
  · cases h; exact hs
  · dsimp only at h
    split at h
    · cases h; rfl
    · cases h

theorem findSmallf_built {P C : Type} [DecidableEq C] (build : List P → F) (c : Option ℕ)
    (t u : SmallfSt P C F K) (ht : t.s.fac = build t.s.Y) (h : findSmallf build c t = some u) :
    u.s.fac = build u.s.Y := by
  unfold findSmallf at h
  split at h
  · split at h
    · cases h
    · rename_i hs
      split at h
      · cases h; exact swapInY_built build _ _ _ _ ht hs
      · cases h
  · split at h
    · cases h; exact ht
    · cases h

theorem includeInY_built {P : Type} (dist : P → P → K) (build : List P → F) (lval : ℕ → K) (choice : List ℕ)
    (thr : K) (crit : Crit) (x ref : P) (Y : List P) (fac : F) (h : fac = build Y) :
    (includeInY dist build lval choice thr crit x ref Y fac).2.2 =
      build (includeInY dist build lval choice thr crit x ref Y fac).2.1 := by
  unfold includeInY
  split
  · exact h
  · dsimp only
    split
    · exact h
    · split
      · exact h
      · rfl

theorem augmentY_built (e : Env K F) (x : List K) (Y : List (List K)) :
    (augmentY e x Y).2.2 = e.build (augmentY e x Y).2.1 := by
  unfold augmentY
  split <;> rfl

theorem farLoop_built {P : Type} (dist : P → P → K) (build : List P → F) (propose : F → List P → ℕ → P × K)
    (thr : K) : ∀ (l : List (ℕ × K)) (st : RepSt P F K), st.fac = build st.Y →
      (farLoop dist build propose thr l st).fac = build (farLoop dist build propose thr l st).Y := by
  intro l
  induction l with
  | nil => intro st h; exact h
  | cons a l ih =>
    intro st h
    obtain ⟨j, dj⟩ := a
    simp only [farLoop]
    split
    · exact ih _ rfl
    · exact h

theorem rounds_built {P : Type} (dist : P → P → K) (build : List P → F) (propose : F → List P → ℕ → P × K)
    (thr : K) : ∀ (k r : ℕ) (last : K) (st : RepSt P F K), st.fac = build st.Y →
      (rounds dist build propose thr k r last st).st.fac =
        build (rounds dist build propose thr k r last st).st.Y := by
  intro k
  induction k with
  | zero => intro r last st h; exact h
  | succ k ih =>
    intro r last st h
    simp only [rounds]
    split
    · exact h
    · split
      · exact h
      · exact ih _ _ _ rfl

theorem repairY_built {P : Type} (dist : P → P → K) (build : List P → F) (propose : F → List P → ℕ → P × K)
    (thr far : K) (order : List ℕ) (Y : List P) (fac : F) (h : fac = build Y) :
    (repairY dist build propose thr far order Y fac).st.fac =
      build (repairY dist build propose thr far order Y fac).st.Y :=
  rounds_built _ _ _ _ _ _ _ _ (farLoop_built _ _ _ _ _ _ h)

/-! ### The improvement block -/

theorem evalReplaced_built (e : Env K F) : ∀ (js : List ℕ) (s : MSt K F), Built e s →
    (evalReplaced e js s).Sat (Built e) (fun _ => False) (fun _ => True) := by
  intro js
  induction js with
  | nil => intro s h; exact h
  | cons j js ih =>
    intro s h
    simp only [evalReplaced]
    split
    · split
      · trivial
      · split
        · trivial
        · split
          · trivial
          · split
            · split
              · trivial
              · exact ih _ h
            · exact ih _ h
    · trivial

theorem callSmallf_built (e : Env K F) (s : MSt K F) (h : Built e s) :
    (callSmallf e s).Sat (Built e) (fun _ => False) (fun _ => True) := by
  unfold callSmallf
  split
  · trivial
  · dsimp only
    split
    · trivial
    · rename_i t ht
      split
      · trivial
      · exact findSmallf_built e.build _ ⟨s.set, s.fx, s.ixbest, s.fx⟩ t h ht

theorem improveEnd_same (e : Env K F) (k : Meas K) (r : K) (s : MSt K F) :
    (improveEnd e k r s).Sat (SameG s) (SameG s) (fun _ => True) := by
  unfold improveEnd
  split
  · exact ⟨rfl, rfl, rfl, rfl⟩
  · dsimp only
    split <;> exact ⟨rfl, rfl, rfl, rfl⟩

theorem repairStage_fresh (e : Env K F) (o : Orc K F) (radius : K) (s : MSt K F) (h : Built e s) :
    (repairStage e o radius s).Sat (Fresh e) (Fresh e) (fun _ => True) := by
  unfold repairStage
  dsimp only
  have hp := repairY_built e.dist e.build o.propose (6 / 5)
    ((if o.normgx ≤ cEps ∨ s.pred = -1 then 1 else 10) * (1 + cEpsL) * radius)
    (e.order (dists e.dist s.set.Y)) s.set.Y s.set.fac h
  generalize repairY e.dist e.build o.propose (6 / 5)
    ((if o.normgx ≤ cEps ∨ s.pred = -1 then 1 else 10) * (1 + cEpsL) * radius)
    (e.order (dists e.dist s.set.Y)) s.set.Y s.set.fac = r at *
  refine PassRes.Sat.bind (Q := Built e) ?_ ?_
  · refine PassRes.Sat.bind (Q := Built e) ?_ ?_
    · refine (evalReplaced_built e _ _ ?_).mono (fun _ h => h) (fun _ h => h.elim) (fun _ h => h)
      exact hp
    · intro t ht
      exact (callSmallf_built e t ht).mono (fun _ h => h) (fun _ h => h.elim) (fun _ h => h)
  · intro t ht
    have hf := fresh_new ht
    exact (improveEnd_same e _ _ _).mono (fun _ h => hf.same h) (fun _ h => hf.same h) (fun _ h => h)

theorem improve_fresh (e : Env K F) (o : Orc K F) (s : MSt K F) (h : Fresh e s) :
    (improve e o s).Sat (Fresh e) (Fresh e) (fun _ => True) := by
  unfold improve
  split
  · dsimp only
    split
    · exact h.same ⟨rfl, rfl, rfl, rfl⟩
    · split
      · exact h.same ⟨rfl, rfl, rfl, rfl⟩
      · exact repairStage_fresh e o _ _ h.fac
  · trivial

theorem beforeStep_fresh (e : Env K F) (o : Orc K F) (s : MSt K F) (h : Fresh e s) :
    (beforeStep e o s).Sat (Fresh e) (Fresh e) (fun _ => True) := by
  unfold beforeStep
  split
  · exact h.same ⟨rfl, rfl, rfl, rfl⟩
  · split
    · exact h.same ⟨rfl, rfl, rfl, rfl⟩
    · split
      · exact h.same ⟨rfl, rfl, rfl, rfl⟩
      · dsimp only
        split
        · exact improve_fresh e o _ (h.same ⟨rfl, rfl, rfl, rfl⟩)
        · exact h.same ⟨rfl, rfl, rfl, rfl⟩

/-! ### The step -/

theorem globalise_same (e : Env K F) (s : MSt K F) :
    (globalise e s).Sat (SameG s) (SameG s) (fun _ => True) := by
  unfold globalise
  split
  · exact SameG.refl s
  · split
    · trivial
    · split
      · trivial
      · exact ⟨rfl, rfl, rfl, rfl⟩

theorem penalty_same (o : Orc K F) (s : MSt K F) :
    (penalty o s).Sat (SameG s) (SameG s) (fun _ => True) := by
  unfold penalty
  split
  · dsimp only
    split <;> exact ⟨rfl, rfl, rfl, rfl⟩
  · exact SameG.refl s

theorem evalTrial_same (e : Env K F) (o : Orc K F) (s : MSt K F) :
    (evalTrial e o s).Sat (SameG s) (SameG s) (fun _ => True) := by
  unfold evalTrial
  dsimp only
  split
  · trivial
  · split
    · exact ⟨rfl, rfl, rfl, rfl⟩
    · split
      · split
        · trivial
        · split
          · trivial
          · exact ⟨rfl, rfl, rfl, rfl⟩
      · exact ⟨rfl, rfl, rfl, rfl⟩

theorem accepted_fresh (e : Env K F) (o : Orc K F) (a b c : K) (pos : ℕ) (s : MSt K F) (h : Built e s) :
    (accepted e o a b c pos s).Sat (Fresh e) (Fresh e) (fun _ => True) := by
  unfold accepted
  dsimp only
  split
  · trivial
  · split
    · trivial
    · rename_i t ht
      split
      · trivial
      · refine fresh_new (swapInY_built e.build _ _ _ _ ?_ ht)
        split <;> exact h

/-- The set and `gx` are up to date; `info.g` need not be. -/
structure Half (e : Env K F) (s : MSt K F) : Prop where
  fac : s.set.fac = e.build s.set.Y
  gx : s.gx = e.model s.set.fac s.x s.set.fY s.set.ceY

theorem replaceAt_half (e : Env K F) (o : Orc K F) (a b c : K) (pos : ℕ) (s : MSt K F) (h : Built e s) :
    (replaceAt e o a b c pos s).Sat (Half e) (Fresh e) (fun _ => True) := by
  unfold replaceAt
  dsimp only
  split
  · trivial
  · split
    · split
      · trivial
      · rename_i t ht
        split
        · trivial
        · have h1 := swapInY_built e.build _ _ _ t (by exact h) ht
          exact ⟨h1, rfl⟩
    · exact ⟨h, rfl⟩

theorem augmentRejected_half (e : Env K F) (o : Orc K F) (a : K) (s : MSt K F) :
    (augmentRejected e o a s).Sat (Half e) (Fresh e) (fun _ => True) := by
  unfold augmentRejected
  dsimp only
  split
  · trivial
  · exact ⟨augmentY_built e _ _, rfl⟩

theorem restoreF_fresh {e : Env K F} {r : PassRes K F} (h : r.Sat (Half e) (Fresh e) (fun _ => True)) :
    (r.bind fun s => .cont s.restoreF).Sat (Fresh e) (Fresh e) (fun _ => True) :=
  PassRes.Sat.bind h fun _ h => ⟨h.fac, h.gx, rfl⟩

theorem reduce_fresh (e : Env K F) (o : Orc K F) (a b : K) (s : MSt K F) (h : Fresh e s) :
    (reduce e o a b s).Sat (Fresh e) (Fresh e) (fun _ => True) := by
  unfold reduce
  dsimp only
  split
  · exact h.same ⟨rfl, rfl, rfl, rfl⟩
  · exact ⟨h.fac, h.gx, rfl⟩

theorem replaceOrReduce_fresh (e : Env K F) (o : Orc K F) (a b c : K) (s : MSt K F) (h : Fresh e s) :
    (replaceOrReduce e o a b c s).Sat (Fresh e) (Fresh e) (fun _ => True) := by
  unfold replaceOrReduce
  split
  · dsimp only
    split
    · exact restoreF_fresh (replaceAt_half e o a b c _ _ (includeInY_built _ _ _ _ _ _ _ _ _ _ h.fac))
    · split
      · exact restoreF_fresh (replaceAt_half e o a b c _ _ (includeInY_built _ _ _ _ _ _ _ _ _ _ h.fac))
      · exact reduce_fresh e o a c s h
  · exact reduce_fresh e o a c s h

theorem rejectStep_fresh (e : Env K F) (o : Orc K F) (a b c : K) (s : MSt K F) (h : Fresh e s) :
    (rejectStep e o a b c s).Sat (Fresh e) (Fresh e) (fun _ => True) := by
  unfold rejectStep
  dsimp only
  split
  · exact restoreF_fresh (augmentRejected_half e o a _)
  · exact replaceOrReduce_fresh e o a b c _ (h.same ⟨rfl, rfl, rfl, rfl⟩)

theorem decideStep_fresh (e : Env K F) (o : Orc K F) (norms : K) (s : MSt K F) (h : Fresh e s) :
    (decideStep e o norms s).Sat (Fresh e) (Fresh e) (fun _ => True) := by
  unfold decideStep
  split
  · trivial
  · split
    · trivial
    · dsimp only
      split
      · exact h.same ⟨rfl, rfl, rfl, rfl⟩
      · split
        · split
          · exact h.same ⟨rfl, rfl, rfl, rfl⟩
          · split
            · exact accepted_fresh e o _ _ _ _ _ (augmentY_built e _ _)
            · split
              · exact accepted_fresh e o _ _ _ _ _ (includeInY_built _ _ _ _ _ _ _ _ _ _ h.fac)
              · exact rejectStep_fresh e o _ _ _ _ (h.same ⟨rfl, rfl, rfl, rfl⟩)
        · exact rejectStep_fresh e o _ _ _ _ (h.same ⟨rfl, rfl, rfl, rfl⟩)

theorem stepStage_fresh (e : Env K F) (o : Orc K F) (s : MSt K F) (h : Fresh e s) :
    (stepStage e o s).Sat (Fresh e) (Fresh e) (fun _ => True) := by
  unfold stepStage
  refine PassRes.Sat.bind (Q := Fresh e)
    ((globalise_same e s).mono (fun _ g => h.same g) (fun _ g => h.same g) (fun _ h => h)) ?_
  intro t ht
  dsimp only
  split
  · exact ht.same ⟨rfl, rfl, rfl, rfl⟩
  · have ht' : Fresh e { t with niter := t.niter + 1 } := ht.same ⟨rfl, rfl, rfl, rfl⟩
    refine PassRes.Sat.bind (Q := Fresh e) ?_ (fun u hu => decideStep_fresh e o _ u hu)
    refine PassRes.Sat.bind (Q := Fresh e)
      ((penalty_same o _).mono (fun _ g => ht'.same g) (fun _ g => ht'.same g) (fun _ h => h)) ?_
    intro u hu
    exact (evalTrial_same e o u).mono (fun _ g => hu.same g) (fun _ g => hu.same g) (fun _ h => h)

theorem pass_fresh (e : Env K F) (o : Orc K F) (s : MSt K F) (h : Fresh e s) :
    (pass e o s).Sat (Fresh e) (Fresh e) (fun _ => True) := by
  rw [pass_eq]
  exact PassRes.Sat.bind (beforeStep_fresh e o s h) fun t ht => stepStage_fresh e o t ht

theorem mainInit_fresh (e : Env K F) (D : K) (sl : List K) (ev : EvSt (List K) K) (s : MSt K F)
    (h : mainInit e D sl ev = some s) : Fresh e s := by
  unfold mainInit at h
  split at h
  · split at h
    · cases h
    · cases h; exact ⟨rfl, rfl, rfl⟩
  · cases h

theorem startState_fresh (e : Env K F) (x0 : List K) (fuel : ℕ) (Δ : K) (sl : List K) (s : MSt K F)
    (h : startState e x0 fuel Δ sl = some s) : Fresh e s := by
  unfold startState at h
  split at h
  · exact mainInit_fresh e _ _ _ _ h
  · cases h

/-- Every state reached, and the one returned, is fresh. -/
theorem mainLoop_fresh (e : Env K F) : ∀ (os : List (Orc K F)) (s : MSt K F), Fresh e s →
    ∀ t, mainLoop e os s = .running t ∨ mainLoop e os s = .done t → Fresh e t := by
  intro os
  induction os with
  | nil =>
    rintro s h t (ht | ht)
    · cases ht; exact h
    · cases ht
  | cons o os ih =>
    intro s h t ht
    have hp := pass_fresh e o s h
    simp only [mainLoop] at ht
    cases hr : pass e o s with
    | cont u => rw [hr] at hp ht; exact ih u hp t ht
    | ret u =>
      rw [hr] at hp ht
      rcases ht with ht | ht
      · cases ht
      · cases ht; exact hp
    | crash c => rw [hr] at ht; rcases ht with ht | ht <;> cases ht

end Sqpdfo
