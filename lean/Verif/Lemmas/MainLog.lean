import Verif.Lemmas.MainBefore

/-! # Which points are evaluated in a pass -/

set_option linter.unusedSectionVars false

namespace Sqpdfo
open Spec
variable {K F : Type} [Field K] [LinearOrder K] [IsStrictOrderedRing K]

/-- From `w` to `w'` the user's functions were called at the points `l` and no others. -/
structure Grew {P : Type} (w w' : World P) (l : List P) : Prop where
  logF : w'.logF = w.logF ++ l
  logC : ∀ y ∈ w'.logC, y ∈ w.logC ∨ y ∈ l

theorem Grew.refl {P : Type} (w : World P) : Grew w w [] := ⟨by simp, fun _ h => Or.inl h⟩

theorem Grew.trans {P : Type} {w w' w'' : World P} {l l' : List P} (h : Grew w w' l) (h' : Grew w' w'' l') :
    Grew w w'' (l ++ l') :=
  ⟨by rw [h'.logF, h.logF, List.append_assoc], fun y hy => by
    rcases h'.logC y hy with hy | hy
    · rcases h.logC y hy with hy | hy
      · exact Or.inl hy
      · exact Or.inr (List.mem_append_left _ hy)
    · exact Or.inr (List.mem_append_right _ hy)⟩

theorem augmX_grew {P : Type} (U : User P K) (fx : Fl K) (y : P) (m : ℕ) (s s' : EvSt P K)
    (h : augmX U fx y m s = some s') : Grew s.w s'.w [y] := by
  have hw : Grew s.w (sqpdfoFunc U y s.w).2 [y] := by
    refine ⟨(sqpdfoFunc_spec U y s.w).1, fun z hz => ?_⟩
    unfold sqpdfoFunc at hz
    dsimp only at hz
    split at hz
    · exact Or.inl hz
    · split at hz <;> simpa using hz
  simp only [augmX] at h
  split at h
  · cases h
  · cases h
  · repeat' split at h
    all_goals
      simp only [Option.some.injEq] at h
      subst h
      exact hw

theorem evalReplaced_grew (e : Env K F) : ∀ (js : List ℕ) (s : MSt K F),
    (evalReplaced e js s).Sat
      (fun t => t.x = s.x ∧ ∃ l, Grew s.ev.w t.ev.w l ∧ ∀ y ∈ l, ∃ j ∈ js, s.set.Y[j]? = some y)
      (fun _ => False) (fun _ => True) := by
  intro js
  induction js with
  | nil => intro s; exact ⟨rfl, [], Grew.refl _, by simp⟩
  | cons j js ih =>
    intro s
    have step : ∀ (t : MSt K F) (y : List K), t.x = s.x → t.set.Y = s.set.Y → s.set.Y[j]? = some y →
        Grew s.ev.w t.ev.w [y] →
        (evalReplaced e js t).Sat
          (fun t => t.x = s.x ∧ ∃ l, Grew s.ev.w t.ev.w l ∧ ∀ y ∈ l, ∃ i ∈ j :: js, s.set.Y[i]? = some y)
          (fun _ => False) (fun _ => True) := by
      intro t y hx hY hy hg
      refine (ih t).mono ?_ (fun _ h => h) (fun _ h => h)
      rintro u ⟨h1, l, h2, h3⟩
      refine ⟨h1.trans hx, y :: l, hg.trans h2, fun z hz => ?_⟩
      rcases List.mem_cons.1 hz with rfl | hz
      · exact ⟨j, by simp, hy⟩
      · obtain ⟨i, hi, h⟩ := h3 z hz
        exact ⟨i, by simp [hi], by rw [← hY]; exact h⟩
    simp only [evalReplaced]
    split
    · rename_i y i hy hi
      cases ha : augmX e.U (.fin big) y (s.m + 1) s.ev with
      | none => trivial
      | some ev =>
        have hg := augmX_grew _ _ _ _ _ _ ha
        simp only
        split
        · trivial
        · split
          · trivial
          · split
            · split
              · trivial
              · exact step _ y rfl rfl hy hg
            · exact step _ y rfl rfl hy hg
    · trivial

theorem callSmallf_w (e : Env K F) (s : MSt K F) :
    (callSmallf e s).Sat (fun t => t.ev.w = s.ev.w) (fun _ => False) (fun _ => True) := by
  unfold callSmallf
  split
  · trivial
  · dsimp only
    split
    · trivial
    · split
      · trivial
      · rfl

theorem improveEnd_w (e : Env K F) (k : Meas K) (r : K) (s : MSt K F) :
    (improveEnd e k r s).Sat (fun t => t.ev.w = s.ev.w) (fun t => t.ev.w = s.ev.w) (fun _ => True) := by
  unfold improveEnd
  split
  · rfl
  · dsimp only
    split <;> rfl

/-- A point proposed by the improvement procedure. -/
def Orc.Proposed (o : Orc K F) (y : List K) : Prop := ∃ fac Y j, y = (o.propose fac Y j).1

/-- Reported points of the repair are proposals. -/
def RepProp {P : Type} (propose : F → List P → ℕ → P × K) (st : RepSt P F K) : Prop :=
  ∀ j ∈ st.replaced, ∀ y, st.Y[j]? = some y → ∃ fac Y i, y = (propose fac Y i).1

theorem RepProp.put {P : Type} (dist : P → P → K) (build : List P → F) {propose : F → List P → ℕ → P × K}
    {st : RepSt P F K} (h : RepProp propose st) (j : ℕ) (y : P) (hy : ∃ fac Y i, y = (propose fac Y i).1)
    (r : List ℕ) (hr : ∀ i ∈ r, i ∈ st.replaced ∨ i = j) : RepProp propose (st.put dist build j y r) := by
  intro i hi z hz
  simp only [RepSt.put] at hz
  by_cases hij : i = j
  · subst hij
    rw [List.getElem?_set] at hz
    simp only [if_true] at hz
    split at hz
    · simp only [Option.some.injEq] at hz
      rw [← hz]; exact hy
    · cases hz
  · rw [List.getElem?_set_ne (Ne.symm hij)] at hz
    exact h i ((hr i hi).resolve_right hij) z hz

theorem farLoop_prop {P : Type} (dist : P → P → K) (build : List P → F) (propose : F → List P → ℕ → P × K)
    (thr : K) : ∀ (l : List (ℕ × K)) (st : RepSt P F K), RepProp propose st →
      RepProp propose (farLoop dist build propose thr l st) := by
  intro l
  induction l with
  | nil => intro st h; exact h
  | cons a l ih =>
    intro st h
    obtain ⟨j, dj⟩ := a
    simp only [farLoop]
    split
    · exact ih _ (h.put dist build j _ ⟨_, _, _, rfl⟩ _ (fun i hi => by simpa using hi))
    · exact h

theorem bestRepl_prop {P : Type} (prop : ℕ → P × K) : ∀ (l : List ℕ) (b : Option (ℕ × P)) (m : K),
    (∀ j y, b = some (j, y) → ∃ i, y = (prop i).1) →
    ∀ j y, (bestRepl prop l b m).1 = some (j, y) → ∃ i, y = (prop i).1 := by
  intro l
  induction l with
  | nil => intro b m h j y hj; exact h j y hj
  | cons a l ih =>
    intro b m h j y hj
    simp only [bestRepl] at hj
    split at hj
    · refine ih _ _ ?_ j y hj
      intro i z hz
      simp only [Option.some.injEq, Prod.mk.injEq] at hz
      exact ⟨a, hz.2.symm⟩
    · exact ih _ _ h j y hj

theorem rounds_prop {P : Type} (dist : P → P → K) (build : List P → F) (propose : F → List P → ℕ → P × K)
    (thr : K) : ∀ (k r : ℕ) (last : K) (st : RepSt P F K), RepProp propose st →
      RepProp propose (rounds dist build propose thr k r last st).st := by
  intro k
  induction k with
  | zero => intro r last st h; exact h
  | succ k ih =>
    intro r last st h
    simp only [rounds]
    split
    · exact h
    · rename_i j y hb
      split
      · exact h
      · refine ih _ _ _ (h.put dist build j y ?_ _ ?_)
        · obtain ⟨i, hi⟩ := bestRepl_prop _ _ _ _ (fun _ _ h => by cases h) j y hb
          exact ⟨_, _, i, hi⟩
        · intro i hi
          split at hi
          · exact Or.inl hi
          · simpa using hi

theorem repairY_prop {P : Type} (dist : P → P → K) (build : List P → F) (propose : F → List P → ℕ → P × K)
    (thr far : K) (order : List ℕ) (Y : List P) (fac : F) :
    RepProp propose (repairY dist build propose thr far order Y fac).st :=
  rounds_prop _ _ _ _ _ _ _ _ (farLoop_prop _ _ _ _ _ _ (fun _ h => by simp at h))

/-- The improvement block evaluates proposals only. -/
def ImprovedBy (o : Orc K F) (s t : MSt K F) : Prop :=
  ∃ l, Grew s.ev.w t.ev.w l ∧ ∀ y ∈ l, o.Proposed y

theorem ImprovedBy.same {o : Orc K F} {s t : MSt K F} (h : t.ev.w = s.ev.w) : ImprovedBy o s t :=
  ⟨[], by rw [h]; exact Grew.refl _, by simp⟩

theorem repairStage_grew (e : Env K F) (o : Orc K F) (radius : K) (s : MSt K F) :
    (repairStage e o radius s).Sat (ImprovedBy o s) (ImprovedBy o s) (fun _ => True) := by
  unfold repairStage
  dsimp only
  have hp := repairY_prop e.dist e.build o.propose (6 / 5)
    ((if o.normgx ≤ cEps ∨ s.pred = -1 then 1 else 10) * (1 + cEpsL) * radius)
    (e.order (dists e.dist s.set.Y)) s.set.Y s.set.fac
  generalize repairY e.dist e.build o.propose (6 / 5)
    ((if o.normgx ≤ cEps ∨ s.pred = -1 then 1 else 10) * (1 + cEpsL) * radius)
    (e.order (dists e.dist s.set.Y)) s.set.Y s.set.fac = r at *
  refine PassRes.Sat.bind (Q := ImprovedBy o s) ?_ ?_
  · refine PassRes.Sat.bind (Q := ImprovedBy o s) ?_ ?_
    · refine (evalReplaced_grew e _ _).mono ?_ (fun _ h => h.elim) (fun _ h => h)
      rintro t ⟨-, l, h1, h2⟩
      refine ⟨l, h1, fun y hy => ?_⟩
      obtain ⟨j, hj, h⟩ := h2 y hy
      exact hp j hj y h
    · rintro t ⟨l, h1, h2⟩
      refine (callSmallf_w e t).mono ?_ (fun _ h => h.elim) (fun _ h => h)
      intro u hu
      exact ⟨l, by rw [hu]; exact h1, h2⟩
  · rintro t ⟨l, h1, h2⟩
    refine (improveEnd_w e _ _ (t.newGx e).storeG).mono ?_ ?_ (fun _ h => h) <;>
    · intro u hu
      exact ⟨l, by rw [hu]; exact h1, h2⟩

theorem improve_grew (e : Env K F) (o : Orc K F) (s : MSt K F) :
    (improve e o s).Sat (ImprovedBy o s) (ImprovedBy o s) (fun _ => True) := by
  unfold improve
  split
  · dsimp only
    split
    · exact ImprovedBy.same rfl
    · split
      · exact ImprovedBy.same rfl
      · exact repairStage_grew e o _ _
  · trivial

/-! ### The step -/

/-- Same log. -/
abbrev SameW (s t : MSt K F) : Prop := t.ev.w = s.ev.w

theorem globalise_w (e : Env K F) (s : MSt K F) :
    (globalise e s).Sat (fun t => SameW s t ∧ t.x = s.x) (fun _ => False) (fun _ => True) := by
  unfold globalise
  split
  · exact ⟨rfl, rfl⟩
  · split
    · trivial
    · split
      · trivial
      · exact ⟨rfl, rfl⟩

theorem penalty_w (o : Orc K F) (s : MSt K F) :
    (penalty o s).Sat (fun t => SameW s t ∧ t.x = s.x) (SameW s) (fun _ => True) := by
  unfold penalty
  split
  · dsimp only
    split
    · rfl
    · exact ⟨rfl, rfl⟩
  · exact ⟨rfl, rfl⟩

theorem evalTrial_grew (e : Env K F) (o : Orc K F) (s : MSt K F) :
    (evalTrial e o s).Sat (fun t => Grew s.ev.w t.ev.w [o.xnew]) (fun t => Grew s.ev.w t.ev.w [o.xnew])
      (fun _ => True) := by
  unfold evalTrial
  dsimp only
  cases ha : augmX e.U (.fin big) o.xnew (s.m + 1) s.ev with
  | none => trivial
  | some ev =>
    have hg := augmX_grew _ _ _ _ _ _ ha
    dsimp only
    split
    · exact hg
    · split
      · split
        · trivial
        · split
          · trivial
          · exact hg
      · exact hg

theorem accepted_w (e : Env K F) (o : Orc K F) (a b c : K) (pos : ℕ) (s : MSt K F) :
    (accepted e o a b c pos s).Sat (SameW s) (SameW s) (fun _ => True) := by
  unfold accepted
  dsimp only
  split
  · trivial
  · split
    · trivial
    · split
      · trivial
      · rfl

theorem replaceAt_w (e : Env K F) (o : Orc K F) (a b c : K) (pos : ℕ) (s : MSt K F) :
    (replaceAt e o a b c pos s).Sat (SameW s) (SameW s) (fun _ => True) := by
  unfold replaceAt
  dsimp only
  split
  · trivial
  · split
    · split
      · trivial
      · split
        · trivial
        · rfl
    · rfl

theorem reduce_w (e : Env K F) (o : Orc K F) (a b : K) (s : MSt K F) :
    (reduce e o a b s).Sat (SameW s) (SameW s) (fun _ => True) := by
  unfold reduce
  dsimp only
  split <;> rfl

theorem augmentRejected_w (e : Env K F) (o : Orc K F) (a : K) (s : MSt K F) :
    (augmentRejected e o a s).Sat (SameW s) (SameW s) (fun _ => True) := by
  unfold augmentRejected
  dsimp only
  split
  · trivial
  · rfl

theorem restoreF_w {s : MSt K F} {r : PassRes K F} (h : r.Sat (SameW s) (SameW s) (fun _ => True)) :
    (r.bind fun s => .cont s.restoreF).Sat (SameW s) (SameW s) (fun _ => True) :=
  PassRes.Sat.bind h fun _ h => h

theorem replaceOrReduce_w (e : Env K F) (o : Orc K F) (a b c : K) (s : MSt K F) :
    (replaceOrReduce e o a b c s).Sat (SameW s) (SameW s) (fun _ => True) := by
  unfold replaceOrReduce
  split
  · dsimp only
    split
    · exact restoreF_w (replaceAt_w e o a b c _ _)
    · split
      · exact restoreF_w (replaceAt_w e o a b c _ _)
      · exact reduce_w e o a c s
  · exact reduce_w e o a c s

theorem rejectStep_w (e : Env K F) (o : Orc K F) (a b c : K) (s : MSt K F) :
    (rejectStep e o a b c s).Sat (SameW s) (SameW s) (fun _ => True) := by
  unfold rejectStep
  dsimp only
  split
  · exact restoreF_w (augmentRejected_w e o a _)
  · exact replaceOrReduce_w e o a b c _

theorem decideStep_w (e : Env K F) (o : Orc K F) (norms : K) (s : MSt K F) :
    (decideStep e o norms s).Sat (SameW s) (SameW s) (fun _ => True) := by
  unfold decideStep
  split
  · trivial
  · split
    · trivial
    · dsimp only
      split
      · rfl
      · split
        · split
          · rfl
          · split
            · exact accepted_w e o _ _ _ _ _
            · split
              · exact accepted_w e o _ _ _ _ _
              · exact rejectStep_w e o _ _ _ _
        · exact rejectStep_w e o _ _ _ _

/-- The step evaluates the trial point, if it gets that far. -/
theorem stepStage_grew (e : Env K F) (o : Orc K F) (s : MSt K F) :
    (stepStage e o s).Sat (fun t => Grew s.ev.w t.ev.w [o.xnew])
      (fun t => SameW s t ∨ Grew s.ev.w t.ev.w [o.xnew]) (fun _ => True) := by
  unfold stepStage
  refine PassRes.Sat.bind (Q := fun t => SameW s t ∧ t.x = s.x)
    ((globalise_w e s).mono (fun _ h => h) (fun _ h => h.elim) (fun _ h => h)) ?_
  rintro t ⟨h1, -⟩
  dsimp only
  split
  · exact Or.inl h1
  · refine PassRes.Sat.bind (Q := fun u => Grew s.ev.w u.ev.w [o.xnew]) ?_ ?_
    · refine PassRes.Sat.bind (Q := SameW s) ?_ ?_
      · refine (penalty_w o _).mono ?_ ?_ (fun _ h => h)
        · rintro u ⟨h2, -⟩
          exact Eq.trans h2 h1
        · intro u h2
          exact Or.inl (Eq.trans h2 h1)
      · intro u hu
        have hu : u.ev.w = s.ev.w := hu
        refine (evalTrial_grew e o u).mono ?_ ?_ (fun _ h => h)
        · intro v hv; rw [hu] at hv; exact hv
        · intro v hv; rw [hu] at hv; exact Or.inr hv
    · intro u hu
      refine (decideStep_w e o _ u).mono ?_ ?_ (fun _ h => h)
      · intro v hv
        show Grew s.ev.w v.ev.w _
        rw [show v.ev.w = u.ev.w from hv]; exact hu
      · intro v hv
        right
        rw [show v.ev.w = u.ev.w from hv]; exact hu

/-- The first half of a pass (L212-L639). -/
def beforeStep (e : Env K F) (o : Orc K F) (s : MSt K F) : PassRes K F :=
  if e.miter.le (.fin s.niter) then s.stop Status.stopOnMaxIter
  else if e.msimul.le (.fin s.ev.nsimul) then s.stop Status.stopOnMaxSimul
  else if o.k1.fail then s.stop Status.failUnexpected
  else
    let s := { s.measure o.k1 with ev := { s.ev with flag := Status.success } }
    if (s.glagn ≤ e.tolGrad ∧ s.feasn ≤ e.tolFeas ∧ s.compl ≤ e.tolBnds) ∨
        s.delta < 1 / 10 ^ 10 ∨ s.pred = -1 then improve e o s else .cont s

theorem pass_eq (e : Env K F) (o : Orc K F) (s : MSt K F) :
    pass e o s = (beforeStep e o s).bind (stepStage e o) := by
  unfold pass beforeStep
  split
  · rfl
  · split
    · rfl
    · split <;> rfl

theorem beforeStep_grew (e : Env K F) (o : Orc K F) (s : MSt K F) :
    (beforeStep e o s).Sat (ImprovedBy o s) (ImprovedBy o s) (fun _ => True) := by
  unfold beforeStep
  split
  · exact ImprovedBy.same rfl
  · split
    · exact ImprovedBy.same rfl
    · split
      · exact ImprovedBy.same rfl
      · dsimp only
        split
        · exact improve_grew e o _
        · exact ImprovedBy.same rfl

theorem beforeStep_inv (e : Env K F) (he : e.Ok) (o : Orc K F) (s : MSt K F) (h : Inv e [] s) :
    (beforeStep e o s).Sat (Inv e []) (fun _ => True) (fun _ => True) := by
  unfold beforeStep
  split
  · trivial
  · split
    · trivial
    · split
      · trivial
      · have h1 : Inv e [] ({ s.measure o.k1 with ev := { s.ev with flag := Status.success } } : MSt K F) :=
          { h with link := fun j hj hp => h.link j hj hp, flag := rfl }
        dsimp only
        split
        · exact (improve_sat e he o _ h1).mono (fun _ h => h.1) (fun _ _ => trivial) (fun _ _ => trivial)
        · exact h1

theorem Core.x_mem {e : Env K F} {l : List ℕ} {s : MSt K F} (h : Core e l s) (h0 : 0 ∉ l) : s.x ∈ s.ev.w.logF := by
  obtain ⟨i, y, f, b1, b2, b3, b4, b5⟩ := h.link 0 (by have := h.lo; omega) h0
  rw [h.Y0] at b2
  cases b2
  exact h.log.subset (List.mem_of_getElem? b4)

end Sqpdfo
