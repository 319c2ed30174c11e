import Verif.Lemmas.MainKeep

/-! # The user's functions enter a run by the answers to its calls only -/

set_option linter.unusedSectionVars false

namespace Sqpdfo
open Spec
variable {K F : Type} [Field K] [LinearOrder K] [IsStrictOrderedRing K]

/-- Two pairs of user functions give the same answers to the calls at the points `l`, in this order: the objective
when asked for the next point of the list, the constraint function when asked for the point the objective was
called at last. -/
structure Spec.AgreeOn {P K : Type} (U U' : User P K) (l : List P) : Prop where
  f : ∀ w y, w.logF ++ [y] <+: l → U'.f w y = U.f w y
  c : U.c = none ∧ U'.c = none ∨ ∃ c c', U.c = some c ∧ U'.c = some c' ∧
    ∀ w y, w.logF <+: l → w.logF.getLast? = some y → c' w y = c w y

theorem Spec.AgreeOn.mono {P K : Type} {U U' : User P K} {l l' : List P} (h : AgreeOn U U' l) (hl : l' <+: l) :
    AgreeOn U U' l' :=
  ⟨fun w y hw => h.f w y (hw.trans hl), h.c.imp id fun ⟨c, c', h1, h2, h3⟩ =>
    ⟨c, c', h1, h2, fun w y hw hy => h3 w y (hw.trans hl) hy⟩⟩

theorem sqpdfoFunc_agree {P : Type} {U U' : User P K} (y : P) (w : World P)
    (h : AgreeOn U U' (sqpdfoFunc U y w).2.logF) : sqpdfoFunc U' y w = sqpdfoFunc U y w := by
  rw [(sqpdfoFunc_spec U y w).1] at h
  have hf := h.f w y (List.prefix_refl _)
  unfold sqpdfoFunc
  dsimp only
  rw [hf]
  rcases h.c with ⟨h1, h2⟩ | ⟨c, c', h1, h2, h3⟩
  · rw [h1, h2]
  · rw [h1, h2]
    dsimp only
    rw [h3 { w with logF := w.logF ++ [y] } y (List.prefix_refl _) (by simp)]

theorem augmX_agree {P : Type} {U U' : User P K} (fx : Fl K) (y : P) (m : ℕ) (s s' : EvSt P K)
    (h : augmX U fx y m s = some s') (ha : AgreeOn U U' s'.w.logF) : augmX U' fx y m s = some s' := by
  have hg := (augmX_grew U fx y m s s' h).logF
  have hs : sqpdfoFunc U' y s.w = sqpdfoFunc U y s.w := by
    apply sqpdfoFunc_agree
    rw [(sqpdfoFunc_spec U y s.w).1, ← hg]
    exact ha
  rw [← h]
  unfold augmX
  dsimp only
  rw [hs]

/-- `r'` does what `r` does, provided `A` holds for the calls made. -/
def Repeats (A : List (List K) → Prop) (r r' : PassRes K F) : Prop :=
  r.Sat (fun t => A t.ev.w.logF → r' = .cont t) (fun t => A t.ev.w.logF → r' = .ret t) (fun _ => True)

theorem Repeats.same (A : List (List K) → Prop) (r : PassRes K F) : Repeats A r r := by
  cases r with
  | cont t => exact fun _ => rfl
  | ret t => exact fun _ => rfl
  | crash c => trivial

theorem Repeats.ite {A : List (List K) → Prop} {c : Prop} [Decidable c] {a b a' b' : PassRes K F}
    (h1 : Repeats A a a') (h2 : Repeats A b b') : Repeats A (if c then a else b) (if c then a' else b') := by
  split
  · exact h1
  · exact h2

/-- The calls so far are kept. -/
def Calls (w : List (List K)) (r : PassRes K F) : Prop :=
  r.Sat (fun t => w <+: t.ev.w.logF) (fun t => w <+: t.ev.w.logF) (fun _ => True)

theorem Repeats.bind {A : List (List K) → Prop} (hA : ∀ l l', A l → l' <+: l → A l') {r r' : PassRes K F}
    {k k' : MSt K F → PassRes K F} (h : Repeats A r r') (hk : ∀ t, Repeats A (k t) (k' t))
    (hc : ∀ t, Calls t.ev.w.logF (k t)) : Repeats A (r.bind k) (r'.bind k') := by
  unfold Repeats at *
  cases r with
  | cont t =>
    have hk := hk t
    have hc := hc t
    unfold Calls at hc
    simp only [PassRes.bind, PassRes.Sat] at h hk hc ⊢
    cases hkt : k t with
    | cont u =>
      rw [hkt] at hk hc
      intro ha
      rw [h (hA _ _ ha hc)]
      exact hk ha
    | ret u =>
      rw [hkt] at hk hc
      intro ha
      rw [h (hA _ _ ha hc)]
      exact hk ha
    | crash c => trivial
  | ret t =>
    intro ha
    rw [show r' = .ret t from h ha]
    rfl
  | crash c => trivial

theorem Calls.bind {w : List (List K)} {r : PassRes K F} {k : MSt K F → PassRes K F} (h : Calls w r)
    (hc : ∀ t, Calls t.ev.w.logF (k t)) : Calls w (r.bind k) :=
  PassRes.Sat.bind h fun t ht => (hc t).mono (fun _ h => ht.trans h) (fun _ h => ht.trans h) (fun _ h => h)

/-- The same environment with other user functions. -/
def Env.withU (e : Env K F) (U' : User (List K) K) : Env K F := { e with U := U' }

theorem evalReplaced_agree (e : Env K F) (U' : User (List K) K) : ∀ (js : List ℕ) (s : MSt K F),
    Repeats (AgreeOn e.U U') (evalReplaced e js s) (evalReplaced (e.withU U') js s) := by
  intro js
  induction js with
  | nil => intro s; exact fun _ => rfl
  | cons j js ih =>
    intro s
    simp only [evalReplaced]
    split
    · rename_i y i hy hi
      cases ha : augmX e.U (.fin big) y (s.m + 1) s.ev with
      | none => trivial
      | some ev =>
        simp only
        split
        · trivial
        · rename_i v hv
          split
          · trivial
          · rename_i v' hv'
            have step : ∀ (t : MSt K F) (r' : PassRes K F), t.ev = ev →
                (augmX U' (.fin big) y (s.m + 1) s.ev = some ev → r' = evalReplaced (e.withU U') js t) →
                Repeats (AgreeOn e.U U') (evalReplaced e js t) r' := by
              intro t r' ht hr
              have h1 := ih t
              have h2 := evalReplaced_grew e js t
              unfold Repeats at h1 ⊢
              cases he : evalReplaced e js t with
              | cont u =>
                rw [he] at h1 h2
                intro hu
                obtain ⟨-, l, hl, -⟩ := h2
                have := augmX_agree (U' := U') _ _ _ _ _ ha
                  (hu.mono ⟨l, by rw [hl.logF, ht]⟩)
                rw [hr this]
                exact h1 hu
              | ret u => rw [he] at h2; exact h2.elim
              | crash c => trivial
            split
            · rename_i hme
              split
              · trivial
              · rename_i c hc
                refine step _ _ rfl fun hau => ?_
                rw [show (e.withU U').U = U' from rfl, hau]
                simp only [hv, hv']
                rw [if_pos (show (e.withU U').me > 0 from hme)]
                simp only [hc]
            · rename_i hme
              refine step _ _ rfl fun hau => ?_
              rw [show (e.withU U').U = U' from rfl, hau]
              simp only [hv, hv']
              rw [if_neg (show ¬ (e.withU U').me > 0 from hme)]
    · trivial

theorem calls_of_w {s : MSt K F} {r : PassRes K F}
    (h : r.Sat (fun t => t.ev.w = s.ev.w) (fun t => t.ev.w = s.ev.w) (fun _ => True)) :
    Calls s.ev.w.logF r :=
  h.mono (fun _ h => by rw [h]) (fun _ h => by rw [h]) (fun _ h => h)

theorem agree_mono {U U' : User (List K) K} : ∀ l l' : List (List K), AgreeOn U U' l → l' <+: l → AgreeOn U U' l' :=
  fun _ _ h hl => h.mono hl

theorem repairStage_agree (e : Env K F) (U' : User (List K) K) (o : Orc K F) (r : K) (s : MSt K F) :
    Repeats (AgreeOn e.U U') (repairStage e o r s) (repairStage (e.withU U') o r s) := by
  unfold repairStage
  dsimp only
  refine Repeats.bind agree_mono (Repeats.bind agree_mono ?_ ?_ ?_) ?_ ?_
  · exact evalReplaced_agree e U' _ _
  · exact fun t => Repeats.same _ _
  · exact fun t => calls_of_w ((callSmallf_w e t).mono (fun _ h => h) (fun _ h => h.elim) (fun _ h => h))
  · exact fun t => Repeats.same _ _
  · exact fun t => calls_of_w (improveEnd_w e _ _ _)

theorem improve_agree (e : Env K F) (U' : User (List K) K) (o : Orc K F) (s : MSt K F) :
    Repeats (AgreeOn e.U U') (improve e o s) (improve (e.withU U') o s) := by
  unfold improve
  refine Repeats.ite ?_ (Repeats.same _ _)
  dsimp only
  refine Repeats.ite (Repeats.same _ _) ?_
  exact Repeats.ite (Repeats.same _ _) (repairStage_agree e U' o _ _)

theorem evalTrial_agree (e : Env K F) (U' : User (List K) K) (o : Orc K F) (s : MSt K F) :
    Repeats (AgreeOn e.U U') (evalTrial e o s) (evalTrial (e.withU U') o s) := by
  unfold evalTrial
  dsimp only
  cases ha : augmX e.U (.fin big) o.xnew (s.m + 1) s.ev with
  | none => trivial
  | some ev =>
    have key : AgreeOn e.U U' ev.w.logF → augmX (e.withU U').U (.fin big) o.xnew (s.m + 1) s.ev = some ev :=
      fun h => augmX_agree _ _ _ _ _ ha h
    dsimp only
    split
    · rename_i h0
      intro h
      rw [key h]
      simp only
      rw [if_pos h0]
    · rename_i h0
      split
      · rename_i h1
        split
        · trivial
        · rename_i ceX h2
          split
          · trivial
          · rename_i c h3
            intro h
            rw [key h]
            simp only
            rw [if_neg h0, if_pos h1, h2]
            simp only [h3]
      · rename_i h1
        intro h
        rw [key h]
        simp only
        rw [if_neg h0, if_neg h1]

theorem stepStage_agree (e : Env K F) (U' : User (List K) K) (o : Orc K F) (s : MSt K F) :
    Repeats (AgreeOn e.U U') (stepStage e o s) (stepStage (e.withU U') o s) := by
  have hev : ∀ u, Calls u.ev.w.logF (evalTrial e o u) := fun u =>
    (evalTrial_grew e o u).mono (fun _ h => ⟨_, h.logF.symm⟩) (fun _ h => ⟨_, h.logF.symm⟩) (fun _ h => h)
  have hde : ∀ u n, Calls u.ev.w.logF (decideStep e o n u) := fun u n => calls_of_w (decideStep_w e o n u)
  unfold stepStage
  refine Repeats.bind agree_mono (Repeats.same _ _) ?_ ?_
  · intro t
    dsimp only
    split
    · exact Repeats.same _ _
    · refine Repeats.bind agree_mono (Repeats.bind agree_mono (Repeats.same _ _) ?_ hev) ?_ ?_
      · exact fun u => evalTrial_agree e U' o u
      · exact fun u => Repeats.same _ _
      · exact fun u => hde u _
  · intro t
    dsimp only
    split
    · exact List.prefix_refl _
    · refine Calls.bind (Calls.bind ?_ hev) fun u => hde u _
      exact calls_of_w ((penalty_w o _).mono (fun _ h => h.1) (fun _ h => h) (fun _ h => h))

theorem pass_agree (e : Env K F) (U' : User (List K) K) (o : Orc K F) (s : MSt K F) :
    Repeats (AgreeOn e.U U') (pass e o s) (pass (e.withU U') o s) := by
  rw [pass_eq, pass_eq]
  refine Repeats.bind agree_mono ?_ ?_ ?_
  · unfold beforeStep
    refine Repeats.ite (Repeats.same _ _) (Repeats.ite (Repeats.same _ _) (Repeats.ite (Repeats.same _ _) ?_))
    dsimp only
    exact Repeats.ite (improve_agree e U' o _) (Repeats.same _ _)
  · exact fun t => stepStage_agree e U' o t
  · intro t
    refine (stepStage_grew e o t).mono (fun _ h => ⟨_, h.logF.symm⟩) ?_ (fun _ h => h)
    rintro u (h | h)
    · rw [show u.ev.w = t.ev.w from h]
    · exact ⟨_, h.logF.symm⟩

theorem pass_calls (e : Env K F) (o : Orc K F) (s : MSt K F) : Calls s.ev.w.logF (pass e o s) := by
  rw [pass_eq]
  refine Calls.bind ?_ ?_
  · refine (beforeStep_grew e o s).mono ?_ ?_ (fun _ h => h) <;>
    · rintro t ⟨l, h, -⟩
      exact ⟨l, h.logF.symm⟩
  · intro t
    refine (stepStage_grew e o t).mono (fun _ h => ⟨_, h.logF.symm⟩) ?_ (fun _ h => h)
    rintro u (h | h)
    · rw [show u.ev.w = t.ev.w from h]
    · exact ⟨_, h.logF.symm⟩

/-! ### The initial sampling -/

theorem samplePass_agree {P : Type} (U U' : User P K) : ∀ (ys : List P) (i : ℕ) (s t : EvSt P K),
    (samplePass U ys i s).st? = some t → s.w.logF <+: t.w.logF ∧
      (AgreeOn U U' t.w.logF → samplePass U' ys i s = samplePass U ys i s) := by
  intro ys
  induction ys with
  | nil =>
    intro i s t h
    simp only [samplePass, SampleRes.st?, Option.some.injEq] at h
    subst h
    exact ⟨List.prefix_refl _, fun _ => rfl⟩
  | cons y ys ih =>
    intro i s t h
    cases ha : augmX U (.fin big) y i s with
    | none => rw [samplePass, ha] at h; cases h
    | some s1 =>
      have hg : s.w.logF <+: s1.w.logF := ⟨_, (augmX_grew _ _ _ _ _ _ ha).logF.symm⟩
      have key : s1.w.logF <+: t.w.logF ∧ (AgreeOn U U' t.w.logF → ∀ i',
          (if s1.flag ≠ 0 then SampleRes.failed s1 else
            match s1.fX[i]? with
            | none => .crash
            | some v => if tooBig v then .broke s1 else samplePass U' ys i' s1) =
          (if s1.flag ≠ 0 then SampleRes.failed s1 else
            match s1.fX[i]? with
            | none => .crash
            | some v => if tooBig v then .broke s1 else samplePass U ys i' s1) ∨ i' ≠ i + 1) := by
        rw [samplePass, ha] at h
        simp only at h
        split at h
        · rename_i h0
          simp only [SampleRes.st?, Option.some.injEq] at h
          subst h
          exact ⟨List.prefix_refl _, fun _ i' => Or.inl (by rw [if_pos h0, if_pos h0])⟩
        · rename_i h0
          split at h
          · cases h
          · rename_i v hv
            split at h
            · rename_i hb
              simp only [SampleRes.st?, Option.some.injEq] at h
              subst h
              exact ⟨List.prefix_refl _, fun _ i' => Or.inl (by simp only [if_neg h0, hv, if_pos hb])⟩
            · rename_i hb
              obtain ⟨a, b⟩ := ih _ _ _ h
              refine ⟨a, fun hA i' => ?_⟩
              by_cases hi : i' = i + 1
              · subst hi
                exact Or.inl (by simp only [if_neg h0, hv, if_neg hb]; exact b hA)
              · exact Or.inr hi
      refine ⟨hg.trans key.1, fun hA => ?_⟩
      rw [samplePass, samplePass, ha, augmX_agree _ _ _ _ _ ha (hA.mono key.1)]
      exact (key.2 hA (i + 1)).resolve_right (fun h => h rfl)

theorem initLoop_agree (U U' : User (List K) K) (x0 : List K) (nx : K) :
    ∀ (fuel : ℕ) (Δ : K) (s t : EvSt (List K) K), (initLoop U x0 nx fuel Δ s).st? = some t →
      s.w.logF <+: t.w.logF ∧
      (AgreeOn U U' t.w.logF → initLoop U' x0 nx fuel Δ s = initLoop U x0 nx fuel Δ s) := by
  intro fuel
  induction fuel with
  | zero => intro Δ s t h; cases h
  | succ fuel ih =>
    intro Δ s t h
    simp only [initLoop] at h ⊢
    have hS := samplePass_agree U U' (simplex x0 Δ) 0 { s with X := [], fX := [], ceX := [] }
    cases hs : samplePass U (simplex x0 Δ) 0 { s with X := [], fX := [], ceX := [] } with
    | crash => rw [hs] at h; cases h
    | failed u =>
      rw [hs] at h hS
      simp only [InitRes.st?, Option.some.injEq] at h
      subst h
      obtain ⟨a, b⟩ := hS u rfl
      exact ⟨a, fun hA => by rw [b hA]⟩
    | full u =>
      rw [hs] at h hS
      simp only at h
      obtain ⟨a, b⟩ := hS u rfl
      have hw : u.w = t.w := by
        split at h
        · cases h
        · split at h
          · cases h
          · simp only [InitRes.st?, Option.some.injEq] at h
            rw [← h]
      exact ⟨hw ▸ a, fun hA => by rw [b (hw ▸ hA)]⟩
    | broke u =>
      rw [hs] at h hS
      simp only at h
      obtain ⟨a, b⟩ := hS u rfl
      split at h
      · cases h
      · rename_i c hc
        split at h
        · cases h
        · rename_i c' hc'
          split at h
          · rename_i hd
            simp only [InitRes.st?, Option.some.injEq] at h
            subst h
            exact ⟨a, fun hA => by rw [b hA]; simp only [hc, hc', if_pos hd]⟩
          · rename_i hd
            obtain ⟨a', b'⟩ := ih _ _ _ h
            refine ⟨a.trans a', fun hA => ?_⟩
            rw [b (hA.mono a')]
            simp only [hc, hc', if_neg hd]
            exact b' hA

end Sqpdfo
