import Verif.Lemmas.MainLog
import Verif.Props.C55_C58_C64_Runs

/-! # What a pass does to the history -/

set_option linter.unusedSectionVars false

namespace Sqpdfo
open Spec
variable {K F : Type} [Field K] [LinearOrder K] [IsStrictOrderedRing K]

/-- Columns of recorded constraint values: every old column is still there with its length, and its
entries of absolute value below `1e25` are unchanged. -/
def Spec.KeptCols (c c' : List (List (Fl K))) : Prop :=
  ∀ (i : ℕ) (col : List (Fl K)), c[i]? = some col → ∃ col', c'[i]? = some col' ∧ col'.length = col.length ∧
    ∀ (j : ℕ) (q : K), col[j]? = some (.fin q) → |q| < 10 ^ 25 → col'[j]? = some (.fin q)

/-- From `s` to `t` both user functions were called at the points `d`, in this order and once each; the points
were appended to the stored points, the values to the stored values, and nothing else was changed (but huge
constraint values). -/
structure Spec.Longer {P : Type} (U : User P K) (s t : EvSt P K) (d : List P) : Prop where
  X : t.X = s.X ++ d
  logF : t.w.logF = s.w.logF ++ d
  logC : t.w.logC = s.w.logC ++ (if U.c.isSome then d else [])
  nsimul : t.nsimul = s.nsimul + d.length
  fX : s.fX <+: t.fX
  ce : KeptCols s.ceX t.ceX

theorem Spec.KeptCols.refl (c : List (List (Fl K))) : KeptCols c c :=
  fun _ col h => ⟨col, h, rfl, fun _ _ h _ => h⟩

theorem Spec.KeptCols.trans {a b c : List (List (Fl K))} (h : KeptCols a b) (h' : KeptCols b c) : KeptCols a c := by
  intro i col hi
  obtain ⟨c1, h1, h2, h3⟩ := h i col hi
  obtain ⟨c2, g1, g2, g3⟩ := h' i c1 h1
  exact ⟨c2, g1, g2.trans h2, fun j q hq hb => g3 j q (h3 j q hq hb) hb⟩

theorem Spec.KeptCols.append (c : List (List (Fl K))) (a : List (Fl K)) : KeptCols c (c ++ [a]) :=
  fun i col h => ⟨col, getElem?_append_some h, rfl, fun _ _ h _ => h⟩

theorem Spec.Longer.refl {P : Type} (U : User P K) (s : EvSt P K) : Longer U s s [] :=
  ⟨by simp, by simp, by simp, by simp, List.prefix_refl _, KeptCols.refl _⟩

theorem Spec.Longer.trans {P : Type} {U : User P K} {s t u : EvSt P K} {d d' : List P} (h : Longer U s t d)
    (h' : Longer U t u d') : Longer U s u (d ++ d') where
  X := by rw [h'.X, h.X, List.append_assoc]
  logF := by rw [h'.logF, h.logF, List.append_assoc]
  logC := by rw [h'.logC, h.logC]; split <;> simp
  nsimul := by rw [h'.nsimul, h.nsimul, List.length_append]; omega
  fX := h.fX.trans h'.fX
  ce := KeptCols.trans h.ce h'.ce

theorem keptCols_huge {ce c' : List (List (Fl K))} (h : (replaceHuge ce).bind replaceHugeNeg = some c') :
    KeptCols ce c' := by
  rw [Option.bind_eq_some_iff] at h
  obtain ⟨c, h1, h2⟩ := h
  intro i col hi
  obtain ⟨c1, a1, a2, a3⟩ := (C58_replacement_partial ce c h1).2 i col hi
  obtain ⟨c2, b1, b2, b3⟩ := (C58_negative_partial c c' h2).2 i c1 a1
  refine ⟨c2, b1, b2.trans a2, fun j q hq hb => ?_⟩
  obtain ⟨hb1, hb2⟩ := abs_lt.1 hb
  exact (b3 j q ((a3 j q hq).1 hb2)).1 hb1

theorem augmX_longer {P : Type} (U : User P K) (y : P) (m : ℕ) (s s' : EvSt P K)
    (hX : s.X.length = m) (hf : s.fX.length = m) (hc : s.ceX.length ≤ m)
    (h : augmX U (.fin big) y m s = some s') :
    Longer U s s' [y] ∧ s'.ceX.length ≤ m + 1 ∧
      (s'.fX.length = m ∧ s'.flag = 3 ∨ s'.fX.length = m + 1 ∧ s'.flag = s.flag) := by
  have hlog := (sqpdfoFunc_spec U y s.w).1
  have hlogC : (sqpdfoFunc U y s.w).2.logC = s.w.logC ++ (if U.c.isSome then [y] else []) := by
    unfold sqpdfoFunc
    dsimp only
    cases hU : U.c with
    | none => simp
    | some cf =>
      dsimp only
      split <;> simp
  have e1 : ∀ a, setOrAppend s.X m a = s.X ++ [a] := by intro a; simp [setOrAppend, hX]
  have e2 : ∀ a, setOrAppend s.fX m a = s.fX ++ [a] := by intro a; simp [setOrAppend, hf]
  have e3 : ∀ a, setOrAppend s.ceX m a = s.ceX ++ [a] := by
    intro a; simp [setOrAppend, Nat.not_lt.mpr hc]
  simp only [augmX, e1, e2, e3] at h
  have fail : ∀ t : EvSt P K, t.X = s.X ++ [y] → t.nsimul = s.nsimul + 1 → t.w = (sqpdfoFunc U y s.w).2 →
      t.fX = s.fX → t.ceX = s.ceX → t.flag = 3 → Longer U s t [y] ∧ t.ceX.length ≤ m + 1 ∧
        (t.fX.length = m ∧ t.flag = 3 ∨ t.fX.length = m + 1 ∧ t.flag = s.flag) := by
    intro t h1 h2 h3 h4 h5 h6
    exact ⟨⟨h1, by rw [h3, hlog], by rw [h3, hlogC], h2, by rw [h4], by rw [h5]; exact KeptCols.refl _⟩,
      by rw [h5]; omega, Or.inl ⟨by rw [h4, hf], h6⟩⟩
  split at h
  · cases h
  · cases h
  · split at h
    · simp only [Option.some.injEq] at h; subst h
      exact fail _ rfl rfl rfl rfl rfl rfl
    split at h
    · simp only [Option.some.injEq] at h; subst h
      exact fail _ rfl rfl rfl rfl rfl rfl
    split at h
    · simp only [Option.some.injEq] at h; subst h
      exact fail _ rfl rfl rfl rfl rfl rfl
    split at h
    · simp only [Option.some.injEq] at h; subst h
      exact fail _ rfl rfl rfl rfl rfl rfl
    · simp only [Option.some.injEq] at h; subst h
      refine ⟨⟨rfl, hlog, hlogC, rfl, List.prefix_append _ _, ?_⟩, ?_, Or.inr ⟨by simp [hf], rfl⟩⟩
      · dsimp only
        split
        · exact KeptCols.refl _
        · exact KeptCols.append _ _
      · dsimp only
        split
        · omega
        · simp only [List.length_append, List.length_cons, List.length_nil]; omega

/-- The lengths of the history. -/
structure HLen (s : MSt K F) : Prop where
  X : s.ev.X.length = s.m + 1
  fX : s.ev.fX.length = s.m + 1
  ce : s.ev.ceX.length ≤ s.m + 1

theorem Inv.hlen {e : Env K F} {p : List ℕ} {s : MSt K F} (h : Inv e p s) : HLen s := ⟨h.Xlen, h.fXlen, h.cXlen⟩

/-- Only points of the list were added. -/
def Added (e : Env K F) (s t : MSt K F) : Prop := ∃ d, Longer e.U s.ev t.ev d

/-- The history is as before. -/
structure SameH (s t : MSt K F) : Prop where
  m : t.m = s.m
  X : t.ev.X = s.ev.X
  fX : t.ev.fX = s.ev.fX
  ceX : t.ev.ceX = s.ev.ceX
  nsimul : t.ev.nsimul = s.ev.nsimul
  w : t.ev.w = s.ev.w

theorem SameH.refl (s : MSt K F) : SameH s s := ⟨rfl, rfl, rfl, rfl, rfl, rfl⟩

theorem SameH.trans {s t u : MSt K F} (h : SameH s t) (h' : SameH t u) : SameH s u :=
  ⟨h'.m.trans h.m, h'.X.trans h.X, h'.fX.trans h.fX, h'.ceX.trans h.ceX, h'.nsimul.trans h.nsimul, h'.w.trans h.w⟩

theorem SameH.longer (e : Env K F) {s t : MSt K F} (h : SameH s t) : Longer e.U s.ev t.ev [] :=
  ⟨by simp [h.X], by simp [h.w], by simp [h.w], by simp [h.nsimul], by rw [h.fX], by
    rw [h.ceX]; exact KeptCols.refl _⟩

theorem SameH.added {e : Env K F} {s t : MSt K F} (h : SameH s t) : Added e s t := ⟨[], h.longer e⟩

theorem Added.trans {e : Env K F} {s t u : MSt K F} (h : Added e s t) (h' : Added e t u) : Added e s u := by
  obtain ⟨d, h⟩ := h
  obtain ⟨d', h'⟩ := h'
  exact ⟨_, h.trans h'⟩

theorem added_from {e : Env K F} {s t u : MSt K F} (h : Added e t u) (h0 : SameH s t) : Added e s u :=
  h0.added.trans h

theorem SameH.hlen {s t : MSt K F} (h : SameH s t) (hl : HLen s) : HLen t :=
  ⟨by rw [h.X, h.m]; exact hl.X, by rw [h.fX, h.m]; exact hl.fX, by rw [h.ceX, h.m]; exact hl.ce⟩

/-- Added points and lengths. -/
abbrev AddedL (e : Env K F) (s t : MSt K F) : Prop := Added e s t ∧ HLen t

theorem evalReplaced_added (e : Env K F) : ∀ (js : List ℕ) (s : MSt K F), HLen s →
    (evalReplaced e js s).Sat (AddedL e s) (fun _ => False) (fun _ => True) := by
  intro js
  induction js with
  | nil => intro s h; exact ⟨(SameH.refl s).added, h⟩
  | cons j js ih =>
    intro s hs
    simp only [evalReplaced]
    split
    · rename_i y i hy hi
      cases ha : augmX e.U (.fin big) y (s.m + 1) s.ev with
      | none => trivial
      | some ev =>
        obtain ⟨hL, hce, hfx⟩ := augmX_longer _ _ _ _ _ hs.X hs.fX hs.ce ha
        have hlX : ev.X.length = s.m + 2 := by rw [hL.X, List.length_append, hs.X]; rfl
        simp only
        split
        · trivial
        · rename_i v hv
          have hlf : ev.fX.length = s.m + 2 := by
            rcases hfx with ⟨h, -⟩ | ⟨h, -⟩
            · rw [List.getElem?_eq_none (by omega)] at hv; cases hv
            · exact h
          have step : ∀ t : MSt K F, t.m = s.m + 1 → t.ev = ev →
              (evalReplaced e js t).Sat (AddedL e s) (fun _ => False) (fun _ => True) := by
            intro t h1 h2
            refine (ih t ⟨by rw [h1, h2, hlX], by rw [h1, h2, hlf], by rw [h1, h2]; exact hce⟩).mono ?_
              (fun _ h => h) (fun _ h => h)
            rintro u ⟨hu, hu'⟩
            exact ⟨Added.trans ⟨[y], by rw [h2]; exact hL⟩ hu, hu'⟩
          split
          · trivial
          · split
            · split
              · trivial
              · exact step _ rfl rfl
            · exact step _ rfl rfl
    · trivial

theorem callSmallf_sameH (e : Env K F) (s : MSt K F) :
    (callSmallf e s).Sat (SameH s) (fun _ => False) (fun _ => True) := by
  unfold callSmallf
  split
  · trivial
  · dsimp only
    split
    · trivial
    · split
      · trivial
      · exact ⟨rfl, rfl, rfl, rfl, rfl, rfl⟩

theorem improveEnd_sameH (e : Env K F) (k : Meas K) (r : K) (s : MSt K F) :
    (improveEnd e k r s).Sat (SameH s) (SameH s) (fun _ => True) := by
  unfold improveEnd
  split
  · exact ⟨rfl, rfl, rfl, rfl, rfl, rfl⟩
  · dsimp only
    split <;> exact ⟨rfl, rfl, rfl, rfl, rfl, rfl⟩

theorem repairStage_added (e : Env K F) (o : Orc K F) (radius : K) (s : MSt K F) (hs : HLen s) :
    (repairStage e o radius s).Sat (AddedL e s) (Added e s) (fun _ => True) := by
  unfold repairStage
  dsimp only
  refine PassRes.Sat.bind (Q := AddedL e s) ?_ ?_
  · refine PassRes.Sat.bind (Q := AddedL e s) ?_ ?_
    · refine (evalReplaced_added e _ _ ?_).mono ?_ (fun _ h => h.elim) (fun _ h => h)
      · exact ⟨hs.X, hs.fX, hs.ce⟩
      · rintro t ⟨h1, h2⟩
        exact ⟨h1, h2⟩
    · rintro t ⟨h1, h2⟩
      refine (callSmallf_sameH e t).mono ?_ (fun _ h => h.elim) (fun _ h => h)
      intro u hu
      exact ⟨h1.trans hu.added, hu.hlen h2⟩
  · rintro t ⟨h1, h2⟩
    have h0 : SameH t (t.newGx e).storeG := ⟨rfl, rfl, rfl, rfl, rfl, rfl⟩
    refine (improveEnd_sameH e _ _ (t.newGx e).storeG).mono ?_ ?_ (fun _ h => h)
    · intro u hu
      exact ⟨h1.trans (h0.trans hu).added, (h0.trans hu).hlen h2⟩
    · intro u hu
      exact h1.trans (h0.trans hu).added

theorem improve_added (e : Env K F) (o : Orc K F) (s : MSt K F) (hs : HLen s) :
    (improve e o s).Sat (AddedL e s) (Added e s) (fun _ => True) := by
  unfold improve
  split
  · dsimp only
    split
    · exact SameH.added ⟨rfl, rfl, rfl, rfl, rfl, rfl⟩
    · split
      · exact SameH.added ⟨rfl, rfl, rfl, rfl, rfl, rfl⟩
      · exact repairStage_added e o _ _ ⟨hs.X, hs.fX, hs.ce⟩
  · trivial

theorem globalise_sameH (e : Env K F) (s : MSt K F) :
    (globalise e s).Sat (SameH s) (fun _ => False) (fun _ => True) := by
  unfold globalise
  split
  · exact SameH.refl s
  · split
    · trivial
    · split
      · trivial
      · exact ⟨rfl, rfl, rfl, rfl, rfl, rfl⟩

theorem penalty_sameH (o : Orc K F) (s : MSt K F) :
    (penalty o s).Sat (SameH s) (SameH s) (fun _ => True) := by
  unfold penalty
  split
  · dsimp only
    split <;> exact ⟨rfl, rfl, rfl, rfl, rfl, rfl⟩
  · exact SameH.refl s

theorem evalTrial_added (e : Env K F) (o : Orc K F) (s : MSt K F) (hs : HLen s) :
    (evalTrial e o s).Sat (AddedL e s) (Added e s) (fun _ => True) := by
  unfold evalTrial
  dsimp only
  cases ha : augmX e.U (.fin big) o.xnew (s.m + 1) s.ev with
  | none => trivial
  | some ev =>
    obtain ⟨hL, hce, hfx⟩ := augmX_longer _ _ _ _ _ hs.X hs.fX hs.ce ha
    have hlX : ev.X.length = s.m + 2 := by rw [hL.X, List.length_append, hs.X]; rfl
    dsimp only
    split
    · exact ⟨_, hL⟩
    · rename_i hfl
      have hlf : ev.fX.length = s.m + 2 := by
        rcases hfx with ⟨-, h⟩ | ⟨h, -⟩
        · rw [h] at hfl; exact absurd (by decide) hfl
        · exact h
      split
      · split
        · trivial
        · rename_i ceX hr
          split
          · trivial
          · refine ⟨⟨_, ⟨hL.X, hL.logF, hL.logC, hL.nsimul, hL.fX, KeptCols.trans hL.ce (keptCols_huge hr)⟩⟩, hlX, hlf, ?_⟩
            show ceX.length ≤ _
            rw [replaceHuge_length hr]; exact hce
      · exact ⟨⟨_, hL⟩, hlX, hlf, hce⟩

theorem accepted_sameH (e : Env K F) (o : Orc K F) (a b c : K) (pos : ℕ) (s : MSt K F) :
    (accepted e o a b c pos s).Sat (SameH s) (SameH s) (fun _ => True) := by
  unfold accepted
  dsimp only
  split
  · trivial
  · split
    · trivial
    · split
      · trivial
      · exact ⟨rfl, rfl, rfl, rfl, rfl, rfl⟩

theorem replaceAt_sameH (e : Env K F) (o : Orc K F) (a b c : K) (pos : ℕ) (s : MSt K F) :
    (replaceAt e o a b c pos s).Sat (SameH s) (SameH s) (fun _ => True) := by
  unfold replaceAt
  dsimp only
  split
  · trivial
  · split
    · split
      · trivial
      · split
        · trivial
        · exact ⟨rfl, rfl, rfl, rfl, rfl, rfl⟩
    · exact ⟨rfl, rfl, rfl, rfl, rfl, rfl⟩

theorem reduce_sameH (e : Env K F) (o : Orc K F) (a b : K) (s : MSt K F) :
    (reduce e o a b s).Sat (SameH s) (SameH s) (fun _ => True) := by
  unfold reduce
  dsimp only
  split <;> exact ⟨rfl, rfl, rfl, rfl, rfl, rfl⟩

theorem augmentRejected_sameH (e : Env K F) (o : Orc K F) (a : K) (s : MSt K F) :
    (augmentRejected e o a s).Sat (SameH s) (SameH s) (fun _ => True) := by
  unfold augmentRejected
  dsimp only
  split
  · trivial
  · exact ⟨rfl, rfl, rfl, rfl, rfl, rfl⟩

theorem restoreF_sameH {s : MSt K F} {r : PassRes K F} (h : r.Sat (SameH s) (SameH s) (fun _ => True)) :
    (r.bind fun s => .cont s.restoreF).Sat (SameH s) (SameH s) (fun _ => True) :=
  PassRes.Sat.bind h fun t h => h.trans (t := t) ⟨rfl, rfl, rfl, rfl, rfl, rfl⟩

/-- A statement about a stage started from a state with the same history. -/
theorem sameH_from {s s' : MSt K F} {r : PassRes K F}
    (h : r.Sat (SameH s') (SameH s') (fun _ => True)) (h0 : SameH s s') : r.Sat (SameH s) (SameH s) (fun _ => True) :=
  h.mono (fun _ h => h0.trans h) (fun _ h => h0.trans h) (fun _ h => h)

theorem replaceOrReduce_sameH (e : Env K F) (o : Orc K F) (a b c : K) (s : MSt K F) :
    (replaceOrReduce e o a b c s).Sat (SameH s) (SameH s) (fun _ => True) := by
  unfold replaceOrReduce
  split
  · dsimp only
    split
    · exact restoreF_sameH (sameH_from (replaceAt_sameH e o a b c _ _) ⟨rfl, rfl, rfl, rfl, rfl, rfl⟩)
    · split
      · exact restoreF_sameH (sameH_from (replaceAt_sameH e o a b c _ _) ⟨rfl, rfl, rfl, rfl, rfl, rfl⟩)
      · exact reduce_sameH e o a c s
  · exact reduce_sameH e o a c s

theorem rejectStep_sameH (e : Env K F) (o : Orc K F) (a b c : K) (s : MSt K F) :
    (rejectStep e o a b c s).Sat (SameH s) (SameH s) (fun _ => True) := by
  unfold rejectStep
  dsimp only
  split
  · exact restoreF_sameH (sameH_from (augmentRejected_sameH e o a _) ⟨rfl, rfl, rfl, rfl, rfl, rfl⟩)
  · exact sameH_from (replaceOrReduce_sameH e o a b c _) ⟨rfl, rfl, rfl, rfl, rfl, rfl⟩

theorem decideStep_sameH (e : Env K F) (o : Orc K F) (norms : K) (s : MSt K F) :
    (decideStep e o norms s).Sat (SameH s) (SameH s) (fun _ => True) := by
  unfold decideStep
  split
  · trivial
  · split
    · trivial
    · dsimp only
      split
      · exact ⟨rfl, rfl, rfl, rfl, rfl, rfl⟩
      · split
        · split
          · exact ⟨rfl, rfl, rfl, rfl, rfl, rfl⟩
          · split
            · exact sameH_from (accepted_sameH e o _ _ _ _ _) ⟨rfl, rfl, rfl, rfl, rfl, rfl⟩
            · split
              · exact sameH_from (accepted_sameH e o _ _ _ _ _) ⟨rfl, rfl, rfl, rfl, rfl, rfl⟩
              · exact sameH_from (rejectStep_sameH e o _ _ _ _) ⟨rfl, rfl, rfl, rfl, rfl, rfl⟩
        · exact sameH_from (rejectStep_sameH e o _ _ _ _) ⟨rfl, rfl, rfl, rfl, rfl, rfl⟩

theorem stepStage_added (e : Env K F) (o : Orc K F) (s : MSt K F) (hs : HLen s) :
    (stepStage e o s).Sat (AddedL e s) (Added e s) (fun _ => True) := by
  unfold stepStage
  refine PassRes.Sat.bind (Q := SameH s)
    ((globalise_sameH e s).mono (fun _ h => h) (fun _ h => h.elim) (fun _ h => h)) ?_
  intro t h1
  have h1' : SameH s { t with niter := t.niter + 1 } := h1.trans ⟨rfl, rfl, rfl, rfl, rfl, rfl⟩
  dsimp only
  split
  · show Added e s _
    exact SameH.added ⟨h1.m, h1.X, h1.fX, h1.ceX, h1.nsimul, h1.w⟩
  · refine PassRes.Sat.bind (Q := AddedL e s) ?_ ?_
    · refine PassRes.Sat.bind (Q := SameH s) ?_ ?_
      · exact (penalty_sameH o _).mono (fun _ h => h1'.trans h) (fun _ h => (h1'.trans h).added) (fun _ h => h)
      · intro u hu
        refine (evalTrial_added e o u (hu.hlen hs)).mono ?_ ?_ (fun _ h => h)
        · rintro v ⟨a, b⟩; exact ⟨hu.added.trans a, b⟩
        · intro v a; exact hu.added.trans a
    · rintro u ⟨a, b⟩
      refine (decideStep_sameH e o _ u).mono ?_ ?_ (fun _ h => h)
      · intro v hv; exact ⟨a.trans hv.added, hv.hlen b⟩
      · intro v hv; exact a.trans hv.added

theorem pass_added (e : Env K F) (o : Orc K F) (s : MSt K F) (hs : HLen s) :
    (pass e o s).Sat (AddedL e s) (Added e s) (fun _ => True) := by
  rw [pass_eq]
  refine PassRes.Sat.bind (Q := AddedL e s) ?_ ?_
  · unfold beforeStep
    split
    · exact SameH.added ⟨rfl, rfl, rfl, rfl, rfl, rfl⟩
    · split
      · exact SameH.added ⟨rfl, rfl, rfl, rfl, rfl, rfl⟩
      · split
        · exact SameH.added ⟨rfl, rfl, rfl, rfl, rfl, rfl⟩
        · dsimp only
          split
          · refine (improve_added e o _ ?_).mono ?_ ?_ (fun _ h => h)
            · exact ⟨hs.X, hs.fX, hs.ce⟩
            · exact fun _ h => ⟨added_from h.1 ⟨rfl, rfl, rfl, rfl, rfl, rfl⟩, h.2⟩
            · exact fun _ h => added_from h ⟨rfl, rfl, rfl, rfl, rfl, rfl⟩
          · exact ⟨SameH.added ⟨rfl, rfl, rfl, rfl, rfl, rfl⟩, hs.X, hs.fX, hs.ce⟩
  · rintro t ⟨a, b⟩
    refine (stepStage_added e o t b).mono ?_ ?_ (fun _ h => h)
    · rintro u ⟨a', b'⟩; exact ⟨a.trans a', b'⟩
    · intro u a'; exact a.trans a'

theorem mainLoop_added (e : Env K F) : ∀ (os : List (Orc K F)) (s t : MSt K F), HLen s →
    mainLoop e os s = .running t ∨ mainLoop e os s = .done t → Added e s t := by
  intro os
  induction os with
  | nil =>
    intro s t _ h
    simp only [mainLoop, reduceCtorEq, or_false, MainRes.running.injEq] at h
    subst h
    exact (SameH.refl s).added
  | cons o os ih =>
    intro s t hs h
    simp only [mainLoop] at h
    have hp := pass_added e o s hs
    cases hr : pass e o s with
    | cont v =>
      rw [hr] at hp h
      exact hp.1.trans (ih v t hp.2 h)
    | ret v =>
      rw [hr] at hp h
      simp only [reduceCtorEq, false_or, MainRes.done.injEq] at h
      subst h
      exact hp
    | crash c => rw [hr] at h; simp at h

end Sqpdfo
