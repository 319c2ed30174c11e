import Verif.Lemmas.MainBefore
import Verif.Spec.Step

/-! # Details of a step: which point leaves the set, what happens to slacks and radius -/

set_option linter.unusedSectionVars false

namespace Sqpdfo
open Spec

/-! ### Lists -/

theorem swapL_mem {α : Type} {l l' : List α} {i j : ℕ} (h : swapL l i j = some l') :
    l'.length = l.length ∧ ∀ a ∈ l, a ∈ l' := by
  unfold swapL at h
  split at h
  swap
  · cases h
  rename_i a b ha hb
  simp only [Option.some.injEq] at h
  subst h
  obtain ⟨hi, ha⟩ := List.getElem?_eq_some_iff.1 ha
  obtain ⟨hj, hb⟩ := List.getElem?_eq_some_iff.1 hb
  refine ⟨by simp, fun c hc => ?_⟩
  obtain ⟨k, hk, rfl⟩ := List.mem_iff_getElem.1 hc
  rw [List.mem_iff_getElem?]
  by_cases hki : k = i
  · subst hki
    exact ⟨j, by rw [List.getElem?_set_self (by simpa using hj), ha]⟩
  · by_cases hkj : k = j
    · subst hkj
      refine ⟨i, ?_⟩
      rw [List.getElem?_set_ne (by exact hki), List.getElem?_set_self hi, hb]
    · refine ⟨k, ?_⟩
      rw [List.getElem?_set_ne (Ne.symm hkj), List.getElem?_set_ne (Ne.symm hki),
        List.getElem?_eq_getElem hk]

theorem swapInY_mem {P C F K : Type} [DecidableEq C] {build : List P → F} {i j : ℕ}
    {s s' : IntSet P C F K} (h : swapInY build i j s = some s') :
    (s'.Y.length = s.Y.length ∧ ∀ y ∈ s.Y, y ∈ s'.Y) ∧
      s'.ind.length = s.ind.length ∧ ∀ k ∈ s.ind, k ∈ s'.ind := by
  unfold swapInY at h
  split at h
  · simp only [Option.some.injEq] at h
    subst h
    exact ⟨⟨rfl, fun _ h => h⟩, rfl, fun _ h => h⟩
  · simp only at h
    split at h
    · rename_i h1 h2 _ _ _
      simp only [Option.some.injEq] at h
      subst h
      exact ⟨swapL_mem h1, swapL_mem h2⟩
    · cases h

variable {K F : Type} [Field K] [LinearOrder K] [IsStrictOrderedRing K]

/-! ### Slacks -/

theorem moveSl_moved (e : Env K F) (ce sl : List K) (i : ℕ) (s c : K) (hs : sl[i]? = some s)
    (hc : ce[e.me - e.ns + i]? = some c) :
    ∃ s', (moveSl e ce sl)[i]? = some s' ∧ SlackMoved e.sqrt s c s' := by
  unfold moveSl
  rw [List.getElem?_zipWith, hs, List.getElem?_drop, hc]
  refine ⟨_, rfl, fun h1 h2 => ?_, fun h => ?_⟩
  · rw [if_pos ⟨h1, h2⟩]
  · rw [if_neg h]

/-! ### The accepted step -/

theorem accepted_eq {e : Env K F} {o : Orc K F} {f rho norms : K} {pos : ℕ} {s t : MSt K F}
    (h : accepted e o f rho norms pos s = .cont t) :
    (0 < e.me → s.ceplus.length = e.me) ∧
      (∃ S, t.set = S ∧ swapInY e.build 0 pos { s.set with
          ind := setOrAppend s.set.ind pos s.m
          fY := setOrAppend s.set.fY pos f
          ceY := if e.me > 0 then setOrAppend s.set.ceY pos s.ceplus else s.set.ceY } = some S) ∧
      t.infoCe = (if e.me > 0 then s.ceplus else s.infoCe) ∧
      t.sl = (if e.me > 0 ∧ e.ns > 0 then moveSl e t.infoCe o.slplus else s.sl) ∧
      t.delta = succDelta rho o.active norms s.delta ∧ t.ixbest = s.m ∧ t.cur = s.cur := by
  unfold accepted at h
  simp only at h
  by_cases hcs : e.me > 0 ∧ s.ceplus.length ≠ e.me
  · rw [if_pos hcs] at h; cases h
  rw [if_neg hcs] at h
  have hS : (if e.me > 0 then
      ({ s.set with
          ind := setOrAppend s.set.ind pos s.m
          fY := setOrAppend s.set.fY pos f
          ceY := setOrAppend s.set.ceY pos s.ceplus } : IntSet (List K) (List K) F K)
      else { s.set with
          ind := setOrAppend s.set.ind pos s.m
          fY := setOrAppend s.set.fY pos f }) = { s.set with
          ind := setOrAppend s.set.ind pos s.m
          fY := setOrAppend s.set.fY pos f
          ceY := if e.me > 0 then setOrAppend s.set.ceY pos s.ceplus else s.set.ceY } := by
    split <;> rfl
  rw [hS] at h
  split at h
  · cases h
  · rename_i S hS
    split at h
    · cases h
    · simp only [PassRes.cont.injEq] at h
      subst h
      refine ⟨fun h0 => ?_, ⟨S, rfl, hS⟩, rfl, rfl, rfl, rfl, rfl⟩
      by_contra hne
      exact hcs ⟨h0, hne⟩

theorem replaceAt_eq {e : Env K F} {o : Orc K F} {f rho norms : K} {pos : ℕ} {s t : MSt K F}
    (hY : 0 < e.me → pos < s.set.ceY.length)
    (h : replaceAt e o f rho norms pos s = .cont t) :
    (0 < e.me → s.ceplus.length = e.me) ∧ t.cur = s.cur ∧
      (cEta1 ≤ rho ∧
        (∃ S, t.set = S ∧ swapInY e.build 0 pos { s.set with
          ind := s.set.ind.set pos s.m
          fY := s.set.fY.set pos f
          ceY := if e.me > 0 then s.set.ceY.set pos s.ceplus else s.set.ceY } = some S) ∧
        t.infoCe = (if e.me > 0 then s.ceplus else s.infoCe) ∧
        t.sl = (if e.me > 0 ∧ e.ns > 0 then moveSl e t.infoCe o.slplus else s.sl) ∧
        t.delta = min (max (2 * norms) s.delta) cDeltamax ∧ t.ixbest = s.m ∨
      rho < cEta1 ∧ t.set.Y = s.set.Y ∧ t.set.ind = s.set.ind.set pos s.m ∧ t.sl = s.sl ∧
        t.infoCe = s.infoCe ∧ t.ixbest = s.ixbest ∧
        t.delta = if s.delta > cEps then cGamma2 * s.delta else s.delta) := by
  unfold replaceAt at h
  by_cases hcs : e.me > 0 ∧ s.ceplus.length ≠ e.me
  · rw [if_pos hcs] at h; cases h
  rw [if_neg hcs] at h
  simp only at h
  have hce : 0 < e.me → s.ceplus.length = e.me := fun h0 => by
    by_contra hne
    exact hcs ⟨h0, hne⟩
  by_cases hrho : rho ≥ cEta1
  · rw [if_pos hrho] at h
    split at h
    · cases h
    · rename_i S hS
      split at h
      · cases h
      · simp only [PassRes.cont.injEq] at h
        subst h
        refine ⟨hce, rfl, Or.inl ⟨hrho, ⟨S, rfl, hS⟩, ?_, rfl, rfl, rfl⟩⟩
        show (match S.ceY[0]? with
          | some c => if e.me > 0 then c else s.infoCe
          | none => s.infoCe) = _
        by_cases h0 : e.me > 0
        · rw [if_pos h0]
          have hget : S.ceY[0]? = some s.ceplus := by
            rw [if_pos h0] at hS
            unfold swapInY at hS
            split at hS
            · rename_i hz
              simp only [Option.some.injEq] at hS
              subst hS hz
              exact List.getElem?_set_self (hY h0)
            · rename_i hz
              simp only at hS
              split at hS
              · rename_i h5
                simp only [Option.some.injEq] at hS
                subst hS
                rw [if_neg (by omega), if_neg (by omega)] at h5
                unfold swapOpt at h5
                rw [if_neg (by
                  intro h6
                  have := hY h0
                  rw [← List.length_set (i := pos) (a := s.ceplus), h6] at this
                  simp at this)] at h5
                unfold swapL at h5
                split at h5
                · rename_i a b ha hb
                  simp only [Option.some.injEq] at h5
                  rw [List.getElem?_set_self (hY h0)] at hb
                  simp only [Option.some.injEq] at hb
                  show _ = _
                  rw [← h5, List.getElem?_set_ne (by omega), List.getElem?_set_self (by
                    have := hY h0
                    simp; omega), hb]
                · cases h5
              · cases hS
          rw [hget]
          exact if_pos h0
        · rw [if_neg h0]
          cases S.ceY[0]? with
          | none => rfl
          | some c => exact if_neg h0
  · rw [if_neg hrho] at h
    simp only [PassRes.cont.injEq] at h
    subst h
    exact ⟨hce, rfl, Or.inr ⟨not_le.1 hrho, rfl, rfl, rfl, rfl, rfl, rfl⟩⟩

/-! ### Which point leaves the set -/

theorem include_chosen {P : Type} (dist : P → P → K) (build : List P → F) (lval : ℕ → K)
    (choice : List ℕ) (thr : K) (hthr : 0 ≤ thr) (c : Crit) (x ref : P) (Y : List P) (fac : F)
    (crit : ℕ → K)
    (hcrit : ∀ j y, Y[j]? = some y → crit j = match c with
      | .weighted => dist y ref ^ 2 * |lval j|
      | .standard => |lval j|
      | .distance => dist y ref) :
    (∀ pos, (includeInY dist build lval choice thr c x ref Y fac).1 = some pos →
      Chosen (· ∈ choice) thr lval crit Y.length pos ∧
        (includeInY dist build lval choice thr c x ref Y fac).2.1 = Y.set pos x) ∧
      ((includeInY dist build lval choice thr c x ref Y fac).1 = none →
        ∀ j, j < Y.length → j ∈ choice → thr < |lval j| → crit j ≤ 0) := by
  have h := C26_include dist build lval choice thr hthr c x ref Y fac crit hcrit
  generalize includeInY dist build lval choice thr c x ref Y fac = r at h
  obtain ⟨p, Y', fac'⟩ := r
  cases p with
  | none =>
    refine ⟨fun _ h0 => (by cases h0), fun _ j h1 h2 h3 => h.2.2 j h2 h1 h3⟩
  | some pos =>
    refine ⟨fun p hp => ?_, fun h0 => (by cases h0)⟩
    simp only [Option.some.injEq] at hp
    subst hp
    obtain ⟨h1, h2, h3, -, h5, h6, h7, h8, -⟩ := h
    refine ⟨⟨h2, h1, h3, fun j a b c => h5 j b a c⟩, ?_⟩
    show Y' = _
    apply List.ext_getElem?
    intro k
    by_cases hk : k = pos
    · subst hk; rw [h7, List.getElem?_set_self h2]
    · rw [h8 k hk, List.getElem?_set_ne (Ne.symm hk)]

theorem mem_findIdx_iff {p : K → Bool} {d : List K} {j : ℕ} :
    j ∈ findIdx p d ↔ ∃ v, d[j]? = some v ∧ p v = true := by
  refine ⟨mem_findIdx, ?_⟩
  rintro ⟨v, h1, h2⟩
  unfold findIdx
  rw [List.mem_filter, List.mem_range]
  refine ⟨(List.getElem?_eq_some_iff.1 h1).1, ?_⟩
  rw [h1]; exact h2

theorem Spec.Chosen.congr {cand cand' : ℕ → Prop} {thr : K} {lval m : ℕ → K} {n pos : ℕ}
    (h : Chosen cand thr lval m n pos) (hc : ∀ j, j < n → (cand j ↔ cand' j)) :
    Chosen cand' thr lval m n pos :=
  ⟨h.lt, (hc _ h.lt).1 h.isCand, h.above, fun j a b c => h.best j a ((hc j a).2 b) c⟩

/-- Distance of the `j`-th point of the set from `y`. -/
def setDist (e : Env K F) (s : MSt K F) (y : List K) (j : ℕ) : K := e.dist (s.set.Y.getD j []) y

/-- The replacement of a far or close point. -/
def RepPick (e : Env K F) (o : Orc K F) (s : MSt K F) (good : Prop) (pos : ℕ) : Prop :=
  good ∧ FarOrClose (fun _ => True) ((1 + 1 / 10 ^ 4) * s.delta) (1 / 10 ^ 15) (setDist e s o.xnew)
      o.lval2 (fun j => setDist e s o.xnew j ^ 2 * |o.lval2 j|) o.lval3 s.cur pos ∨
    ¬ good ∧ FarOrClose (fun j => 0 < j) ((1 + 1 / 10 ^ 4) * s.delta) (6 / 5) (setDist e s s.x)
      o.lval2 (setDist e s s.x) o.lval3 s.cur pos

/-- No point of the set can be replaced. -/
def NoPick (e : Env K F) (o : Orc K F) (s : MSt K F) (good : Prop) : Prop :=
  good ∧ NothingToReplace (fun _ => True) ((1 + 1 / 10 ^ 4) * s.delta) (1 / 10 ^ 15)
      (setDist e s o.xnew) o.lval2 o.lval3 s.cur ∨
    ¬ good ∧ NothingToReplace (fun j => 0 < j) ((1 + 1 / 10 ^ 4) * s.delta) (6 / 5)
      (setDist e s s.x) o.lval2 o.lval3 s.cur

theorem farDists_get (e : Env K F) (rho : K) (y : List K) (s : MSt K F) (hY : s.set.Y.length = s.cur)
    (j : ℕ) (hj : j < s.cur) :
    (cEta1 ≤ rho → (farDists e rho y s)[j]? = some (setDist e s y j)) ∧
      (¬ cEta1 ≤ rho → (farDists e rho y s)[j]? =
        some (if j = 0 then 0 else setDist e s s.x j)) := by
  have hj' : j < s.set.Y.length := by omega
  unfold farDists setDist
  refine ⟨fun h => ?_, fun h => ?_⟩
  · rw [if_pos h, List.getElem?_map, List.getD_eq_getElem?_getD,
      List.getElem?_eq_getElem hj']
    rfl
  · rw [if_neg h]
    cases hY' : s.set.Y with
    | nil => rw [hY'] at hj'; simp at hj'
    | cons b l =>
      cases j with
      | zero => simp
      | succ k =>
        rw [hY'] at hj'
        simp only [List.length_cons, Nat.add_lt_add_iff_right] at hj'
        simp [hj']

theorem replaceOrReduce_detail {e : Env K F} {o : Orc K F} {f rho norms : K} {s t : MSt K F}
    (hI : Inv e [] s) (h : replaceOrReduce e o f rho norms s = .cont t) :
    ((s.poisedModel = false ∨ s.delta ≤ s.epsCur) ∧ ∃ (pos : ℕ) (fac : F) (u : MSt K F),
        RepPick e o s (cEta1 ≤ rho) pos ∧
        replaceAt e o f rho norms pos
          { s with set := { s.set with Y := s.set.Y.set pos o.xnew, fac := fac } } = .cont u ∧
        t = u.restoreF) ∨
      ((s.poisedModel = false ∨ s.delta ≤ s.epsCur) → NoPick e o s (cEta1 ≤ rho)) ∧
        reduce e o f norms s = .cont t := by
  unfold replaceOrReduce at h
  by_cases hg : s.poisedModel = false ∨ s.delta ≤ s.epsCur
  swap
  · rw [if_neg hg] at h
    exact Or.inr ⟨fun h0 => absurd h0 hg, h⟩
  rw [if_pos hg] at h
  simp only at h
  have hY := hI.Ylen
  have hδ : 0 < (1 + 1 / 10 ^ 4) * s.delta := by have := hI.delta; positivity
  have hfp : (1 + cEpsTR) * s.delta = (1 + 1 / 10 ^ 4) * s.delta := rfl
  rw [hfp] at h
  unfold RepPick NoPick
  generalize (1 + 1 / 10 ^ 4) * s.delta = fp at *
  have hget := fun j hj => farDists_get e rho o.xnew s hY j hj
  have hin : ∀ j y z, s.set.Y[j]? = some y → e.dist y z = setDist e s z j := by
    intro j y z hy
    unfold setDist
    rw [List.getD_eq_getElem?_getD, hy]; rfl
  by_cases hr : cEta1 ≤ rho
  · -- successful
    have hr' : rho ≥ cEta1 := hr
    simp only [if_pos hr'] at h
    have c1 := include_chosen e.dist e.build o.lval2
      (findIdx (fun v => decide (v > fp)) (farDists e rho o.xnew s)) (1 / 10 ^ 10) (by positivity)
      .weighted o.xnew o.xnew s.set.Y s.set.fac (fun j => setDist e s o.xnew j ^ 2 * |o.lval2 j|)
      (fun j y hy => by simp only; rw [hin j y _ hy])
    have c2 := include_chosen e.dist e.build o.lval3
      (findIdx (fun v => decide (v ≤ fp)) (farDists e rho o.xnew s)) (1 / 10 ^ 15) (by positivity)
      .standard o.xnew o.xnew s.set.Y s.set.fac (fun j => |o.lval3 j|) (fun j y hy => rfl)
    rw [hY] at c1 c2
    have m1 : ∀ j, j < s.cur → (j ∈ findIdx (fun v => decide (v > fp)) (farDists e rho o.xnew s) ↔
        True ∧ fp < setDist e s o.xnew j) := by
      intro j hj
      rw [mem_findIdx_iff, (hget j hj).1 hr]
      simp
    have m2 : ∀ j, j < s.cur → (j ∈ findIdx (fun v => decide (v ≤ fp)) (farDists e rho o.xnew s) ↔
        True ∧ setDist e s o.xnew j ≤ fp) := by
      intro j hj
      rw [mem_findIdx_iff, (hget j hj).1 hr]
      simp
    have n1 : (includeInY e.dist e.build o.lval2
        (findIdx (fun v => decide (v > fp)) (farDists e rho o.xnew s)) (1 / 10 ^ 10) .weighted o.xnew
        o.xnew s.set.Y s.set.fac).1 = none →
        NoneAbove (fun j => True ∧ fp < setDist e s o.xnew j) (1 / 10 ^ 10) o.lval2 s.cur := by
      intro hn j hj hc
      by_contra hlt
      rw [not_le] at hlt
      have := c1.2 hn j hj ((m1 j hj).2 hc) hlt
      have h0 : (0 : K) < 1 / 10 ^ 10 := by positivity
      have h1 : 0 < |o.lval2 j| := lt_trans h0 hlt
      have h2 : 0 < setDist e s o.xnew j := lt_trans hδ hc.2
      have h3 : 0 < setDist e s o.xnew j ^ 2 * |o.lval2 j| := by positivity
      exact absurd this (not_le.2 h3)
    split at h
    · rename_i pos hpos
      obtain ⟨d1, d2⟩ := c1.1 pos hpos
      rw [d2] at h
      obtain ⟨u, hu, ht⟩ := bind_cont h
      simp only [PassRes.cont.injEq] at ht
      exact Or.inl ⟨hg, pos, _, u, Or.inl ⟨hr, Or.inl (d1.congr m1)⟩, hu, ht.symm⟩
    · rename_i hn1
      split at h
      · rename_i pos hpos
        obtain ⟨d1, d2⟩ := c2.1 pos hpos
        rw [d2] at h
        obtain ⟨u, hu, ht⟩ := bind_cont h
        simp only [PassRes.cont.injEq] at ht
        exact Or.inl ⟨hg, pos, _, u, Or.inl ⟨hr, Or.inr ⟨n1 hn1, d1.congr m2⟩⟩, hu, ht.symm⟩
      · rename_i hn2
        refine Or.inr ⟨fun _ => Or.inl ⟨hr, n1 hn1, fun j hj hc => ?_⟩, h⟩
        by_contra hlt
        rw [not_le] at hlt
        have := c2.2 hn2 j hj ((m2 j hj).2 hc) hlt
        have h0 : (0 : K) < 1 / 10 ^ 15 := by positivity
        exact absurd this (not_le.2 (lt_trans h0 hlt))
  · have hr' : ¬ rho ≥ cEta1 := hr
    simp only [if_neg hr'] at h
    have c1 := include_chosen e.dist e.build o.lval2
      (findIdx (fun v => decide (v > fp)) (farDists e rho o.xnew s)) (1 / 10 ^ 10) (by positivity)
      .distance o.xnew s.x s.set.Y s.set.fac (setDist e s s.x)
      (fun j y hy => by simp only; rw [hin j y _ hy])
    have c2 := include_chosen e.dist e.build o.lval3
      (findIdx (fun v => decide (v ≤ fp)) ((farDists e rho o.xnew s).set 0 (2 * fp))) (6 / 5)
      (by positivity) .standard o.xnew s.x s.set.Y s.set.fac (fun j => |o.lval3 j|)
      (fun j y hy => rfl)
    rw [hY] at c1 c2
    have m1 : ∀ j, j < s.cur → (j ∈ findIdx (fun v => decide (v > fp)) (farDists e rho o.xnew s) ↔
        0 < j ∧ fp < setDist e s s.x j) := by
      intro j hj
      rw [mem_findIdx_iff, (hget j hj).2 hr]
      simp only [Option.some.injEq, exists_eq_left', decide_eq_true_eq, gt_iff_lt]
      by_cases h0 : j = 0
      · rw [if_pos h0]
        exact ⟨fun h1 => absurd h1 (not_lt.2 hδ.le), fun h1 => by omega⟩
      · rw [if_neg h0]
        exact ⟨fun h1 => ⟨by omega, h1⟩, fun h1 => h1.2⟩
    have m2 : ∀ j, j < s.cur → (j ∈ findIdx (fun v => decide (v ≤ fp))
        ((farDists e rho o.xnew s).set 0 (2 * fp)) ↔ 0 < j ∧ setDist e s s.x j ≤ fp) := by
      intro j hj
      rw [mem_findIdx_iff]
      by_cases h0 : j = 0
      · subst h0
        have hl : 0 < (farDists e rho o.xnew s).length :=
          (List.getElem?_eq_some_iff.1 ((hget 0 hj).2 hr)).1
        rw [List.getElem?_set_self hl]
        simp only [Option.some.injEq, exists_eq_left', decide_eq_true_eq]
        exact ⟨fun h1 => by linarith, fun h1 => by omega⟩
      · rw [List.getElem?_set_ne (Ne.symm h0), (hget j hj).2 hr, if_neg h0]
        simp only [Option.some.injEq, exists_eq_left', decide_eq_true_eq]
        exact ⟨fun h1 => ⟨by omega, h1⟩, fun h1 => h1.2⟩
    have n1 : (includeInY e.dist e.build o.lval2
        (findIdx (fun v => decide (v > fp)) (farDists e rho o.xnew s)) (1 / 10 ^ 10) .distance o.xnew
        s.x s.set.Y s.set.fac).1 = none →
        NoneAbove (fun j => 0 < j ∧ fp < setDist e s s.x j) (1 / 10 ^ 10) o.lval2 s.cur := by
      intro hn j hj hc
      by_contra hlt
      rw [not_le] at hlt
      have := c1.2 hn j hj ((m1 j hj).2 hc) hlt
      exact absurd this (not_le.2 (lt_trans hδ hc.2))
    split at h
    · rename_i pos hpos
      obtain ⟨d1, d2⟩ := c1.1 pos hpos
      rw [d2] at h
      obtain ⟨u, hu, ht⟩ := bind_cont h
      simp only [PassRes.cont.injEq] at ht
      exact Or.inl ⟨hg, pos, _, u, Or.inr ⟨hr, Or.inl (d1.congr m1)⟩, hu, ht.symm⟩
    · rename_i hn1
      split at h
      · rename_i pos hpos
        obtain ⟨d1, d2⟩ := c2.1 pos hpos
        rw [d2] at h
        obtain ⟨u, hu, ht⟩ := bind_cont h
        simp only [PassRes.cont.injEq] at ht
        exact Or.inl ⟨hg, pos, _, u, Or.inr ⟨hr, Or.inr ⟨n1 hn1, d1.congr m2⟩⟩, hu, ht.symm⟩
      · rename_i hn2
        refine Or.inr ⟨fun _ => Or.inr ⟨hr, n1 hn1, fun j hj hc => ?_⟩, h⟩
        by_contra hlt
        rw [not_le] at hlt
        have := c2.2 hn2 j hj ((m2 j hj).2 hc) hlt
        have h0 : (0 : K) < 6 / 5 := by positivity
        exact absurd this (not_le.2 (lt_trans h0 hlt))

/-! ### The decision as a whole -/

/-- The trial point becomes the iterate. -/
structure Accepts (e : Env K F) (o : Orc K F) (norms : K) (s t : MSt K F) : Prop where
  ixbest : t.ixbest = s.m
  ceplus : 0 < e.me → s.ceplus.length = e.me
  infoCe : t.infoCe = if e.me > 0 then s.ceplus else s.infoCe
  sl : t.sl = if e.me > 0 ∧ e.ns > 0 then moveSl e t.infoCe o.slplus else s.sl
  delta : (∃ rho, cEta1 ≤ rho ∧ t.delta = succDelta rho o.active norms s.delta) ∨
    t.delta = min (max (2 * norms) s.delta) cDeltamax

/-- The iterate stays. -/
structure Keeps (s t : MSt K F) : Prop where
  ixbest : t.ixbest = s.ixbest
  infoCe : t.infoCe = s.infoCe
  sl : t.sl = s.sl

/-- The set can still grow, and does. -/
def Grows (o : Orc K F) (s t : MSt K F) : Prop :=
  t.cur = s.cur + 1 ∧ Joins s.m o.xnew s.set.Y t.set.Y s.set.ind t.set.ind

/-- Candidates for an accepted point in a full set. -/
def AccPick (e : Env K F) (o : Orc K F) (s : MSt K F) (pos : ℕ) : Prop :=
  Chosen (fun _ => True) (1 / 10 ^ 10) o.lval1 (setDist e s o.xnew) s.cur pos ∨
    (∀ j, j < s.cur → 1 / 10 ^ 10 < |o.lval1 j| → setDist e s o.xnew j ≤ 0) ∧
      (s.poisedModel = false ∨ s.delta ≤ s.epsCur) ∧
      FarOrClose (fun _ => True) ((1 + 1 / 10 ^ 4) * s.delta) (1 / 10 ^ 15) (setDist e s o.xnew)
        o.lval2 (fun j => setDist e s o.xnew j ^ 2 * |o.lval2 j|) o.lval3 s.cur pos

theorem takesPlace_swap {e : Env K F} {s : MSt K F} {pos : ℕ} {x : List K} {fY : List K}
    {ceY : List (List K)} {fac : F} {S : IntSet (List K) (List K) F K}
    (hI : Inv e [] s) (hp : pos < s.cur)
    (h : swapInY e.build 0 pos { s.set with
      Y := s.set.Y.set pos x
      fac := fac
      ind := s.set.ind.set pos s.m
      fY := fY
      ceY := ceY } = some S) :
    TakesPlace pos s.m x s.set.Y S.Y s.set.ind S.ind := by
  obtain ⟨⟨a1, a2⟩, a3, a4⟩ := swapInY_mem h
  simp only [List.length_set] at a1 a3
  refine ⟨⟨a1, a3⟩, ⟨a2 _ (List.mem_set (by rw [hI.Ylen]; exact hp) _),
    a4 _ (List.mem_set (by rw [hI.indlen]; exact hp) _)⟩, fun j y hj hy => ?_, fun j i hj hi => ?_⟩
  · exact a2 _ (List.mem_of_getElem? (i := j) (by
      rw [List.getElem?_set_ne (Ne.symm hj)]; exact hy))
  · exact a4 _ (List.mem_of_getElem? (i := j) (by
      rw [List.getElem?_set_ne (Ne.symm hj)]; exact hi))

theorem setOrAppend_lt {α : Type} {l : List α} {i : ℕ} {a : α} (h : i < l.length) :
    setOrAppend l i a = l.set i a := if_pos h

theorem setOrAppend_end {α : Type} {l : List α} {a : α} : setOrAppend l l.length a = l ++ [a] :=
  if_neg (lt_irrefl _)

/-- The decision about the trial point in detail. -/
theorem decideStep_detail {e : Env K F} {o : Orc K F} {norms : K} {s t : MSt K F}
    (hI : Inv e [] s) (h : decideStep e o norms s = .cont t) (hp : t.pred ≠ -1) :
    ∃ f, s.ev.fX[s.m]? = some (.fin f) ∧
    ((Accepts e o norms s t ∧ (growable e s.cur ∧ Grows o s t ∨
        ¬ growable e s.cur ∧ t.cur = s.cur ∧ ∃ pos,
          TakesPlace pos s.m o.xnew s.set.Y t.set.Y s.set.ind t.set.ind ∧ AccPick e o s pos)) ∨
      (Keeps s t ∧ (t.delta = if s.delta > cEps then cGamma2 * s.delta else s.delta) ∧
        (growable e s.cur ∧ Grows o s t ∨
          ¬ growable e s.cur ∧ t.cur = s.cur ∧ (s.poisedModel = false ∨ s.delta ≤ s.epsCur) ∧
            ∃ pos, t.set.Y = s.set.Y.set pos o.xnew ∧ t.set.ind = s.set.ind.set pos s.m ∧
              FarOrClose (fun j => 0 < j) ((1 + 1 / 10 ^ 4) * s.delta) (6 / 5) (setDist e s s.x)
                o.lval2 (setDist e s s.x) o.lval3 s.cur pos)) ∨
      (Keeps s t ∧ ¬ growable e s.cur ∧ t.cur = s.cur ∧ t.set = s.set ∧
        t.delta = redDelta (gamInter f s.fx o.gTs t.pred) s.delta norms ∧
        ((s.poisedModel = false ∨ s.delta ≤ s.epsCur) → ∃ good, NoPick e o s good))) := by
  have hfr := (decideStep_outcome e o norms s t hI h).1
  unfold decideStep at h
  have hm : s.m < s.ev.fX.length := by rw [hI.fXlen]; omega
  obtain ⟨q, hq⟩ := hI.fin _ (List.getElem_mem hm)
  have hfX : s.ev.fX[s.m]? = some (.fin q) := by rw [List.getElem?_eq_getElem hm, hq]
  have hb : (s.ev.fX[s.m]?).bind Fl.val? = some q := by rw [hfX]; rfl
  refine ⟨q, hfX, ?_⟩
  rw [hb] at h
  simp only at h
  have hpt : t.pred = newPred o s.sigma := hfr.pred
  cases hc : e.resNorm s.ceplus o.slplus with
  | none => rw [hc] at h; cases h
  | some c =>
    rw [hc] at h
    simp only at h
    rw [hpt] at hp
    rw [if_neg hp] at h
    simp only [if_neg hp] at h
    rw [hpt]
    generalize newPred o s.sigma = p at *
    generalize (s.merit0 - (q + s.sigma * c)) / p = rho at *
    have h' : Inv e [] { s with pred := p } := { hI with link := fun j hj hp => hI.link j hj hp }
    have gr := fun hg => growable_augment e o.xnew s hI.toCore hg
    have rej : rejectStep e o q rho norms { s with pred := p } = .cont t →
        (cEta1 ≤ rho → ¬ growable e s.cur ∧
          ∀ j, j < s.cur → 1 / 10 ^ 10 < |o.lval1 j| → setDist e s o.xnew j ≤ 0) →
        ((Accepts e o norms s t ∧ (growable e s.cur ∧ Grows o s t ∨
        ¬ growable e s.cur ∧ t.cur = s.cur ∧ ∃ pos,
          TakesPlace pos s.m o.xnew s.set.Y t.set.Y s.set.ind t.set.ind ∧ AccPick e o s pos)) ∨
      (Keeps s t ∧ (t.delta = if s.delta > cEps then cGamma2 * s.delta else s.delta) ∧
        (growable e s.cur ∧ Grows o s t ∨
          ¬ growable e s.cur ∧ t.cur = s.cur ∧ (s.poisedModel = false ∨ s.delta ≤ s.epsCur) ∧
            ∃ pos, t.set.Y = s.set.Y.set pos o.xnew ∧ t.set.ind = s.set.ind.set pos s.m ∧
              FarOrClose (fun j => 0 < j) ((1 + 1 / 10 ^ 4) * s.delta) (6 / 5) (setDist e s s.x)
                o.lval2 (setDist e s s.x) o.lval3 s.cur pos)) ∨
      (Keeps s t ∧ ¬ growable e s.cur ∧ t.cur = s.cur ∧ t.set = s.set ∧
        t.delta = redDelta (gamInter q s.fx o.gTs p) s.delta norms ∧
        ((s.poisedModel = false ∨ s.delta ≤ s.epsCur) → ∃ good, NoPick e o s good))) := by
      intro hr hgood
      unfold rejectStep at hr
      simp only at hr
      by_cases hg : growable e s.cur ∧ rho < cEta1
      · rw [if_pos hg] at hr
        obtain ⟨g1, g2, -⟩ := gr hg.1
        obtain ⟨u, hu, ht⟩ := bind_cont hr
        simp only [PassRes.cont.injEq] at ht
        subst ht
        unfold augmentRejected at hu
        simp only at hu
        by_cases hcs : e.me > 0 ∧ s.ceplus.length ≠ e.me
        · rw [if_pos hcs] at hu; cases hu
        rw [if_neg hcs] at hu
        simp only [PassRes.cont.injEq] at hu
        subst hu
        refine Or.inr (Or.inl ⟨⟨rfl, rfl, rfl⟩, rfl, Or.inl ⟨hg.1, g1, ?_⟩⟩)
        have hi : s.set.ind.length = s.cur := hI.indlen
        refine ⟨⟨?_, ?_⟩, ⟨?_, ?_⟩, fun y hy => ?_, fun i hi => ?_⟩
        · show (augmentY e o.xnew (s.set.Y.take s.cur)).2.1.length = _
          rw [g2]; simp
        · show (setOrAppend s.set.ind ((augmentY e o.xnew (s.set.Y.take s.cur)).1 - 1) s.m).length = _
          rw [g1, Nat.add_sub_cancel, ← hi, setOrAppend_end]; simp
        · show _ ∈ (augmentY e o.xnew (s.set.Y.take s.cur)).2.1
          rw [g2]; simp
        · show _ ∈ setOrAppend s.set.ind ((augmentY e o.xnew (s.set.Y.take s.cur)).1 - 1) s.m
          rw [g1, Nat.add_sub_cancel, ← hi, setOrAppend_end]; simp
        · show _ ∈ (augmentY e o.xnew (s.set.Y.take s.cur)).2.1
          rw [g2]; simp [hy]
        · show _ ∈ setOrAppend s.set.ind ((augmentY e o.xnew (s.set.Y.take s.cur)).1 - 1) s.m
          rw [g1, Nat.add_sub_cancel, ← hI.indlen, setOrAppend_end]; simp [hi]
      · rw [if_neg hg] at hr
        have hng : ¬ growable e s.cur := by
          intro hgr
          by_cases hl : rho < cEta1
          · exact hg ⟨hgr, hl⟩
          · exact (hgood (not_lt.1 hl)).1 hgr
        have h'' : Inv e [] { s with pred := p, rejected := true } :=
          { hI with link := fun j hj hp => hI.link j hj hp }
        rcases replaceOrReduce_detail h'' hr with ⟨a1, pos, fac, u, a2, a3, a4⟩ | ⟨a1, a2⟩
        · have hlt : pos < s.cur := by
            rcases a2 with ⟨-, a2 | a2⟩ | ⟨-, a2 | a2⟩
            · exact a2.lt
            · exact a2.2.lt
            · exact a2.lt
            · exact a2.2.lt
          obtain ⟨b1, b2, b3⟩ := replaceAt_eq (fun h0 => by
            show pos < s.set.ceY.length
            rw [hI.ceY1 h0]; exact hlt) a3
          subst a4
          rcases b3 with ⟨c1, ⟨S, c2, c3⟩, c4, c5, c6, c7⟩ | ⟨c1, c2, c3, c4, c5, c6, c7⟩
          · refine Or.inl ⟨⟨c7, b1, c4, c5, Or.inr c6⟩, Or.inr ⟨hng, b2, pos, ?_, Or.inr ⟨(hgood c1).2, a1, ?_⟩⟩⟩
            · have := takesPlace_swap (s := s) hI hlt c3
              rw [← c2] at this
              exact this
            · rcases a2 with ⟨-, a2⟩ | ⟨a2, -⟩
              · exact a2
              · exact absurd c1 a2
          · refine Or.inr (Or.inl ⟨⟨c6, c5, c4⟩, c7, Or.inr ⟨hng, b2, a1, pos, c2, c3, ?_⟩⟩)
            rcases a2 with ⟨a2, -⟩ | ⟨-, a2⟩
            · exact absurd a2 (not_le.2 c1)
            · exact a2
        · unfold reduce at a2
          simp only at a2
          split at a2
          · cases a2
          · simp only [PassRes.cont.injEq] at a2
            subst a2
            exact Or.inr (Or.inr ⟨⟨rfl, rfl, rfl⟩, hng, rfl, rfl, rfl, fun h0 => ⟨_, a1 h0⟩⟩)
    by_cases hrho : rho ≥ cEta1
    swap
    · rw [if_neg hrho] at h
      exact rej h (fun h0 => absurd h0 hrho)
    rw [if_pos hrho] at h
    split at h
    · cases h
    by_cases hg : growable e s.cur
    · rw [if_pos hg] at h
      obtain ⟨g1, g2, -⟩ := gr hg
      obtain ⟨b1, ⟨S, b2, b3⟩, b4, b5, b6, b7, b8⟩ := accepted_eq h
      refine Or.inl ⟨⟨b7, b1, b4, b5, Or.inl ⟨rho, hrho, b6⟩⟩, Or.inl ⟨hg, b8.trans g1, ?_⟩⟩
      obtain ⟨⟨d1, d2⟩, d3, d4⟩ := swapInY_mem b3
      simp only [g1, g2, Nat.add_sub_cancel] at d1 d2 d3 d4
      rw [← hI.indlen, setOrAppend_end] at d3 d4
      rw [b2]
      exact ⟨⟨by rw [d1]; simp, by rw [d3]; simp⟩, ⟨d2 _ (by simp), d4 _ (by simp)⟩,
        fun y hy => d2 y (by simp [hy]), fun i hi => d4 i (by simp [hi])⟩
    · rw [if_neg hg] at h
      have hin : ∀ j y z, s.set.Y[j]? = some y → e.dist y z = setDist e s z j := by
        intro j y z hy
        unfold setDist
        rw [List.getD_eq_getElem?_getD, hy]; rfl
      have cc := include_chosen e.dist e.build o.lval1 (List.range s.cur) (1 / 10 ^ 10)
        (by positivity) .distance o.xnew o.xnew s.set.Y s.set.fac (setDist e s o.xnew)
        (fun j y hy => by simp only; rw [hin j y _ hy])
      rw [hI.Ylen] at cc
      split at h
      · rename_i pos hpos
        obtain ⟨d1, d2⟩ := cc.1 pos hpos
        have hlt := d1.lt
        rw [d2] at h
        obtain ⟨b1, ⟨S, b2, b3⟩, b4, b5, b6, b7, b8⟩ := accepted_eq h
        refine Or.inl ⟨⟨b7, b1, b4, b5, Or.inl ⟨rho, hrho, b6⟩⟩, Or.inr ⟨hg, b8, pos, ?_, Or.inl ?_⟩⟩
        · simp only at b3
          rw [setOrAppend_lt (by rw [hI.indlen]; exact hlt)] at b3
          have := takesPlace_swap (s := s) hI hlt b3
          rw [← b2] at this
          exact this
        · exact d1.congr (fun j hj => by simp [hj])
      · rename_i hn
        exact rej h (fun _ => ⟨hg, fun j hj hl => cc.2 hn j hj (by simp [hj]) hl⟩)

theorem decideStep_null {e : Env K F} {o : Orc K F} {norms : K} {s t : MSt K F}
    (hI : Inv e [] s) (h : decideStep e o norms s = .cont t) (hp : t.pred = -1) :
    t = { s with pred := -1 } := by
  have hfr := (decideStep_outcome e o norms s t hI h).1
  have hpt : t.pred = newPred o s.sigma := hfr.pred
  unfold decideStep at h
  split at h
  · cases h
  split at h
  · cases h
  simp only at h
  rw [hpt] at hp
  rw [hp, if_pos rfl] at h
  simp only [PassRes.cont.injEq] at h
  exact h.symm

/-- What the decision does to the precision and to the flag for poised models. -/
def FlagStep (s t : MSt K F) : Prop :=
  t.epsCur = s.epsCur ∧ (t.poisedModel = false ∧ (t.ixbest = s.m ∨ t.cur = s.cur + 1) ∨
    t.poisedModel = s.poisedModel ∧ t.ixbest = s.ixbest ∧ t.cur = s.cur)

theorem accepted_poisedFlag {e : Env K F} {o : Orc K F} {f rho norms : K} {pos : ℕ} {s t : MSt K F}
    (h : accepted e o f rho norms pos s = .cont t) :
    t.epsCur = s.epsCur ∧ t.poisedModel = false ∧ t.ixbest = s.m := by
  unfold accepted at h
  simp only at h
  split at h
  · cases h
  split at h
  · cases h
  split at h
  · cases h
  simp only [PassRes.cont.injEq] at h
  subst h
  exact ⟨rfl, rfl, rfl⟩

theorem replaceAt_poisedFlag {e : Env K F} {o : Orc K F} {f rho norms : K} {pos : ℕ} {s t : MSt K F}
    (h : replaceAt e o f rho norms pos s = .cont t) : FlagStep s t := by
  unfold replaceAt at h
  split at h
  · cases h
  simp only at h
  split at h
  · split at h
    · cases h
    split at h
    · cases h
    simp only [PassRes.cont.injEq] at h
    subst h
    exact ⟨rfl, Or.inl ⟨rfl, Or.inl rfl⟩⟩
  · simp only [PassRes.cont.injEq] at h
    subst h
    exact ⟨rfl, Or.inr ⟨rfl, rfl, rfl⟩⟩

theorem replaceOrReduce_poisedFlag {e : Env K F} {o : Orc K F} {f rho norms : K} {s t : MSt K F}
    (h : replaceOrReduce e o f rho norms s = .cont t) : FlagStep s t := by
  have hr : reduce e o f norms s = .cont t → FlagStep s t := by
    intro h
    unfold reduce at h
    simp only at h
    split at h
    · cases h
    simp only [PassRes.cont.injEq] at h
    subst h
    exact ⟨rfl, Or.inr ⟨rfl, rfl, rfl⟩⟩
  unfold replaceOrReduce at h
  split at h
  swap
  · exact hr h
  simp only at h
  split at h
  · obtain ⟨u, hu, ht⟩ := bind_cont h
    simp only [PassRes.cont.injEq] at ht
    subst ht
    have := replaceAt_poisedFlag hu; exact this
  · split at h
    · obtain ⟨u, hu, ht⟩ := bind_cont h
      simp only [PassRes.cont.injEq] at ht
      subst ht
      have := replaceAt_poisedFlag hu; exact this
    · exact hr h

theorem rejectStep_poisedFlag {e : Env K F} {o : Orc K F} {f rho norms : K} {s t : MSt K F} (hI : Core e [] s)
    (h : rejectStep e o f rho norms s = .cont t) : FlagStep s t := by
  unfold rejectStep at h
  simp only at h
  split at h
  · rename_i hg
    have g1 := (growable_augment e o.xnew s hI hg.1).1
    obtain ⟨u, hu, ht⟩ := bind_cont h
    simp only [PassRes.cont.injEq] at ht
    subst ht
    unfold augmentRejected at hu
    simp only at hu
    split at hu
    · cases hu
    simp only [PassRes.cont.injEq] at hu
    subst hu
    exact ⟨rfl, Or.inl ⟨rfl, Or.inr g1⟩⟩
  · have := replaceOrReduce_poisedFlag h; exact this

theorem decideStep_poisedFlag {e : Env K F} {o : Orc K F} {norms : K} {s t : MSt K F}
    (hI : Inv e [] s) (h : decideStep e o norms s = .cont t) : FlagStep s t := by
  unfold decideStep at h
  split at h
  · cases h
  split at h
  · cases h
  rename_i f _ c _
  simp only at h
  have hI' : Core e [] { s with pred := newPred o s.sigma } := { hI.toCore with link := fun j hj hp => hI.link j hj hp }
  split at h
  · simp only [PassRes.cont.injEq] at h
    subst h
    exact ⟨rfl, Or.inr ⟨rfl, rfl, rfl⟩⟩
  split at h
  · split at h
    · cases h
    split at h
    · obtain ⟨a, b, c⟩ := accepted_poisedFlag h
      exact ⟨a, Or.inl ⟨b, Or.inl c⟩⟩
    · split at h
      · obtain ⟨a, b, c⟩ := accepted_poisedFlag h
        exact ⟨a, Or.inl ⟨b, Or.inl c⟩⟩
      · have := rejectStep_poisedFlag hI' h; exact this
  · have := rejectStep_poisedFlag hI' h; exact this

end Sqpdfo
