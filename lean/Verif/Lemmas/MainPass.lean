import Verif.Lemmas.MainStep

/-! # Invariants of the main loop: decision about the trial point, whole pass, whole loop -/

set_option linter.unusedSectionVars false

namespace Sqpdfo
open Spec
variable {K F : Type} [Field K] [LinearOrder K] [IsStrictOrderedRing K]

theorem include_some {P : Type} (dist : P → P → K) (build : List P → F) (lval : ℕ → K)
    (choice : List ℕ) (thr : K) (hthr : 0 ≤ thr) (c : Crit) (x ref : P) (Y : List P) (fac : F)
    {pos : ℕ} {Y' : List P} {fac' : F}
    (h : includeInY dist build lval choice thr c x ref Y fac = (some pos, Y', fac')) :
    pos ∈ choice ∧ pos < Y.length ∧ Y'.length = Y.length ∧ Y'[pos]? = some x ∧
      ∀ k, k ≠ pos → Y'[k]? = Y[k]? := by
  have := C26_include dist build lval choice thr hthr c x ref Y fac
    (fun j => match Y[j]? with
      | some y => (match c with
        | .weighted => dist y ref ^ 2 * |lval j|
        | .standard => |lval j|
        | .distance => dist y ref)
      | none => 0) (by intro j y hy; simp only [hy]; cases c <;> rfl)
  rw [h] at this
  exact ⟨this.1, this.2.1, this.2.2.2.2.2.1, this.2.2.2.2.2.2.1, this.2.2.2.2.2.2.2.1⟩

theorem mem_findIdx {p : K → Bool} {d : List K} {j : ℕ} (h : j ∈ findIdx p d) :
    ∃ v, d[j]? = some v ∧ p v = true := by
  unfold findIdx at h
  rw [List.mem_filter] at h
  obtain ⟨-, h⟩ := h
  split at h
  · rename_i v hv; exact ⟨v, hv, h⟩
  · cases h

theorem pfinal_le_quad (e : Env K F) : e.pfinal ≤ (e.n + 1) * (e.n + 2) / 2 := by
  unfold Env.pfinal
  rw [Nat.le_div_iff_mul_le (by norm_num)]
  cases e.finalDeg with
  | linear => simp only; nlinarith
  | diagonal =>
    simp only
    rcases Nat.eq_zero_or_pos e.n with h | h
    · rw [h]
    · nlinarith
  | quadratic => exact Nat.div_mul_le_self _ _

theorem growable_augment (e : Env K F) (x : List K) (s : MSt K F) (h : Core e [] s)
    (hg : growable e s.cur) :
    (augmentY e x (s.set.Y.take s.cur)).1 = s.cur + 1 ∧
      (augmentY e x (s.set.Y.take s.cur)).2.1 = s.set.Y ++ [x] ∧ s.cur + 1 ≤ e.cap := by
  have ht : s.set.Y.take s.cur = s.set.Y := by rw [← h.Ylen, List.take_length]
  have hq := pfinal_le_quad e
  have hcond : ¬ (s.set.Y.length ≥ (e.n + 1) * (e.n + 2) / 2 ∧ e.regression = false) := by
    rintro ⟨h1, h2⟩
    rw [h.Ylen] at h1
    rcases hg with h3 | ⟨h3, -⟩
    · omega
    · rw [h2] at h3; cases h3
  unfold augmentY
  rw [ht, if_neg hcond]
  refine ⟨by rw [h.Ylen], rfl, ?_⟩
  unfold Env.cap
  rcases hg with h3 | ⟨h3, h4⟩
  · split <;> omega
  · rw [if_pos h3]; omega

/-- Relation to the state after the evaluation, on return. -/
def RetDecided (e : Env K F) (s t : MSt K F) : Prop :=
  Ret e t ∧ t.niter = s.niter ∧ t.ev.nsimul = s.ev.nsimul ∧ t.cur = s.cur ∧ t.sigma = s.sigma

theorem augmentRejected_sat (e : Env K F) (o : Orc K F) (fxplus : K) (s : MSt K F)
    (h : Inv e [] s) (ht : Tried s o.xnew fxplus) (hg : growable e s.cur) :
    (augmentRejected e o fxplus s).Sat
      (fun u => Inv e [] u ∧ Decided s u ∧ u.rejected = s.rejected)
      (fun _ => False) Outside := by
  obtain ⟨a1, a2, a3⟩ := growable_augment e o.xnew s h.toCore hg
  unfold augmentRejected
  simp only
  by_cases hcs : e.me > 0 ∧ s.ceplus.length ≠ e.me
  · rw [if_pos hcs]; exact Or.inr (Or.inr rfl)
  rw [if_neg hcs]
  generalize augmentY e o.xnew (s.set.Y.take s.cur) = a at a1 a2
  obtain ⟨c, Y', fac'⟩ := a
  simp only at a1 a2
  subst a1 a2
  simp only [Nat.add_sub_cancel]
  have hind := setOrAppend_spec s.set.ind s.cur s.m (by rw [h.indlen])
  have hfY := setOrAppend_spec s.set.fY s.cur fxplus (by rw [h.flen])
  have hp0 : 0 < s.cur := by have := h.lo; omega
  have hpl : Placed e s o.xnew fxplus s.cur (s.cur + 1) { s.set with
      Y := s.set.Y ++ [o.xnew]
      fac := fac'
      ind := setOrAppend s.set.ind s.cur s.m
      fY := setOrAppend s.set.fY s.cur fxplus
      ceY := if e.me > 0 then setOrAppend s.set.ceY s.cur s.ceplus else s.set.ceY } := by
    have g5 : e.me = 0 →
        (if e.me > 0 then setOrAppend s.set.ceY s.cur s.ceplus else s.set.ceY) = [] := by
      intro h0; rw [if_neg (by omega)]; exact h.ceY0 h0
    have g6 : 0 < e.me →
        (if e.me > 0 then setOrAppend s.set.ceY s.cur s.ceplus else s.set.ceY).length =
          s.cur + 1 := by
      intro h0
      rw [if_pos h0, (setOrAppend_spec s.set.ceY s.cur s.ceplus (by rw [h.ceY1 h0])).2.2,
        h.ceY1 h0]; omega
    exact {
      lt := by omega
      old := by intro j h1 h2; omega
      sized := ⟨by simp [h.Ylen], by rw [hind.2.2, h.indlen]; omega,
        by rw [hfY.2.2, h.flen]; omega, Or.inl h.ciY, by
          rcases Nat.eq_zero_or_pos e.me with h0 | h0
          · exact Or.inl (g5 h0)
          · exact Or.inr (g6 h0)⟩
      ciY := h.ciY
      ceY0 := g5
      ceY1 := g6
      Yp := by simp only; rw [← h.Ylen]; simp
      ip := hind.1
      fp := hfY.1
      Yo := by
        intro j hj
        simp only
        rcases Nat.lt_or_gt_of_ne hj with h1 | h1
        · rw [List.getElem?_append_left (by rw [h.Ylen]; exact h1)]
        · rw [List.getElem?_eq_none_iff.2 (by simp [h.Ylen]; omega),
            List.getElem?_eq_none_iff.2 (by rw [h.Ylen]; omega)]
      io := hind.2.1
      fo := hfY.2.1 }
  have hne : (0 : ℕ) ≠ s.cur := by omega
  refine ⟨Inv.ofSet (s := s) h ⟨rfl, rfl, rfl, rfl, rfl, rfl, rfl, rfl, rfl, rfl, rfl, rfl⟩
    hpl.sized h.ciY hpl.ceY0 hpl.ceY1 (Nat.le_succ _) a3 ?_ ?_ ?_ ?_ h.infoF ?_,
    ⟨rfl, rfl, rfl, Nat.le_succ _, le_refl _⟩, rfl⟩
  · intro j hj
    refine hpl.linked h.toCore ht ?_ ?_ ?_ j hj <;> rfl
  · exact (hpl.io 0 hne).trans h.ind0
  · exact (hpl.Yo 0 hne).trans h.Y0
  · exact (hpl.fo 0 hne).trans h.f0
  · exact halved_pos _ h.delta

theorem reduce_sat (e : Env K F) (o : Orc K F) (fxplus norms : K) (s : MSt K F)
    (h : Inv e [] s) :
    (reduce e o fxplus norms s).Sat
      (fun u => Inv e [] u ∧ Decided s u ∧ u.rejected = s.rejected)
      (RetDecided e s) Outside := by
  unfold reduce
  simp only
  split
  · rename_i hsm
    refine ⟨⟨?_, ?_, ?_, ?_, ?_, ?_, ?_⟩, rfl, rfl, rfl, rfl⟩
    · exact { h.toCore with link := fun j hj hp => h.link j hj hp }
    · simp [Status.stopOnSmallTR]
    · intro h0; simp [Status.stopOnSmallTR] at h0
    · intro h0; simp [Status.stopOnSmallTR] at h0
    · intro h0; simp [Status.stopOnSmallTR] at h0
    · intro h0; simp [Status.stopOnSmallTR] at h0
    · intro _; exact Or.inl hsm
  · rename_i hsm
    refine ⟨Inv.restoreF { h with
      link := fun j hj hp => h.link j hj hp
      delta := ?_ }, ⟨rfl, rfl, rfl, le_refl _, Nat.le_succ _⟩, rfl⟩
    simp only [tooSmall, not_or, not_lt] at hsm
    refine lt_of_lt_of_le ?_ hsm.2
    have := cEps_pos (K := K)
    positivity

theorem Decided.restoreF {s t : MSt K F} (h : Decided s t) : Decided s t.restoreF :=
  ⟨h.1, h.2, h.3, h.4, h.5⟩

theorem replaceOrReduce_sat (e : Env K F) (o : Orc K F) (fxplus rho norms : K)
    (s : MSt K F) (h : Inv e [] s) (ht : Tried s o.xnew fxplus) :
    (replaceOrReduce e o fxplus rho norms s).Sat
      (fun u => Inv e [] u ∧ Decided s u ∧ u.rejected = s.rejected)
      (RetDecided e s) Outside := by
  unfold replaceOrReduce
  by_cases hc : s.poisedModel = false ∨ s.delta ≤ s.epsCur
  swap
  · rw [if_neg hc]; exact reduce_sat e o fxplus norms s h
  rw [if_pos hc]
  simp only
  have hfp : (0 : K) < (1 + cEpsTR) * s.delta := by
    have h1 : (0 : K) < cEpsTR := by unfold cEpsTR; positivity
    have := h.delta
    positivity
  -- the end after a replacement
  have fin : ∀ (pos : ℕ) (Y' : List (List K)) (fac' : F), pos < s.cur → Y'.length = s.cur →
      Y'[pos]? = some o.xnew → (∀ k, k ≠ pos → Y'[k]? = s.set.Y[k]?) →
      (rho < cEta1 → pos ≠ 0) →
      ((replaceAt e o fxplus rho norms pos
        { s with set := { s.set with Y := Y', fac := fac' } }).bind
          fun s => .cont s.restoreF).Sat
        (fun u => Inv e [] u ∧ Decided s u ∧ u.rejected = s.rejected)
        (RetDecided e s) Outside := by
    intro pos Y' fac' h1 h2 h3 h4 h5
    refine PassRes.Sat.bind (Q := fun u => Inv e [] u ∧ Decided s u ∧ u.rejected = s.rejected) ?_ ?_
    · refine (replaceAt_sat e o fxplus rho norms pos s
        { s with set := { s.set with Y := Y', fac := fac' } } h ht
        ⟨rfl, rfl, rfl, rfl, rfl, rfl, rfl, rfl, rfl, rfl, rfl, rfl⟩ rfl rfl rfl rfl rfl rfl h2 h3 h4
        rfl rfl rfl rfl h1 h5).mono (fun _ h => h) (fun _ h => h.elim) (fun _ h => h)
    · rintro u ⟨c1, c2, c3⟩
      exact ⟨c1.restoreF, c2.restoreF, c3⟩
  have hd0 : ¬ rho ≥ cEta1 → (farDists e rho o.xnew s)[0]? = some 0 := by
    intro hr
    unfold farDists
    rw [if_neg hr]
    cases hY : s.set.Y with
    | nil => have := h.Y0; rw [hY] at this; simp at this
    | cons b l => simp
  split
  · rename_i pos hpos
    obtain ⟨i1, i2, i3, i4, i5⟩ := include_some e.dist e.build o.lval2 _ _ (by positivity) _ _ _ _ _
      (Prod.ext hpos (Prod.ext rfl rfl))
    refine fin pos _ _ (by rw [← h.Ylen]; exact i2) (i3.trans h.Ylen) i4 i5 ?_
    rintro hr rfl
    obtain ⟨v, hv, hp⟩ := mem_findIdx i1
    rw [hd0 (not_le.2 hr)] at hv
    cases hv
    simp only [decide_eq_true_eq] at hp
    exact absurd hp (not_lt.2 hfp.le)
  · split
    · rename_i pos hpos
      obtain ⟨i1, i2, i3, i4, i5⟩ := include_some e.dist e.build o.lval3 _ _
        (by split <;> positivity) _ _ _ _ _ (Prod.ext hpos (Prod.ext rfl rfl))
      refine fin pos _ _ (by rw [← h.Ylen]; exact i2) (i3.trans h.Ylen) i4 i5 ?_
      rintro hr rfl
      obtain ⟨v, hv, hp⟩ := mem_findIdx i1
      rw [if_neg (not_le.2 hr)] at hv
      have hlen : 0 < (farDists e rho o.xnew s).length :=
        (List.getElem?_eq_some_iff.1 (hd0 (not_le.2 hr))).1
      rw [List.getElem?_set_self hlen] at hv
      cases hv
      simp only [decide_eq_true_eq] at hp
      linarith
    · exact reduce_sat e o fxplus norms s h

theorem rejectStep_sat (e : Env K F) (o : Orc K F) (fxplus rho norms : K)
    (s : MSt K F) (h : Inv e [] s) (ht : Tried s o.xnew fxplus) :
    (rejectStep e o fxplus rho norms s).Sat
      (fun u => Inv e [] u ∧ Decided s u ∧ u.rejected = true)
      (RetDecided e s) Outside := by
  unfold rejectStep
  simp only
  have h' : Inv e [] { s with rejected := true } :=
    { h with link := fun j hj hp => h.link j hj hp }
  have ht' : Tried { s with rejected := true } o.xnew fxplus := ⟨ht.1, ht.2⟩
  split
  · rename_i hg
    refine PassRes.Sat.bind (Q := fun u => Inv e [] u ∧ Decided s u ∧ u.rejected = true) ?_ ?_
    · refine (augmentRejected_sat e o fxplus _ h' ht' hg.1).mono ?_ (fun _ h => h.elim)
        (fun _ h => h)
      rintro u ⟨c1, c2, c3⟩
      exact ⟨c1, ⟨c2.1, c2.2, c2.3, c2.4, c2.5⟩, c3⟩
    · rintro u ⟨c1, c2, c3⟩
      exact ⟨c1.restoreF, c2.restoreF, c3⟩
  · refine (replaceOrReduce_sat e o fxplus rho norms _ h' ht').mono ?_ (fun _ h => h)
      (fun _ h => h)
    rintro u ⟨c1, c2, c3⟩
    exact ⟨c1, ⟨c2.1, c2.2, c2.3, c2.4, c2.5⟩, c3⟩

theorem newPred_pos (o : Orc K F) (sigma : K) (h : newPred o sigma ≠ -1) :
    0 < newPred o sigma := by
  unfold newPred at *
  simp only at *
  generalize (if o.rpred < 0 then -1 else - o.qcost + sigma * o.rpred) = p at *
  by_cases h1 : p < 0
  · rw [if_pos h1] at h; exact absurd rfl h
  · rw [if_neg h1] at h ⊢
    by_cases h2 : p = 0
    · rw [if_pos h2] at h; exact absurd rfl h
    · rw [if_neg h2]
      exact lt_of_le_of_ne (not_lt.1 h1) (Ne.symm h2)

theorem cEta1_pos : (0 : K) < cEta1 := by unfold cEta1; positivity

theorem decideStep_sat (e : Env K F) (o : Orc K F) (norms : K) (s : MSt K F)
    (h : Inv e [] s) (hX : s.ev.X[s.m]? = some o.xnew) :
    (decideStep e o norms s).Sat (fun u => Inv e [] u ∧ Decided s u)
      (RetDecided e s) Outside := by
  unfold decideStep
  have hm : s.m < s.ev.fX.length := by rw [h.fXlen]; omega
  obtain ⟨q, hq⟩ := h.fin _ (List.getElem_mem hm)
  have hfX : s.ev.fX[s.m]? = some (.fin q) := by rw [List.getElem?_eq_getElem hm, hq]
  have hb : (s.ev.fX[s.m]?).bind Fl.val? = some q := by rw [hfX]; rfl
  rw [hb]
  simp only
  cases e.resNorm s.ceplus o.slplus with
  | none => exact Or.inr (Or.inr rfl)
  | some c =>
    simp only
    have hpp := newPred_pos o s.sigma
    generalize newPred o s.sigma = p at *
    have h' : Inv e [] { s with pred := p } := { h with link := fun j hj hp => h.link j hj hp }
    have ht' : Tried { s with pred := p } o.xnew q := ⟨hX, hfX⟩
    by_cases hp : p = -1
    · rw [if_pos hp]
      exact ⟨h', ⟨rfl, rfl, rfl, le_refl _, Nat.le_succ _⟩⟩
    have hrej : ∀ rho, (rejectStep e o q rho norms { s with pred := p }).Sat
        (fun u => Inv e [] u ∧ Decided s u) (RetDecided e s) Outside := by
      intro rho
      refine (rejectStep_sat e o q rho norms _ h' ht').mono ?_ (fun _ h => h) (fun _ h => h)
      rintro u ⟨c1, c2, -⟩
      exact ⟨c1, ⟨c2.1, c2.2, c2.3, c2.4, c2.5⟩⟩
    simp only [if_neg hp]
    have hpos := hpp hp
    by_cases hrho : (s.merit0 - (q + s.sigma * c)) / p ≥ cEta1
    swap
    · rw [if_neg hrho]; exact hrej _
    rw [if_pos hrho]
    have hdec : ¬ q + s.sigma * c ≥ s.merit0 := by
      intro hge
      have : (s.merit0 - (q + s.sigma * c)) / p ≤ 0 :=
        div_nonpos_of_nonpos_of_nonneg (by linarith) hpos.le
      have := cEta1_pos (K := K)
      linarith
    rw [if_neg hdec]
    have acc : ∀ (pos cur : ℕ) (Y' : List (List K)) (fac' : F), Y'.length = cur →
        s.cur ≤ cur → cur ≤ s.cur + 1 → cur ≤ e.cap →
        Y'[pos]? = some o.xnew → (∀ k, k ≠ pos → Y'[k]? = s.set.Y[k]?) →
        (pos < s.cur ∧ cur = s.cur ∨ pos = s.cur ∧ cur = s.cur + 1) →
        ∀ rho, (accepted e o q rho norms pos { s with
          pred := p
          cur := cur
          set := { s.set with Y := Y', fac := fac' } }).Sat
          (fun u => Inv e [] u ∧ Decided s u) (RetDecided e s) Outside := by
      intro pos cur Y' fac' h1 h2 h3 h4 h5 h6 h7 rho
      refine (accepted_sat e o q rho norms pos { s with pred := p } { s with
          pred := p
          cur := cur
          set := { s.set with Y := Y', fac := fac' } } h' ht'
        ⟨rfl, rfl, rfl, rfl, rfl, rfl, rfl, rfl, rfl, rfl, rfl, rfl⟩ rfl h2 h3 h4 rfl h1 h5 h6
        rfl rfl rfl rfl h7).mono ?_ (fun _ h => h.elim) (fun _ h => h)
      rintro u ⟨c1, c2, -⟩
      exact ⟨c1, ⟨c2.1, c2.2, c2.3, c2.4, c2.5⟩⟩
    split
    · rename_i hg
      obtain ⟨a1, a2, a3⟩ := growable_augment e o.xnew s h.toCore hg
      generalize augmentY e o.xnew (s.set.Y.take s.cur) = a at a1 a2
      obtain ⟨c', Y', fac'⟩ := a
      simp only at a1 a2
      subst a1 a2
      simp only [Nat.add_sub_cancel]
      refine acc s.cur (s.cur + 1) _ fac' (by simp [h.Ylen]) (Nat.le_succ _) (le_refl _) a3 ?_ ?_
        (Or.inr ⟨rfl, rfl⟩) _
      · rw [← h.Ylen]; simp
      · intro j hj
        rcases Nat.lt_or_gt_of_ne hj with h1 | h1
        · rw [List.getElem?_append_left (by rw [h.Ylen]; exact h1)]
        · rw [List.getElem?_eq_none_iff.2 (by simp [h.Ylen]; omega),
            List.getElem?_eq_none_iff.2 (by rw [h.Ylen]; omega)]
    · split
      · rename_i pos hpos'
        obtain ⟨i1, i2, i3, i4, i5⟩ := include_some e.dist e.build o.lval1 _ _ (by positivity) _ _ _
          _ _ (Prod.ext hpos' (Prod.ext rfl rfl))
        exact acc pos s.cur _ _ (i3.trans h.Ylen) (le_refl _) (Nat.le_succ _) h.hi i4 i5
          (Or.inl ⟨by rw [← h.Ylen]; exact i2, rfl⟩) _
      · exact hrej _

/-! ### Whole pass -/

/-- The relation of the states at two successive passes. -/
structure Stepped (s t : MSt K F) : Prop where
  niter0 : s.niter + 1 ≤ t.niter
  niter1 : t.niter ≤ s.niter + 2
  nsimul0 : s.ev.nsimul + 1 ≤ t.ev.nsimul
  nsimul1 : t.ev.nsimul ≤ s.ev.nsimul + s.cur
  cur0 : s.cur ≤ t.cur
  cur1 : t.cur ≤ s.cur + 1
  sigma : s.sigma ≤ t.sigma

theorem replaceHuge_length {ce ce' : List (List (Fl K))}
    (h : (replaceHuge ce).bind replaceHugeNeg = some ce') : ce'.length = ce.length := by
  have h1 : ∀ c : List (List (Fl K)), replaceHuge ce = some c → c.length = ce.length := by
    intro c hc
    unfold replaceHuge at hc
    split at hc
    · split at hc
      · cases hc
      · simp only [Option.some.injEq] at hc; rw [← hc]; simp
    · simp only [Option.some.injEq] at hc; rw [← hc]
  have h2 : ∀ c c' : List (List (Fl K)), replaceHugeNeg c = some c' → c'.length = c.length := by
    intro c c' hc
    unfold replaceHugeNeg at hc
    split at hc
    · split at hc
      · cases hc
      · simp only [Option.some.injEq] at hc; rw [← hc]; simp
    · simp only [Option.some.injEq] at hc; rw [← hc]
  rw [Option.bind_eq_some_iff] at h
  obtain ⟨c, hc, hc'⟩ := h
  exact (h2 c ce' hc').trans (h1 c hc)

theorem evalTrial_sat (e : Env K F) (o : Orc K F) (s : MSt K F) (h : Inv e [] s) :
    (evalTrial e o s).Sat
      (fun t => Inv e [] t ∧ t.ev.X[t.m]? = some o.xnew ∧ t.niter = s.niter ∧ t.cur = s.cur ∧
        t.sigma = s.sigma ∧ t.ev.nsimul = s.ev.nsimul + 1)
      (fun t => Ret e t ∧ t.ev.flag = 3 ∧ t.niter = s.niter ∧ t.cur = s.cur ∧
        t.sigma = s.sigma ∧ t.ev.nsimul = s.ev.nsimul + 1) Outside := by
  unfold evalTrial
  simp only
  cases ha : augmX e.U (.fin big) o.xnew (s.m + 1) s.ev with
  | none => exact Or.inl rfl
  | some ev =>
    obtain ⟨a1, a2, a3, a4, a5⟩ := augmX_main e.U _ _ _ _ h.Xlen h.fXlen h.cXlen ha
    simp only
    have hcore : ∀ ev' : EvSt (List K) K, ∀ ce : List K, ev'.X = ev.X → ev'.nsimul = ev.nsimul →
        ev'.w = ev.w → (∀ (i : ℕ) (f : Fl K), s.ev.fX[i]? = some f → ev'.fX[i]? = some f) →
        Recorded e.U ev'.w ev'.X ev'.fX →
        Core e [] { s with m := s.m + 1, ev := ev', ceplus := ce } := by
      intro ev' ce b1 b2 b3 b4 b5
      exact { h.toCore with
        Xlen := by simp only; rw [b1, a1]; simp [h.Xlen]
        link := by
          intro j hj hp
          obtain ⟨i, y, f, c1, c2, c3, c4, c5⟩ := h.link j hj hp
          refine ⟨i, y, f, c1, c2, c3, ?_, b4 _ _ c5⟩
          show ev'.X[i]? = _
          rw [b1, a1]; exact getElem?_append_some c4
        log := by
          simp only
          rw [b1, b3, a1, a3]
          obtain ⟨p, hp⟩ := h.log
          exact ⟨p, by rw [← hp, List.append_assoc]⟩
        count := by simp only; rw [b2, b3, a2, a3, h.count]; simp
        hist := b5 }
    rcases a5 with ⟨hfl, a5⟩ | ⟨hfl, q, r, hq, hans, a5⟩
    · rw [if_pos (by rw [hfl]; norm_num)]
      refine ⟨⟨hcore ev s.ceplus rfl rfl rfl (fun i f hf => by rw [a5]; exact hf)
        (by rw [a1, a5]; exact h.hist.keep a3), ?_, ?_, ?_, ?_,
        ?_, ?_⟩, hfl, rfl, rfl, rfl, a2⟩
      · exact Or.inr (Or.inl hfl)
      · intro h0; simp only at h0; rw [hfl] at h0; cases h0
      · intro _
        refine ⟨?_, ?_⟩
        · show ev.fX.length = _
          rw [a5]; exact h.fXlen
        · show ev.w.logF.getLast? = ev.X.getLast?
          rw [a1, a3]; simp
      · intro h0; simp only at h0; rw [hfl] at h0; cases h0
      · intro h0; simp only at h0; rw [hfl] at h0; cases h0
      · intro h0; simp only at h0; rw [hfl] at h0; cases h0
    · rw [if_neg (by rw [hfl, h.flag]; simp)]
      have key : ∀ (ceX : List (List (Fl K))) (ce : List K), ceX.length ≤ s.m + 2 →
          Inv e [] { s with m := s.m + 1, ev := { ev with ceX := ceX }, ceplus := ce } := by
        intro ceX ce hl
        have hc := hcore { ev with ceX := ceX } ce rfl rfl rfl
          (fun i f hf => by show ev.fX[i]? = _; rw [a5]; exact getElem?_append_some hf)
          (by show Recorded e.U ev.w ev.X ev.fX
              rw [a1, a5]; exact h.hist.append (by rw [h.fXlen, h.Xlen]) a3 hans)
        exact { hc with
          fXlen := by show ev.fX.length = _; rw [a5]; simp [h.fXlen]
          cXlen := hl
          fin := by
            intro v hv
            have hv : v ∈ ev.fX := hv
            rw [a5, List.mem_append] at hv
            rcases hv with hv | hv
            · exact h.fin v hv
            · exact ⟨r, by simpa using hv⟩
          infoF := ⟨q, hq⟩
          flag := hfl.trans h.flag
          delta := h.delta
          eps := h.eps
          sigma := h.sigma }
      have hX : ev.X[s.m + 1]? = some o.xnew := by rw [a1, ← h.Xlen]; simp
      split
      · cases hr : (replaceHuge ev.ceX).bind replaceHugeNeg with
        | none => exact Or.inr (Or.inr rfl)
        | some ceX =>
          simp only
          cases (ceX[s.m + 1]?).bind colK with
          | none => exact Or.inr (Or.inr rfl)
          | some c =>
            exact ⟨key ceX c (by rw [replaceHuge_length hr]; exact a4), hX, rfl, rfl, rfl, a2⟩
      · exact ⟨key ev.ceX s.ceplus a4, hX, rfl, rfl, rfl, a2⟩

theorem stepStage_sat (e : Env K F) (o : Orc K F) (s : MSt K F) (h : Inv e [] s) :
    (stepStage e o s).Sat
      (fun t => Inv e [] t ∧ t.niter = s.niter + 1 ∧ t.ev.nsimul = s.ev.nsimul + 1 ∧
        s.cur ≤ t.cur ∧ t.cur ≤ s.cur + 1 ∧ s.sigma ≤ t.sigma)
      (fun t => Ret e t ∧ t.niter = s.niter + 1 ∧ s.ev.nsimul ≤ t.ev.nsimul ∧
        t.ev.nsimul ≤ s.ev.nsimul + 1 ∧ t.cur = s.cur ∧ s.sigma ≤ t.sigma) Outside := by
  unfold stepStage
  have h30 : ∀ t : MSt K F, Core e [] t →
      Ret e { t with ev := { t.ev with flag := Status.failUnexpected } } := by
    intro t ht
    refine ⟨{ ht with link := fun j hj hp => ht.link j hj hp }, ?_, ?_, ?_, ?_, ?_, ?_⟩
    · simp [Status.failUnexpected]
    all_goals intro h0; simp [Status.failUnexpected] at h0
  refine PassRes.Sat.bind (Q := fun t => Inv e [] t ∧ t.niter = s.niter ∧
    t.ev.nsimul = s.ev.nsimul ∧ t.cur = s.cur ∧ t.sigma = s.sigma) ?_ ?_
  · unfold globalise
    split
    · exact ⟨h, rfl, rfl, rfl, rfl⟩
    · obtain ⟨q, hq⟩ := h.infoF
      rw [hq]
      simp only [Fl.val?]
      split
      · exact Or.inr (Or.inr rfl)
      · exact ⟨{ h with link := fun j hj hp => h.link j hj hp }, rfl, rfl, rfl, rfl⟩
  · rintro t ⟨c1, c2, c3, c4, c5⟩
    simp only
    have d1 : Inv e [] { t with niter := t.niter + 1 } :=
      { c1 with link := fun j hj hp => c1.link j hj hp }
    split
    · exact ⟨h30 _ d1.toCore, by show t.niter + 1 = _; rw [c2], c3.ge,
        by show t.ev.nsimul ≤ _; omega, c4, c5.ge⟩
    · generalize hu : ({ t with niter := t.niter + 1 } : MSt K F) = u at *
      have e1 : u.niter = s.niter + 1 := by subst hu; show t.niter + 1 = _; rw [c2]
      have e2 : u.ev.nsimul = s.ev.nsimul := by subst hu; exact c3
      have e3 : u.cur = s.cur := by subst hu; exact c4
      have e4 : u.sigma = s.sigma := by subst hu; exact c5
      refine PassRes.Sat.bind (Q := fun v => Inv e [] v ∧ v.ev.X[v.m]? = some o.xnew ∧
        v.niter = s.niter + 1 ∧ v.ev.nsimul = s.ev.nsimul + 1 ∧ v.cur = s.cur ∧
        s.sigma ≤ v.sigma) ?_ ?_
      · refine PassRes.Sat.bind (Q := fun v => Inv e [] v ∧ v.niter = s.niter + 1 ∧
          v.ev.nsimul = s.ev.nsimul ∧ v.cur = s.cur ∧ s.sigma ≤ v.sigma) ?_ ?_
        · unfold penalty
          split
          · rename_i hlt
            have hmono : u.sigma ≤ max (sigmab o) (3 / 2 * u.sigma) := le_max_of_le_left hlt.le
            simp only
            split
            · refine ⟨h30 _ { d1.toCore with link := fun j hj hp => d1.link j hj hp }, e1, e2.ge,
                ?_, e3, ?_⟩
              · show u.ev.nsimul ≤ _; omega
              · rw [← e4]; exact hmono
            · refine ⟨{ d1 with
                link := fun j hj hp => d1.link j hj hp
                sigma := le_trans d1.sigma hmono }, e1, e2, e3, ?_⟩
              rw [← e4]; exact hmono
          · exact ⟨d1, e1, e2, e3, e4.ge⟩
        · rintro v ⟨f1, f2, f3, f4, f5⟩
          refine (evalTrial_sat e o v f1).mono ?_ ?_ (fun _ h => h)
          · rintro w ⟨g1, g2, g3, g4, g5, g6⟩
            exact ⟨g1, g2, g3.trans f2, by rw [g6, f3], g4.trans f4, by rw [g5]; exact f5⟩
          · rintro w ⟨g1, -, g3, g4, g5, g6⟩
            exact ⟨g1, g3.trans f2, by omega, by omega, g4.trans f4, by rw [g5]; exact f5⟩
      · rintro v ⟨f1, f2, f3, f4, f5, f6⟩
        refine (decideStep_sat e o _ v f1 f2).mono ?_ ?_ (fun _ h => h)
        · rintro w ⟨g1, g2⟩
          exact ⟨g1, g2.niter.trans f3, g2.nsimul.trans f4, by have := g2.lo; omega,
            by have := g2.hi; omega, by rw [g2.sigma]; exact f6⟩
        · rintro w ⟨g1, g2, g3, g4, g5⟩
          exact ⟨g1, g2.trans f3, by omega, by omega, g4.trans f5, by rw [g5]; exact f6⟩

theorem pass_sat (e : Env K F) (he : e.Ok) (o : Orc K F) (s : MSt K F) (h : Inv e [] s) :
    (pass e o s).Sat (fun t => Inv e [] t ∧ Stepped s t ∧ e.miter.le (.fin s.niter) = false ∧
        e.msimul.le (.fin s.ev.nsimul) = false)
      (fun t => Ret e t ∧ Counted s t ∧
        (t.niter = s.niter ∧ t.ev.nsimul = s.ev.nsimul ∨
          e.miter.le (.fin s.niter) = false ∧ e.msimul.le (.fin s.ev.nsimul) = false)) Outside := by
  unfold pass
  have hcur : 1 ≤ s.cur := by have := h.lo; omega
  have same : ∀ fl, Counted s { s with ev := { s.ev with flag := fl } } := fun fl =>
    ⟨Nat.le_add_right _ _, Nat.le_add_right _ _, le_refl _, le_refl _, rfl, le_refl _⟩
  split
  · rename_i hmi
    refine ⟨⟨{ h.toCore with link := fun j hj hp => h.link j hj hp }, ?_, ?_, ?_, ?_, ?_, ?_⟩,
      same _, Or.inl ⟨rfl, rfl⟩⟩
    · simp [Status.stopOnMaxIter]
    · intro h0; simp [Status.stopOnMaxIter] at h0
    · intro h0; simp [Status.stopOnMaxIter] at h0
    · intro _; exact hmi
    · intro h0; simp [Status.stopOnMaxIter] at h0
    · intro h0; simp [Status.stopOnMaxIter] at h0
  · rename_i hmi
    have hmi : e.miter.le (.fin s.niter) = false := by simpa using hmi
    split
    · rename_i hms
      refine ⟨⟨{ h.toCore with link := fun j hj hp => h.link j hj hp }, ?_, ?_, ?_, ?_, ?_, ?_⟩,
        same _, Or.inl ⟨rfl, rfl⟩⟩
      · simp [Status.stopOnMaxSimul]
      · intro h0; simp [Status.stopOnMaxSimul] at h0
      · intro h0; simp [Status.stopOnMaxSimul] at h0
      · intro h0; simp [Status.stopOnMaxSimul] at h0
      · intro _; exact hms
      · intro h0; simp [Status.stopOnMaxSimul] at h0
    · rename_i hms
      have hms : e.msimul.le (.fin s.ev.nsimul) = false := by simpa using hms
      split
      · refine ⟨⟨{ h.toCore with link := fun j hj hp => h.link j hj hp }, ?_, ?_, ?_, ?_, ?_, ?_⟩,
          same _, Or.inl ⟨rfl, rfl⟩⟩
        · simp [Status.failUnexpected]
        all_goals intro h0; simp [Status.failUnexpected] at h0
      · simp only
        generalize hs1 : ({ s.measure o.k1 with
          ev := { s.ev with flag := Status.success } } : MSt K F) = s1
        have h1 : Inv e [] s1 := by
          subst hs1
          exact { h with link := fun j hj hp => h.link j hj hp, flag := rfl }
        have e1 : s1.niter = s.niter := by subst hs1; rfl
        have e2 : s1.ev.nsimul = s.ev.nsimul := by subst hs1; rfl
        have e3 : s1.cur = s.cur := by subst hs1; rfl
        have e4 : s1.sigma = s.sigma := by subst hs1; rfl
        refine PassRes.Sat.bind (Q := fun t => Inv e [] t ∧ s.niter ≤ t.niter ∧
          t.niter ≤ s.niter + 1 ∧ s.ev.nsimul ≤ t.ev.nsimul ∧
          t.ev.nsimul + 1 ≤ s.ev.nsimul + s.cur ∧ t.cur = s.cur ∧ t.sigma = s.sigma) ?_ ?_
        · split
          · refine (improve_sat e he o s1 h1).mono ?_ ?_ (fun _ h => h)
            · rintro t ⟨c1, c2, -⟩
              have := c2.niter; have := c2.nsimul; have := c2.mono
              exact ⟨c1, by omega, by omega, by omega, by omega, c2.cur.trans e3,
                c2.sigma.trans e4⟩
            · rintro t ⟨c1, c2⟩
              unfold Counted at *
              rw [e1, e2, e3, e4] at c2
              exact ⟨c1, c2, Or.inr ⟨hmi, hms⟩⟩
          · exact ⟨h1, by omega, by omega, by omega, by omega, e3, e4⟩
        · rintro t ⟨c1, c2, c3, c4, c5, c6, c7⟩
          refine (stepStage_sat e o t c1).mono ?_ ?_ (fun _ h => h)
          · rintro u ⟨d1, d2, d3, d4, d5, d6⟩
            exact ⟨d1, ⟨by omega, by omega, by omega, by omega, by omega, by omega,
              by rw [← c7]; exact d6⟩, hmi, hms⟩
          · rintro u ⟨d1, d2, d3, d4, d5, d6⟩
            exact ⟨d1, ⟨by omega, by omega, by omega, by omega, by omega,
              by rw [← c7]; exact d6⟩, Or.inr ⟨hmi, hms⟩⟩

/-! ### Whole loop -/

/-- Properties of the three outcomes of the loop. -/
def MainRes.Sat (r : MainRes K F) (Pd Pr : MSt K F → Prop) (Px : Crash → Prop) : Prop :=
  match r with
  | .done s => Pd s
  | .running s => Pr s
  | .crash c => Px c

/-- Induction over the passes for a property `R` of the state that every pass preserves. -/
theorem mainLoop_induct (e : Env K F) (R D : MSt K F → Prop) (X : Crash → Prop)
    (hp : ∀ o s, R s → (pass e o s).Sat R D X) :
    ∀ (os : List (Orc K F)) (s : MSt K F), R s → (mainLoop e os s).Sat D R X := by
  intro os
  induction os with
  | nil => intro s h; exact h
  | cons o os ih =>
    intro s h
    have := hp o s h
    simp only [mainLoop]
    cases hr : pass e o s with
    | cont t => rw [hr] at this; exact ih t this
    | ret t => rw [hr] at this; exact this
    | crash c => rw [hr] at this; exact this

end Sqpdfo
