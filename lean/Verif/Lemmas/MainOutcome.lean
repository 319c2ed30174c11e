import Verif.Lemmas.MainStart

/-! # The possible outcomes of a step -/

set_option linter.unusedSectionVars false

namespace Sqpdfo
open Spec
variable {K F : Type} [Field K] [LinearOrder K] [IsStrictOrderedRing K]

/-- What the decision about the trial point never changes. -/
structure StepFrame (s t : MSt K F) : Prop where
  m : t.m = s.m
  X : t.ev.X = s.ev.X
  fX : t.ev.fX = s.ev.fX
  sigma : t.sigma = s.sigma
  merit0 : t.merit0 = s.merit0
  f0 : t.f0 = s.f0
  ce0n : t.ce0n = s.ce0n
  pred : t.pred = s.pred
  ceX : t.ev.ceX = s.ev.ceX
  ceplus : t.ceplus = s.ceplus

/-- The iterate stays. -/
def Stays (s t : MSt K F) : Prop := t.x = s.x ∧ t.fx = s.fx ∧ t.ixbest = s.ixbest

/-- The trial point becomes the iterate. -/
def Succeeds (s t : MSt K F) (f : K) : Prop :=
  t.ixbest = s.m ∧ t.fx = f ∧ min s.delta (10 ^ 5) ≤ t.delta ∧
    (t.rejected = false → t.ev.infoF = s.ev.infoF)

/-- The trial point enters the set, the iterate stays. -/
def Used (s t : MSt K F) : Prop :=
  Stays s t ∧ s.m ∈ t.set.ind ∧ t.rejected = true ∧ (t.delta = s.delta ∨ t.delta = 1 / 2 * s.delta)

/-- Nothing but the radius changes. -/
def Reduced (norms : K) (s t : MSt K F) : Prop :=
  Stays s t ∧ t.set = s.set ∧ t.cur = s.cur ∧ t.rejected = true ∧
    ∃ c : K, 1 / 100 ≤ c ∧ c ≤ 1 / 2 ∧ t.delta = c * min s.delta norms

theorem min_le_succDelta (rho : K) (a : Bool) (norms delta : K) (hd : 0 < delta) :
    min delta (10 ^ 5) ≤ succDelta rho a norms delta := by
  have h1 : min delta (10 ^ 5) ≤ min (max (2 * norms) delta) cDeltamax :=
    min_le_min (le_max_right _ _) (le_refl _)
  have h2 : min delta (10 ^ 5) ≤ delta := min_le_left _ _
  unfold succDelta
  split
  · split
    · linarith
    · exact h1
  · split
    · linarith
    · exact h1

theorem accepted_outcome (e : Env K F) (o : Orc K F) (f rho norms : K) (pos : ℕ) (s t : MSt K F)
    (hd : 0 < s.delta) (h : accepted e o f rho norms pos s = .cont t) :
    StepFrame s t ∧ Succeeds s t f := by
  unfold accepted at h
  simp only at h
  by_cases hcs : e.me > 0 ∧ s.ceplus.length ≠ e.me
  · rw [if_pos hcs] at h; cases h
  rw [if_neg hcs] at h
  split at h
  · cases h
  · split at h
    · cases h
    · simp only [PassRes.cont.injEq] at h
      subst h
      exact ⟨⟨rfl, rfl, rfl, rfl, rfl, rfl, rfl, rfl, rfl, rfl⟩, rfl, rfl, min_le_succDelta _ _ _ _ hd,
        fun _ => rfl⟩

theorem halved_cases (delta : K) : (if delta > cEps then cGamma2 * delta else delta) = delta ∨
    (if delta > cEps then cGamma2 * delta else delta) = 1 / 2 * delta := by
  split
  · exact Or.inr rfl
  · exact Or.inl rfl

theorem replaceAt_outcome (e : Env K F) (o : Orc K F) (f rho norms : K) (pos : ℕ) (s t : MSt K F)
    (hr : s.rejected = true) (hpos : pos < s.set.ind.length)
    (h : replaceAt e o f rho norms pos s = .cont t) :
    StepFrame s t ∧ t.rejected = true ∧
      (cEta1 ≤ rho ∧ Succeeds s t f ∨ rho < cEta1 ∧ Used s t) := by
  unfold replaceAt at h
  by_cases hcs : e.me > 0 ∧ s.ceplus.length ≠ e.me
  · rw [if_pos hcs] at h; cases h
  rw [if_neg hcs] at h
  simp only at h
  by_cases hrho : rho ≥ cEta1
  · rw [if_pos hrho] at h
    split at h
    · cases h
    · split at h
      · cases h
      · simp only [PassRes.cont.injEq] at h
        subst h
        refine ⟨⟨rfl, rfl, rfl, rfl, rfl, rfl, rfl, rfl, rfl, rfl⟩, hr, Or.inl ⟨hrho, rfl, rfl, ?_,
          fun h0 => ?_⟩⟩
        · exact min_le_min (le_max_right _ _) (le_refl _)
        · rw [show s.rejected = false from h0] at hr; cases hr
  · rw [if_neg hrho] at h
    simp only [PassRes.cont.injEq] at h
    subst h
    refine ⟨⟨rfl, rfl, rfl, rfl, rfl, rfl, rfl, rfl, rfl, rfl⟩, hr, Or.inr ⟨not_le.1 hrho, ⟨rfl, rfl, rfl⟩, ?_, hr,
      halved_cases _⟩⟩
    exact List.mem_set hpos _

theorem reduce_outcome (e : Env K F) (o : Orc K F) (f norms : K) (s t : MSt K F)
    (hr : s.rejected = true) (h : reduce e o f norms s = .cont t) :
    StepFrame s t ∧ Reduced norms s t := by
  unfold reduce at h
  simp only at h
  split at h
  · cases h
  · simp only [PassRes.cont.injEq] at h
    subst h
    exact ⟨⟨rfl, rfl, rfl, rfl, rfl, rfl, rfl, rfl, rfl, rfl⟩, ⟨rfl, rfl, rfl⟩, rfl, rfl, hr,
      redDelta_bounds _ _ _⟩

theorem bind_cont {r : PassRes K F} {k : MSt K F → PassRes K F} {t : MSt K F}
    (h : r.bind k = .cont t) : ∃ u, r = .cont u ∧ k u = .cont t := by
  cases r with
  | cont u => exact ⟨u, rfl, h⟩
  | ret u => cases h
  | crash c => cases h

/-- The outcomes of a step that fails the ratio test or finds no place in the set. -/
def Rejected (norms : K) (rho : K) (f : K) (s t : MSt K F) : Prop :=
  cEta1 ≤ rho ∧ Succeeds s t f ∨ rho < cEta1 ∧ Used s t ∨ Reduced norms s t

theorem rejectStep_outcome (e : Env K F) (o : Orc K F) (f rho norms : K) (s t : MSt K F)
    (hI : Inv e [] s)
    (h : rejectStep e o f rho norms s = .cont t) : StepFrame s t ∧ Rejected norms rho f s t := by
  unfold rejectStep at h
  simp only at h
  have red : ∀ u, reduce e o f norms { s with rejected := true } = .cont u →
      StepFrame s u ∧ Rejected norms rho f s u := by
    intro u hu
    obtain ⟨a, b⟩ := reduce_outcome e o f norms _ u rfl hu
    exact ⟨⟨a.1, a.2, a.3, a.4, a.5, a.6, a.7, a.8, a.9, a.10⟩, Or.inr (Or.inr b)⟩
  split at h
  · rename_i hg
    obtain ⟨u, hu, ht⟩ := bind_cont h
    simp only [PassRes.cont.injEq] at ht
    subst ht
    unfold augmentRejected at hu
    simp only at hu
    by_cases hcs : e.me > 0 ∧ s.ceplus.length ≠ e.me
    · rw [if_pos hcs] at hu; cases hu
    rw [if_neg hcs] at hu
    simp only [PassRes.cont.injEq] at hu
    have hm : s.m ∈ setOrAppend s.set.ind ((augmentY e o.xnew (s.set.Y.take s.cur)).1 - 1) s.m := by
      unfold setOrAppend
      split
      · rename_i hl; exact List.mem_set hl _
      · simp
    subst hu
    exact ⟨⟨rfl, rfl, rfl, rfl, rfl, rfl, rfl, rfl, rfl, rfl⟩, Or.inr (Or.inl ⟨hg.2, ⟨rfl, rfl, rfl⟩, hm, rfl,
      halved_cases _⟩)⟩
  · unfold replaceOrReduce at h
    by_cases hc : ({ s with rejected := true } : MSt K F).poisedModel = false ∨
      ({ s with rejected := true } : MSt K F).delta ≤ ({ s with rejected := true } : MSt K F).epsCur
    swap
    · rw [if_neg hc] at h; exact red t h
    rw [if_pos hc] at h
    simp only at h
    have rep : ∀ (pos : ℕ) (Y' : List (List K)) (fac' : F) (u : MSt K F), pos < s.set.Y.length →
        (replaceAt e o f rho norms pos { s with
          rejected := true
          set := { s.set with Y := Y', fac := fac' } }).bind (fun s => .cont s.restoreF) =
            .cont u →
        StepFrame s u ∧ Rejected norms rho f s u := by
      intro pos Y' fac' u hp hu
      obtain ⟨v, hv, hu⟩ := bind_cont hu
      simp only [PassRes.cont.injEq] at hu
      subst hu
      obtain ⟨a, hr, b⟩ := replaceAt_outcome e o f rho norms pos _ v rfl
        (by show pos < s.set.ind.length; rw [hI.indlen, ← hI.Ylen]; exact hp) hv
      refine ⟨⟨a.1, a.2, a.3, a.4, a.5, a.6, a.7, a.8, a.9, a.10⟩, ?_⟩
      rcases b with b | b
      · exact Or.inl ⟨b.1, b.2.1, b.2.2.1, b.2.2.2.1, fun h0 => by
          rw [show v.rejected = false from h0] at hr; cases hr⟩
      · exact Or.inr (Or.inl b)
    split at h
    · rename_i pos hpos
      obtain ⟨-, i2, -⟩ := include_some e.dist e.build o.lval2 _ _ (by positivity) _ _ _ _ _
        (Prod.ext hpos (Prod.ext rfl rfl))
      exact rep pos _ _ t i2 h
    · split at h
      · rename_i pos hpos
        obtain ⟨-, i2, -⟩ := include_some e.dist e.build o.lval3 _ _
          (by split <;> positivity) _ _ _ _ _ (Prod.ext hpos (Prod.ext rfl rfl))
        exact rep pos _ _ t i2 h
      · exact red t h

/-- The outcomes of a step. -/
theorem decideStep_outcome (e : Env K F) (o : Orc K F) (norms : K) (s t : MSt K F)
    (hI : Inv e [] s) (h : decideStep e o norms s = .cont t) :
    StepFrame { s with pred := newPred o s.sigma } t ∧ ∃ f c : K, s.ev.fX[s.m]? = some (.fin f) ∧
      e.resNorm s.ceplus o.slplus = some c ∧
      (t.pred = -1 ∧ Stays s t ∧ t.set = s.set ∧ t.delta = s.delta ∧ t.rejected = s.rejected ∨
        0 < t.pred ∧ f + s.sigma * c ≤ s.merit0 - 1 / 10 ^ 4 * t.pred ∧ Succeeds s t f ∨
        0 < t.pred ∧ s.merit0 - 1 / 10 ^ 4 * t.pred < f + s.sigma * c ∧ Used s t ∨
        0 < t.pred ∧ Reduced norms s t) := by
  unfold decideStep at h
  have hm : s.m < s.ev.fX.length := by rw [hI.fXlen]; omega
  obtain ⟨q, hq⟩ := hI.fin _ (List.getElem_mem hm)
  have hfX : s.ev.fX[s.m]? = some (.fin q) := by rw [List.getElem?_eq_getElem hm, hq]
  have hb : (s.ev.fX[s.m]?).bind Fl.val? = some q := by rw [hfX]; rfl
  rw [hb] at h
  simp only at h
  cases hc : e.resNorm s.ceplus o.slplus with
  | none => rw [hc] at h; cases h
  | some c =>
    rw [hc] at h
    simp only at h
    have hpp := newPred_pos o s.sigma
    generalize newPred o s.sigma = p at *
    have h' : Inv e [] { s with pred := p } := { hI with link := fun j hj hp => hI.link j hj hp }
    by_cases hp : p = -1
    · rw [if_pos hp] at h
      simp only [PassRes.cont.injEq] at h
      subst h
      exact ⟨⟨rfl, rfl, rfl, rfl, rfl, rfl, rfl, rfl, rfl, rfl⟩, q, c, hfX, rfl,
        Or.inl ⟨hp, ⟨rfl, rfl, rfl⟩, rfl, rfl, rfl⟩⟩
    rw [if_neg hp] at h
    simp only [if_neg hp] at h
    have hpos := hpp hp
    have hsuf : ∀ rho, rho = (s.merit0 - (q + s.sigma * c)) / p → cEta1 ≤ rho →
        q + s.sigma * c ≤ s.merit0 - 1 / 10 ^ 4 * p := by
      rintro rho rfl hr
      rw [le_div_iff₀ hpos] at hr
      unfold cEta1 at hr
      linarith
    have hins : ∀ rho, rho = (s.merit0 - (q + s.sigma * c)) / p → rho < cEta1 →
        s.merit0 - 1 / 10 ^ 4 * p < q + s.sigma * c := by
      rintro rho rfl hr
      rw [div_lt_iff₀ hpos] at hr
      unfold cEta1 at hr
      linarith
    have rej : rejectStep e o q ((s.merit0 - (q + s.sigma * c)) / p) norms { s with pred := p } =
        .cont t → StepFrame { s with pred := p } t ∧ ∃ f c' : K, s.ev.fX[s.m]? = some (.fin f) ∧
      some c = some c' ∧
      (t.pred = -1 ∧ Stays s t ∧ t.set = s.set ∧ t.delta = s.delta ∧ t.rejected = s.rejected ∨
        0 < t.pred ∧ f + s.sigma * c' ≤ s.merit0 - 1 / 10 ^ 4 * t.pred ∧ Succeeds s t f ∨
        0 < t.pred ∧ s.merit0 - 1 / 10 ^ 4 * t.pred < f + s.sigma * c' ∧ Used s t ∨
        0 < t.pred ∧ Reduced norms s t) := by
      intro hr
      obtain ⟨a, b⟩ := rejectStep_outcome e o q _ norms _ t h' hr
      have hpt : t.pred = p := a.pred
      refine ⟨a, q, c, hfX, rfl, ?_⟩
      rw [hpt]
      rcases b with ⟨b1, b2⟩ | ⟨b1, b2⟩ | b
      · exact Or.inr (Or.inl ⟨hpos, hsuf _ rfl b1, b2⟩)
      · exact Or.inr (Or.inr (Or.inl ⟨hpos, hins _ rfl b1, b2⟩))
      · exact Or.inr (Or.inr (Or.inr ⟨hpos, b⟩))
    have acc : ∀ pos cur (Y' : List (List K)) (fac' : F),
        cEta1 ≤ (s.merit0 - (q + s.sigma * c)) / p →
        accepted e o q ((s.merit0 - (q + s.sigma * c)) / p) norms pos { s with
          pred := p
          cur := cur
          set := { s.set with Y := Y', fac := fac' } } = .cont t →
        StepFrame { s with pred := p } t ∧ ∃ f c' : K, s.ev.fX[s.m]? = some (.fin f) ∧
      some c = some c' ∧
      (t.pred = -1 ∧ Stays s t ∧ t.set = s.set ∧ t.delta = s.delta ∧ t.rejected = s.rejected ∨
        0 < t.pred ∧ f + s.sigma * c' ≤ s.merit0 - 1 / 10 ^ 4 * t.pred ∧ Succeeds s t f ∨
        0 < t.pred ∧ s.merit0 - 1 / 10 ^ 4 * t.pred < f + s.sigma * c' ∧ Used s t ∨
        0 < t.pred ∧ Reduced norms s t) := by
      intro pos cur Y' fac' hr ha
      obtain ⟨a, b⟩ := accepted_outcome e o q _ norms pos _ t (by exact hI.delta) ha
      have hpt : t.pred = p := a.pred
      refine ⟨⟨a.1, a.2, a.3, a.4, a.5, a.6, a.7, a.8, a.9, a.10⟩, q, c, hfX, rfl, Or.inr (Or.inl ?_)⟩
      rw [hpt]
      exact ⟨hpos, hsuf _ rfl hr, b⟩
    split at h
    · rename_i hrho
      split at h
      · cases h
      · split at h
        · exact acc _ _ _ _ hrho h
        · split at h
          · exact acc _ _ _ _ hrho h
          · exact rej h
    · exact rej h

end Sqpdfo
