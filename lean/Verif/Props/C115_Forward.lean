import Verif.Props.C114_Merit

/-! # C115: steps whose decrease is not overestimated are never rejected -/

set_option linter.unusedSectionVars false

namespace Sqpdfo
open Spec Matrix
variable {K F : Type} [Field K] [LinearOrder K] [IsStrictOrderedRing K]

/-- The step of a pass does not promise more than it keeps: the objective falls by at least the predicted amount, and so does the
norm of the constraints.  `v` is the state in which the step is computed. -/
def Spec.Honest (e : Env K F) (o : Orc K F) (s : MSt K F) : Prop :=
  ∀ v t, beforeStep e o s = .cont v → pass e o s = .cont t → ∀ f c0 c, t.ev.fX[t.m]? = some (.fin f) →
    e.resNorm v.infoCe v.sl = some c0 → e.resNorm t.ceplus o.slplus = some c →
    f ≤ v.fx + o.qcost ∧ (0 ≤ o.rpred → c ≤ c0 - o.rpred)

/-- The state before the step. -/
theorem beforeStep_keeps {e : Env K F} (he : e.Ok) {o : Orc K F} {s v : MSt K F} (hI : Inv e [] s) (h : beforeStep e o s = .cont v) :
    Inv e [] v ∧ v.rejected = s.rejected ∧ v.sl = s.sl ∧
      (s.pred ≠ -1 ∧ v.ev.infoF = s.ev.infoF ∧ v.fx = s.fx ∨ v.ev.infoF = .fin v.fx) ∧ (e.me = 0 → v.infoCe = s.infoCe ∧ v.fx ≤ s.fx) := by
  have hb := beforeStep_inv e he o s hI
  rw [h] at hb
  refine ⟨hb, ?_⟩
  unfold beforeStep at h
  split at h
  · cases h
  split at h
  · cases h
  split at h
  · cases h
  dsimp only at h
  have h1 : Inv e [] ({ s.measure o.k1 with ev := { s.ev with flag := Status.success } } : MSt K F) :=
    { hI with link := fun j hj hp => hI.link j hj hp, flag := rfl }
  split at h
  · have hs := improve_sat e he o _ h1
    rw [h] at hs
    obtain ⟨c1, c2, c3⟩ := hs
    refine ⟨c2.rejected, (improve_keeps e o _ _ h).1, Or.inr c2.infoF, fun hme => ?_⟩
    obtain ⟨k1, k2⟩ := (improvement_of e he o s v h1 h).best hme
    refine ⟨k2, ?_⟩
    rcases k1 with k1 | ⟨k1, -⟩
    · exact k1.le
    · exact k1.le
  · rename_i hcond
    simp only [PassRes.cont.injEq] at h
    subst h
    simp only [not_or] at hcond
    exact ⟨rfl, rfl, Or.inl ⟨hcond.2.2, rfl, rfl⟩, fun _ => ⟨rfl, le_refl _⟩⟩

/-- The decision, for a trial point with a sufficient decrease that can enter the set. -/
theorem decideStep_enters {e : Env K F} {o : Orc K F} {norms : K} {s t : MSt K F} (hI : Inv e [] s) (hE : Enters e o s)
    (h : decideStep e o norms s = .cont t) {f c : K} (hf : s.ev.fX[s.m]? = some (.fin f)) (hc : e.resNorm s.ceplus o.slplus = some c)
    (hp : 0 < newPred o s.sigma) (hle : f + s.sigma * c ≤ s.merit0 - 1 / 10 ^ 4 * newPred o s.sigma) :
    Succeeds s t f ∧ t.rejected = false := by
  have hne : newPred o s.sigma ≠ -1 := fun h1 => by rw [h1] at hp; linarith
  have hb : (s.ev.fX[s.m]?).bind Fl.val? = some f := by rw [hf]; rfl
  have hrho : (s.merit0 - (f + s.sigma * c)) / newPred o s.sigma ≥ cEta1 := by
    unfold cEta1
    rw [ge_iff_le, le_div_iff₀ hp]
    linarith
  unfold decideStep at h
  rw [hb, hc] at h
  dsimp only at h
  rw [if_neg hne, if_neg hne, if_pos hrho] at h
  split at h
  · cases h
  split at h
  · have h1 := accepted_rejected e o f ((s.merit0 - (f + s.sigma * c)) / newPred o s.sigma) norms
      ((augmentY e o.xnew (s.set.Y.take s.cur)).1 - 1)
      { s with pred := newPred o s.sigma, cur := (augmentY e o.xnew (s.set.Y.take s.cur)).1, set := { s.set with Y := (augmentY e o.xnew (s.set.Y.take s.cur)).2.1, fac := (augmentY e o.xnew (s.set.Y.take s.cur)).2.2 } }
    rw [h] at h1
    have h2 := (accepted_outcome e o _ _ _ _ _ t (by exact hI.delta) h).2
    exact ⟨h2, h1⟩
  · rename_i hg
    have hE := hE.resolve_left hg
    have hi := includeInY_isSome e.dist e.build o.lval1 s.cur (1 / 10 ^ 10) (by positivity) o.xnew s.set.Y s.set.fac hE
    split at h
    · rename_i pos hpos
      have h1 := accepted_rejected e o f ((s.merit0 - (f + s.sigma * c)) / newPred o s.sigma) norms pos
        { s with pred := newPred o s.sigma, set := { s.set with
          Y := (includeInY e.dist e.build o.lval1 (List.range s.cur) (1 / 10 ^ 10) .distance o.xnew o.xnew s.set.Y s.set.fac).2.1,
          fac := (includeInY e.dist e.build o.lval1 (List.range s.cur) (1 / 10 ^ 10) .distance o.xnew o.xnew s.set.Y s.set.fac).2.2 } }
      rw [h] at h1
      have h2 := (accepted_outcome e o _ _ _ _ _ t (by exact hI.delta) h).2
      exact ⟨h2, h1⟩
    · rename_i hnone
      rw [hnone] at hi; cases hi

/-- No step has been rejected, and `info.f` is the value of the iterate. -/
structure Frank (s : MSt K F) : Prop where
  kept : s.rejected = false
  info : s.pred ≠ -1 → s.ev.infoF = .fin s.fx

/-- What a pass does that is not a rejection: there is no step (no decrease is predicted), or the trial point becomes the iterate, the
merit function falls by at least the predicted amount, and the radius is not reduced. -/
structure Spec.Forward (e : Env K F) (o : Orc K F) (v t : MSt K F) : Prop where
  kept : t.rejected = false
  moved : 0 ≤ o.rpred → 0 < -o.qcost + t.sigma * o.rpred → t.x = o.xnew ∧ min v.delta (10 ^ 5) ≤ t.delta ∧ t.pred = -o.qcost + t.sigma * o.rpred ∧
    ∃ c0 c, e.resNorm v.infoCe v.sl = some c0 ∧ e.resNorm t.ceplus o.slplus = some c ∧
      t.fx + t.sigma * c + t.pred ≤ v.fx + t.sigma * c0
  none : ¬ (0 ≤ o.rpred ∧ 0 < -o.qcost + t.sigma * o.rpred) → t.pred = -1 ∧ t.x = v.x ∧ t.fx = v.fx ∧ t.set = v.set ∧ t.delta = v.delta

theorem newPred_cases (o : Orc K F) (σ : K) : (0 ≤ o.rpred ∧ 0 < -o.qcost + σ * o.rpred → newPred o σ = -o.qcost + σ * o.rpred) ∧
    (¬ (0 ≤ o.rpred ∧ 0 < -o.qcost + σ * o.rpred) → newPred o σ = -1) := by
  unfold newPred
  dsimp only
  constructor
  · rintro ⟨h1, h2⟩
    rw [if_neg (not_lt.2 h1), if_neg (not_lt.2 h2.le), if_neg h2.ne']
  · intro h
    by_cases h1 : o.rpred < 0
    · rw [if_pos h1, if_pos (by linarith)]
    · rw [if_neg h1]
      have h2 : -o.qcost + σ * o.rpred ≤ 0 := by
        by_contra h3
        exact h ⟨not_lt.1 h1, not_le.1 h3⟩
      rcases h2.lt_or_eq with h2 | h2
      · rw [if_pos h2]
      · rw [if_neg (by rw [h2]; exact lt_irrefl _), if_pos h2]

/-- One pass. -/
theorem Frank.pass {e : Env K F} (he : e.Ok) {s v t : MSt K F} {o : Orc K F} (hI : Inv e [] s) (hs : Frank s)
    (hv : beforeStep e o s = .cont v) (hE : Enters e o v) (hh : Honest e o s) (ht : pass e o s = .cont t)
    (hq : (∀ q, .fin q ∈ t.ev.fX → q < 10 ^ 25) ∨ o.rpred = 0) : Frank t ∧ Forward e o v t := by
  obtain ⟨vi, vrej, vsl, vinf, -⟩ := beforeStep_keeps he hI hv
  have hinf : v.ev.infoF = .fin v.fx := by
    rcases vinf with ⟨k1, k2, k3⟩ | k
    · rw [k2, k3]; exact hs.info k1
    · exact k
  have hp := ht
  rw [pass_eq, hv] at hp
  obtain ⟨u, w, B, -, -, hd⟩ := stepStage_before e o v t vi hp
  obtain ⟨fr, f, c, hf, hc, -⟩ := decideStep_outcome e o _ u t B.inv hd
  have hr0 : v.rejected = false := vrej.trans hs.kept
  obtain ⟨c0, k1, k2, k3⟩ := B.fresh hr0
  rw [hinf] at k1
  simp only [Fl.fin.injEq] at k1
  have hm : Memorised u := B.merit fun h => by rw [hr0] at h; cases h
  unfold Memorised at hm
  have hts : t.sigma = u.sigma := fr.sigma
  have hf' : t.ev.fX[t.m]? = some (.fin f) := by rw [fr.fX, fr.m]; exact hf
  have hc' : e.resNorm t.ceplus o.slplus = some c := by rw [fr.ceplus]; exact hc
  obtain ⟨h1, h2⟩ := hh v t hv ht f c0 c hf' k2 hc'
  have hpt : t.pred = newPred o u.sigma := fr.pred
  have hus : 0 < u.sigma := lt_of_lt_of_le one_pos B.inv.sigma
  by_cases hpos : 0 ≤ o.rpred ∧ 0 < -o.qcost + t.sigma * o.rpred
  · rw [hts] at hpos
    have hn := (newPred_cases o u.sigma).1 hpos
    have hle : f + u.sigma * c + newPred o u.sigma ≤ u.merit0 := by
      rw [hm, ← k1, k3, hn]
      have := mul_le_mul_of_nonneg_left (h2 hpos.1) hus.le
      linarith
    have hnp : 0 < newPred o u.sigma := by rw [hn]; exact hpos.2
    have hEu : Enters e o u := by
      unfold Enters at *
      rw [B.cur, B.set]
      exact hE
    obtain ⟨a, b⟩ := decideStep_enters B.inv hEu hd hf hc hnp (by linarith)
    have hx : t.x = o.xnew := by
      have hsat := pass_sat e he o s hI
      rw [ht] at hsat
      have ti : Inv e [] t := hsat.1
      obtain ⟨i, y, f, a1, a2, -, a4, -⟩ := ti.link 0 (by have := ti.lo; omega) (by simp)
      rw [ti.ind0, a.1] at a1
      simp only [Option.some.injEq] at a1
      rw [ti.Y0] at a2
      simp only [Option.some.injEq] at a2
      rw [← a1, fr.X, B.X] at a4
      simp only [Option.some.injEq] at a4
      rw [a2, a4]
    have hinfo : u.ev.infoF = .fin f := by
      obtain ⟨q, r, i1, i2, i3⟩ := B.info
      rw [hf] at i2
      simp only [Option.some.injEq, Fl.fin.injEq] at i2
      subst i2
      rcases le_or_gt q (10 ^ 25) with hq' | hq'
      · rw [i1, i3.1 hq']
      · have hlt : f < 10 ^ 25 := by
          rcases hq with hq | hr
          · exact hq f (List.mem_of_getElem? hf')
          · have h5 : v.fx ≤ 10 ^ 25 := by
              by_contra h6
              have := (clipF_fx e v vi).2 (not_le.1 h6)
              linarith
            have h6 := hpos.2
            rw [hr, mul_zero, add_zero] at h6
            linarith
        rw [i3.2 hq'] at hlt
        exact absurd hlt (lt_irrefl _)
    refine ⟨⟨b, fun _ => ?_⟩, ⟨b, fun _ _ => ⟨hx, ?_, ?_, c0, c, k2, hc', ?_⟩, fun h => absurd (by rw [hts]; exact hpos) h⟩⟩
    · rw [a.2.2.2 b, a.2.1]; exact hinfo
    · rw [← B.delta]; exact a.2.2.1
    · rw [hpt, hn, hts]
    · rw [a.2.1, hts, hpt]
      rw [hm, ← k1, k3] at hle
      exact hle
  · have hn : t.pred = -1 := by rw [hpt]; exact (newPred_cases o u.sigma).2 (by rw [← hts]; exact hpos)
    have hnull := decideStep_null B.inv hd hn
    have hrt : t.rejected = false := by rw [hnull]; exact B.rejected.trans hr0
    refine ⟨⟨hrt, fun h => absurd hn h⟩, ⟨hrt, fun a b => absurd ⟨a, b⟩ hpos, fun _ => ⟨hn, ?_, ?_, ?_, ?_⟩⟩⟩
    · rw [hnull]; exact B.x
    · rw [hnull]; exact B.fx
    · rw [hnull]; exact B.set
    · rw [hnull]; exact B.delta

theorem start_frank {e : Env K F} {x0 : List K} {fuel : ℕ} {Δ : K} {sl : List K} {s0 : MSt K F} (H : Starts e x0 fuel Δ sl s0) : Frank s0 := by
  have hs := H.state
  unfold startState at hs
  split at hs
  · unfold mainInit at hs
    split at hs
    · split at hs
      · cases hs
      · simp only [Option.some.injEq] at hs
        subst hs
        exact ⟨rfl, fun _ => rfl⟩
    · cases hs
  · cases hs

/-- C115: if no step promises more than it keeps and every trial point can enter the set, no step of the run is rejected, with or without
constraints: a trial point with a predicted decrease becomes the iterate, the merit function falls by at least the predicted amount, and the
radius is not reduced by the step. -/
theorem C115_forward {e : Env K F} {x0 : List K} {fuel : ℕ} {Δ : K} {sl : List K} {s0 : MSt K F} (H : Starts e x0 fuel Δ sl s0)
    (os : List (Orc K F)) :
    ∀ (t : MSt K F), mainLoop e os s0 = .running t → ((∀ q, .fin q ∈ t.ev.fX → q < 10 ^ 25) ∨ ∀ o ∈ os, o.rpred = 0) →
    (∀ pre o post s, os = pre ++ o :: post → mainLoop e pre s0 = .running s →
      Honest e o s ∧ ∀ v, beforeStep e o s = .cont v → Enters e o v) →
    t.rejected = false ∧ (t.pred ≠ -1 → t.ev.infoF = .fin t.fx) ∧ ∀ pre o post s v u, os = pre ++ o :: post → mainLoop e pre s0 = .running s →
      beforeStep e o s = .cont v → pass e o s = .cont u → Forward e o v u := by
  induction os using List.reverseRecOn with
  | nil =>
    intro t h _ _
    simp only [mainLoop, MainRes.running.injEq] at h
    subst h
    have := start_frank H
    exact ⟨this.kept, this.info, fun pre o post s v u h1 => by simp at h1⟩
  | append_singleton os o ih =>
    intro t h hq hall
    obtain ⟨s, h1, h2⟩ := running_snoc h
    have hst : (∀ q, .fin q ∈ s.ev.fX → q < 10 ^ 25) ∨ ∀ o ∈ os, o.rpred = 0 := by
      refine hq.imp (fun hq q hm => ?_) fun hr o' ho' => hr o' (List.mem_append_left _ ho')
      obtain ⟨d, hd⟩ := mainLoop_added e [o] s t (H.memory os s h1).inv.hlen (Or.inl (by simp only [mainLoop, h2]))
      obtain ⟨l, hl⟩ := hd.fX
      exact hq q (by rw [← hl]; exact List.mem_append_left _ hm)
    obtain ⟨i1, i2, i3⟩ := ih s h1 hst fun pre o' post s' h3 h4 => hall pre o' (post ++ [o]) s' (by rw [h3]; simp) h4
    obtain ⟨v, hv⟩ : ∃ v, beforeStep e o s = .cont v := by
      have h3 := h2
      rw [pass_eq] at h3
      obtain ⟨v, hv, -⟩ := bind_cont h3
      exact ⟨v, hv⟩
    obtain ⟨a1, a2⟩ := hall os o [] s rfl h1
    obtain ⟨p1, p2⟩ := Frank.pass H.ok (H.memory os s h1).inv ⟨i1, i2⟩ hv (a2 v hv) a1 h2 (hq.imp id fun hr => hr o (by simp))
    refine ⟨p1.kept, p1.info, fun pre o' post s' v' u' h3 h4 h5 h6 => ?_⟩
    rcases List.eq_nil_or_concat post with rfl | ⟨post', b, rfl⟩
    · obtain ⟨rfl, rfl⟩ := List.append_singleton_inj.1 h3
      rw [h1] at h4
      cases h4
      rw [hv] at h5
      cases h5
      rw [h2] at h6
      cases h6
      exact p2
    · rw [List.concat_eq_append, ← List.cons_append, ← List.append_assoc] at h3
      obtain ⟨rfl, -⟩ := List.append_singleton_inj.1 h3
      exact i3 pre o' post' s' v' u' rfl h4 h5 h6

/-! ### Affine objectives -/

/-- Change of a linear function with gradient `g` from `x` to `y`. -/
def Spec.along (n : ℕ) (g x y : List K) : K := ∑ i : Fin n, g.getD i 0 * (y.getD i 0 - x.getD i 0)

theorem affine_along {n : ℕ} (c : K) (g : Fin n → K) (l x y : List K) (h : ∀ i : Fin n, l.getD i 0 = g i) :
    affine c g y = affine c g x + along n l x y := by
  unfold affine along
  rw [add_assoc, ← Finset.sum_add_distrib]
  refine congrArg _ (Finset.sum_congr rfl fun i _ => ?_)
  rw [h i]; ring

/-- The models find the gradient of an affine function from its values at points that determine it. -/
def Spec.ExactLinear (e : Env K F) : Prop :=
  ∀ (Y : List (List K)) (x fY : List K) (ceY : List (List K)) (c : K) (g : Fin e.n → K), Fixes e.n Y → Y.length = e.n + 1 →
    Y[0]? = some x → (∀ (j : ℕ) (y : List K), Y[j]? = some y → fY[j]? = some (affine c g y)) →
    ∀ i : Fin e.n, (e.model (e.build Y) x fY ceY).g.getD i 0 = g i

theorem affine_values {e : Env K F} {c : K} {g : Fin e.n → K}
    (hobj : ∀ w y q, e.U.f w y = .num (.fin q) → q = affine c g y ∧ q ≤ 10 ^ 25) {s : MSt K F} (h : Core e [] s) :
    (∀ (j : ℕ) (y : List K), s.set.Y[j]? = some y → s.set.fY[j]? = some (affine c g y)) ∧ s.fx = affine c g s.x ∧
      ∀ (i : ℕ) (y : List K) (f : K), s.ev.X[i]? = some y → s.ev.fX[i]? = some (.fin f) → f = affine c g y := by
  have key : ∀ (i : ℕ) (y : List K) (f : K), s.ev.X[i]? = some y → s.ev.fX[i]? = some (.fin f) → f = affine c g y := by
    intro i y f h1 h2
    obtain ⟨y', w, q, r, c1, -, c3, c4, c5⟩ := h.hist i _ h2
    rw [h1] at c1
    cases c1
    cases c4
    obtain ⟨d1, d2⟩ := hobj _ _ _ c3
    have : f = q := c5.1 d2
    subst this
    exact d1
  refine ⟨fun j y hy => ?_, ?_, key⟩
  · have hj : j < s.cur := by rw [← h.Ylen]; exact (List.getElem?_eq_some_iff.1 hy).1
    obtain ⟨i, y', f, -, b2, b3, b4, b5⟩ := h.link j hj (by simp)
    rw [hy] at b2
    cases b2
    rw [b3, key i y f b4 b5]
  · obtain ⟨i, y', f, -, b2, b3, b4, b5⟩ := h.link 0 (by have := h.lo; omega) (by simp)
    rw [h.Y0] at b2
    cases b2
    rw [h.f0] at b3
    cases b3
    exact key i _ _ b4 b5

theorem running_split {e : Env K F} (os : List (Orc K F)) {os' : List (Orc K F)} : ∀ {s t : MSt K F}, mainLoop e (os ++ os') s = .running t →
    ∃ u, mainLoop e os s = .running u ∧ mainLoop e os' u = .running t := by
  induction os with
  | nil => intro s t h; exact ⟨s, rfl, h⟩
  | cons o os ih =>
    intro s t h
    simp only [List.cons_append, mainLoop] at h ⊢
    cases hp : pass e o s with
    | ret r => rw [hp] at h; cases h
    | crash r => rw [hp] at h; cases h
    | cont r => rw [hp] at h; exact ih h

theorem run_level {e : Env K F} {x0 : List K} {fuel : ℕ} {Δ : K} {sl : List K} {s0 : MSt K F} (H : Starts e x0 fuel Δ sl s0)
    (hme : e.me = 0) (hns : e.ns = 0) (pre : List (Orc K F)) : ∀ s, mainLoop e pre s0 = .running s → Level e s0.fx s := by
  induction pre using List.reverseRecOn with
  | nil =>
    intro s h1
    simp only [mainLoop, MainRes.running.injEq] at h1
    subst h1
    exact (start_level H hme).1
  | append_singleton pre o ih =>
    intro s h1
    obtain ⟨r, h2, h3⟩ := running_snoc h1
    exact ((ih r h2).pass H hme hns (start_level H hme).2.1 h3).1

/-- C115 for affine objectives without constraints and linear models: if the Hessian matrices in use are positive semidefinite
(the identity, zero, or those of BFGS), so that the predicted change is at least that of the linear model, no step is ever rejected. -/
theorem C115_affine {e : Env K F} {x0 : List K} {fuel : ℕ} {Δ : K} {sl : List K} {s0 : MSt K F} (H : Starts e x0 fuel Δ sl s0)
    (hme : e.me = 0) (hns : e.ns = 0) (hlin : e.finalDeg = .linear) (hreg : e.regression = false) (hn : (e.n : K) + 1 < 10 ^ 10)
    (c : K) (g : Fin e.n → K) (hobj : ∀ w y q, e.U.f w y = .num (.fin q) → q = affine c g y ∧ q ≤ 10 ^ 25) (hmod : ExactLinear e)
    (os : List (Orc K F))
    (hT : ∀ pre o post u, os = pre ++ o :: post → mainLoop e pre s0 = .running u →
      TrueLagrange e o u ∧ ∀ v, beforeStep e o u = .cont v → (∀ y ∈ v.set.Y, 0 < e.dist y o.xnew) ∧ o.rpred = 0 ∧
        along e.n v.infoG.g v.x o.xnew ≤ o.qcost)
    (t : MSt K F) (h : mainLoop e os s0 = .running t) :
    t.rejected = false ∧ ∀ pre o post s v u, os = pre ++ o :: post → mainLoop e pre s0 = .running s →
      beforeStep e o s = .cont v → pass e o s = .cont u →
      (∀ i : Fin e.n, v.infoG.g.getD i 0 = g i) ∧
      (o.qcost < 0 → u.x = o.xnew ∧ affine c g o.xnew ≤ affine c g v.x + o.qcost ∧ u.pred = -o.qcost ∧ min v.delta (10 ^ 5) ≤ u.delta) ∧
      (0 ≤ o.qcost → u.pred = -1 ∧ u.x = v.x ∧ u.set = v.set ∧ u.delta = v.delta) := by
  have det : ∀ pre o post s v, os = pre ++ o :: post → mainLoop e pre s0 = .running s → beforeStep e o s = .cont v → Det e v := by
    intro pre o post s v h1 h2 h3
    have hDu : Det e s := mainLoop_det e hlin hreg pre s0 (fun pre' o' post' u' h3 h4 =>
      (hT pre' o' (post' ++ o :: post) u' (by rw [h1, h3]; simp) h4).1) (start_det H) s (Or.inl h2)
    have := beforeStep_det e o s (hT pre o post s h1 h2).1.proposals hDu
    rw [h3] at this; exact this
  have inv : ∀ pre o s v, mainLoop e pre s0 = .running s → beforeStep e o s = .cont v → Inv e [] v := by
    intro pre o s v h2 h3
    exact (beforeStep_keeps H.ok (H.memory pre s h2).inv h3).1
  have grad : ∀ pre o post s v, os = pre ++ o :: post → mainLoop e pre s0 = .running s → beforeStep e o s = .cont v →
      ∀ i : Fin e.n, v.infoG.g.getD i 0 = g i := by
    intro pre o post s v h1 h2 h3
    have hf := mainLoop_fresh e pre s0 (startState_fresh e x0 fuel Δ sl s0 H.state) s (Or.inl h2)
    have hfv := beforeStep_fresh e o s hf
    rw [h3] at hfv
    have hfv : Fresh e v := hfv
    have hI := inv pre o s v h2 h3
    have hD := det pre o post s v h1 h2 h3
    rw [hfv.info, hfv.gx, hfv.fac]
    exact hmod _ _ _ _ c g hD.fixes hD.len hI.Y0 (affine_values hobj hI.toCore).1
  have honest : ∀ pre o post s, os = pre ++ o :: post → mainLoop e pre s0 = .running s →
      Honest e o s ∧ ∀ v, beforeStep e o s = .cont v → Enters e o v := by
    intro pre o post s h1 h2
    refine ⟨fun v u hv hu f c0 c' hf hc0 hc' => ?_, fun v hv => ?_⟩
    · obtain ⟨-, hr, hq⟩ := (hT pre o post s h1 h2).2 v hv
      have hI := inv pre o s v h2 hv
      have hsat := pass_sat e H.ok o s (H.memory pre s h2).inv
      rw [hu] at hsat
      have ui : Inv e [] u := hsat.1
      have hxu : u.ev.X[u.m]? = some o.xnew := by
        rw [pass_eq, hv] at hu
        obtain ⟨w, w', B, -, -, hd⟩ := stepStage_before e o v u hI hu
        have fr := (decideStep_outcome e o _ w u B.inv hd).1
        rw [fr.X, fr.m]; exact B.X
      have h3 := (affine_values hobj ui.toCore).2.2 _ _ _ hxu hf
      rw [h3, (affine_values hobj hI.toCore).2.1, affine_along c g v.infoG.g v.x o.xnew (grad pre o post s v h1 h2 hv)]
      refine ⟨by linarith, fun _ => ?_⟩
      have hce : v.infoCe = [] ∧ u.ceplus = [] := by
        refine ⟨?_, (run_level H hme hns (pre ++ [o]) u ?_).ceplus⟩
        · rw [((beforeStep_keeps H.ok (H.memory pre s h2).inv hv).2.2.2.2 hme).1]; exact (run_level H hme hns pre s h2).infoCe
        · rw [mainLoop_append _ _ _ _ _ h2]
          simp only [mainLoop, hu]
      rw [resNorm_some hns, hce.1] at hc0
      rw [resNorm_some hns, hce.2] at hc'
      simp only [Option.some.injEq] at hc0 hc'
      rw [← hc0, ← hc', hr, sub_zero]
    · have hD := det pre o post s v h1 h2 hv
      exact enters_of_lagrange hn hD ((hT pre o post s h1 h2).1.values v hv hD.fixes hD.len) ((hT pre o post s h1 h2).2 v hv).1
  have hq : ∀ o ∈ os, o.rpred = 0 := by
    intro o ho
    obtain ⟨pre, post, hs⟩ := List.append_of_mem ho
    rw [hs] at h
    obtain ⟨u, h1, h2⟩ := running_split pre h
    simp only [mainLoop] at h2
    cases hp : pass e o u with
    | ret r => rw [hp] at h2; cases h2
    | crash r => rw [hp] at h2; cases h2
    | cont r =>
      rw [pass_eq] at hp
      obtain ⟨v, hv, -⟩ := bind_cont hp
      exact ((hT pre o post u hs h1).2 v hv).2.1
  obtain ⟨r1, -, r3⟩ := C115_forward H os t h (Or.inr hq) honest
  refine ⟨r1, fun pre o post s v u h1 h2 h3 h4 => ⟨grad pre o post s v h1 h2 h3, fun hneg => ?_, fun hnn => ?_⟩⟩
  · have F := r3 pre o post s v u h1 h2 h3 h4
    obtain ⟨-, hr, hq⟩ := (hT pre o post s h1 h2).2 v h3
    obtain ⟨a1, a2, a3, -⟩ := F.moved hr.ge (by rw [hr]; linarith)
    rw [affine_along c g v.infoG.g v.x o.xnew (grad pre o post s v h1 h2 h3)]
    exact ⟨a1, by linarith, by rw [a3, hr]; ring, a2⟩
  · have F := r3 pre o post s v u h1 h2 h3 h4
    obtain ⟨-, hr, hq⟩ := (hT pre o post s h1 h2).2 v h3
    obtain ⟨a1, a2, -, a4, a5⟩ := F.none (by rw [hr]; rintro ⟨-, h6⟩; linarith)
    exact ⟨a1, a2, a4, a5⟩

/-- On affine objectives the predicted decreases of all steps that are taken sum up to at most the decrease of the objective (in C111 the
bound is `10^4` times as large). -/
theorem C115_total {e : Env K F} {x0 : List K} {fuel : ℕ} {Δ : K} {sl : List K} {s0 : MSt K F} (H : Starts e x0 fuel Δ sl s0)
    (hme : e.me = 0) (hns : e.ns = 0) (hlin : e.finalDeg = .linear) (hreg : e.regression = false) (hn : (e.n : K) + 1 < 10 ^ 10)
    (c : K) (g : Fin e.n → K) (hobj : ∀ w y q, e.U.f w y = .num (.fin q) → q = affine c g y ∧ q ≤ 10 ^ 25) (hmod : ExactLinear e)
    (os : List (Orc K F)) :
    ( ∀ pre o post u, os = pre ++ o :: post → mainLoop e pre s0 = .running u →
      TrueLagrange e o u ∧ ∀ v, beforeStep e o u = .cont v → (∀ y ∈ v.set.Y, 0 < e.dist y o.xnew) ∧ o.rpred = 0 ∧
        along e.n v.infoG.g v.x o.xnew ≤ o.qcost) →
    ∀ t, mainLoop e os s0 = .running t →
    affine c g t.x + (gains Taken e os s0).sum ≤ affine c g x0 := by
  induction os using List.reverseRecOn with
  | nil =>
    intro _ t h
    simp only [mainLoop, MainRes.running.injEq] at h
    subst h
    obtain ⟨hL, -, h1, h2⟩ := start_level H hme
    have hv := affine_values hobj hL.inv.toCore
    have h3 := hv.2.2 0 _ _ h1 h2
    rw [← hv.2.1, h3]
    simp [gains]
  | append_singleton os o ih =>
    intro hT t h
    obtain ⟨s, h1, h2⟩ := running_snoc h
    have hS := ih (fun pre o' post u h3 h4 => hT pre o' (post ++ [o]) u (by rw [h3]; simp) h4) s h1
    have hA := C115_affine H hme hns hlin hreg hn c g hobj hmod (os ++ [o]) hT t h
    obtain ⟨v, hv⟩ : ∃ v, beforeStep e o s = .cont v := by
      have h3 := h2
      rw [pass_eq] at h3
      obtain ⟨v, hv, -⟩ := bind_cont h3
      exact ⟨v, hv⟩
    obtain ⟨-, a1, a2⟩ := hA.2 os o [] s v t rfl h1 hv h2
    have sI := (H.memory os s h1).inv
    obtain ⟨vI, -, -, -, k⟩ := beforeStep_keeps H.ok sI hv
    have hle := (k hme).2
    rw [(affine_values hobj vI.toCore).2.1, (affine_values hobj sI.toCore).2.1] at hle
    rw [gains_append _ _ _ _ _ _ _ h1 h2, List.sum_append]
    rcases lt_or_ge o.qcost 0 with hq | hq
    · obtain ⟨b1, b2, b3, -⟩ := a1 hq
      rw [b1]
      split_ifs
      · rw [List.sum_singleton, b3]; linarith
      · rw [List.sum_nil]; linarith
    · obtain ⟨b1, b2, -⟩ := a2 hq
      have hnt : ¬ Taken t := fun hk => by
        have := ((run_level H hme hns os s h1).pass H hme hns (start_level H hme).2.1 h2).2.1 hk
        rw [b1] at this
        linarith
      rw [if_neg hnt, List.sum_nil, b2]; linarith

/-! ### The models of the code -/

theorem kern_exact {e : Env ℝ (List (List ℝ))} {k : Kern e.n} (hk : UsesKern e k) (hq : GoodQR k) (hms : LinKer k.ms) (hn : 1 ≤ e.n) :
    ExactLinear e := by
  intro Y x fY ceY c g hF hl hx hv i
  have hp := hF.poised hn hl
  have hlen : Y.length - 1 = e.n := by omega
  have hs : Smooth (fun y => c + g ⬝ᵥ y) (fun _ => g) 0 := by
    intro x y
    rw [dotProduct_sub]
    have : c + g ⬝ᵥ y - (c + g ⬝ᵥ x) - (g ⬝ᵥ y - g ⬝ᵥ x) = 0 := by ring
    rw [this]; simp
  obtain ⟨lam, r, -, h1, -⟩ := C73_linear hms hn (ptsOf e.n e.n Y) _ _ (hq _ _ _ hp) hp (1 / 10 ^ 3) (by norm_num) _ _ _ hs
  have hE := acc_linear hq hms hn Y hp h1
  have h0 : vec e.n x = ptsOf e.n e.n Y 0 := by
    simp only [ptsOf, List.getD_eq_getElem?_getD, Fin.val_zero, hx, Option.getD_some]
  have := hE _ _ _ hs x fY h0 (fun j => by
    have hj : (j : ℕ) < Y.length := by rw [hl]; exact j.2
    simp only [vec, ptsOf, List.getD_eq_getElem?_getD, hv j _ (List.getElem?_eq_getElem hj), List.getElem?_eq_getElem hj, Option.getD_some]
    rfl) i
  rw [zero_mul] at this
  rw [hk.build, hk.model]
  show (gradOf k (Y.length - 1) Y x fY).getD i 0 = g i
  rw [hlen]
  exact sub_eq_zero.1 (abs_eq_zero.1 (le_antisymm this (abs_nonneg _)))

/-- C115 with the models, the Lagrange polynomials and the repair of the code, for linear models. -/
theorem C115_code {e : Env ℝ (List (List ℝ))} {x0 : List ℝ} {fuel : ℕ} {Δ : ℝ} {sl : List ℝ}
    {s0 : MSt ℝ (List (List ℝ))} (H : Starts e x0 fuel Δ sl s0) (hme : e.me = 0) (hns : e.ns = 0) {k : Kern e.n} (hk : UsesKern e k)
    (hq : GoodQR k) (hms : LinKer k.ms) (hn : 1 ≤ e.n) (hn' : (e.n : ℝ) + 1 < 10 ^ 10) (hlin : e.finalDeg = .linear) (hreg : e.regression = false)
    (c : ℝ) (g : Fin e.n → ℝ) (hobj : ∀ w y q, e.U.f w y = .num (.fin q) → q = affine c g y ∧ q ≤ 10 ^ 25) (os : List (Orc ℝ (List (List ℝ))))
    (hT : ∀ pre o post u, os = pre ++ o :: post → mainLoop e pre s0 = .running u →
      CodeLagrange e k o u ∧ ∀ v, beforeStep e o u = .cont v → (∀ y ∈ v.set.Y, 0 < e.dist y o.xnew) ∧ o.rpred = 0 ∧
        ∃ M : Matrix (Fin e.n) (Fin e.n) ℝ, (∀ d, 0 ≤ d ⬝ᵥ M *ᵥ d) ∧
          o.qcost = along e.n v.infoG.g v.x o.xnew + 1 / 2 * ((vec e.n o.xnew - vec e.n v.x) ⬝ᵥ M *ᵥ (vec e.n o.xnew - vec e.n v.x)))
    (t : MSt ℝ (List (List ℝ))) (h : mainLoop e os s0 = .running t) :
    t.rejected = false ∧ affine c g t.x + (gains Taken e os s0).sum ≤ affine c g x0 ∧
    ∀ pre o post s v u, os = pre ++ o :: post → mainLoop e pre s0 = .running s →
      beforeStep e o s = .cont v → pass e o s = .cont u →
      (∀ i : Fin e.n, v.infoG.g.getD i 0 = g i) ∧
      (o.qcost < 0 → u.x = o.xnew ∧ affine c g o.xnew ≤ affine c g v.x + o.qcost ∧ u.pred = -o.qcost ∧ min v.delta (10 ^ 5) ≤ u.delta) ∧
      (0 ≤ o.qcost → u.pred = -1 ∧ u.x = v.x ∧ u.set = v.set ∧ u.delta = v.delta) := by
  have hT' : ∀ pre o post u, os = pre ++ o :: post → mainLoop e pre s0 = .running u →
      TrueLagrange e o u ∧ ∀ v, beforeStep e o u = .cont v → (∀ y ∈ v.set.Y, 0 < e.dist y o.xnew) ∧ o.rpred = 0 ∧
        along e.n v.infoG.g v.x o.xnew ≤ o.qcost := by
    intro pre o post u h1 h2
    obtain ⟨a, b⟩ := hT pre o post u h1 h2
    refine ⟨a.holds hk hq hms hn, fun v hv => ?_⟩
    obtain ⟨b1, b2, M, hM, b3⟩ := b v hv
    have := hM (vec e.n o.xnew - vec e.n v.x)
    exact ⟨b1, b2, by rw [b3]; linarith⟩
  have hX := kern_exact hk hq hms hn
  obtain ⟨r1, r2⟩ := C115_affine H hme hns hlin hreg hn' c g hobj hX os hT' t h
  exact ⟨r1, C115_total H hme hns hlin hreg hn' c g hobj hX os hT' t h, r2⟩

/-! ### Concrete runs -/

namespace Ex

/-- Objective `2 x` of one variable, linear models. -/
def downEnv : Env ℚ (List (List ℚ)) :=
  { gEnv ⟨fun _ y => if 2 * y.getD 0 0 ≤ 10 ^ 25 then .num (.fin (2 * y.getD 0 0)) else .raised, none⟩ .pinf with
    model := fun Y _ fY _ => ⟨[(fY.getD 1 0 - fY.getD 0 0) / ((Y.getD 1 []).getD 0 0 - (Y.getD 0 []).getD 0 0)], []⟩ }

theorem down_obj : ∀ w y q, downEnv.U.f w y = .num (.fin q) → q = affine (n := 1) 0 (fun _ => 2) y ∧ q ≤ 10 ^ 25 := by
  intro w y q h
  simp only [downEnv, gEnv] at h
  split at h
  · cases h; exact ⟨by rw [line_affine, zero_add], by assumption⟩
  · cases h

theorem down_exact : ExactLinear downEnv := by
  intro Y x fY ceY c g hF hl hx hv i
  have hl : Y.length = 2 := hl
  match Y, hl with
  | [y, z], _ =>
    change Fin 1 → ℚ at g
    change Fin 1 at i
    have h0 := hv 0 y rfl
    have h1 := hv 1 z rfl
    have hne : z.getD 0 0 - y.getD 0 0 ≠ 0 := by
      intro hz
      have := hF (-(y.getD 0 0)) (fun _ => 1) (fun u hu => by
        refine (line_affine _ _ u).trans ?_
        rcases List.mem_cons.1 hu with rfl | hu
        · ring
        · rcases List.mem_cons.1 hu with rfl | hu
          · linarith
          · cases hu)
      exact one_ne_zero (congrFun this.2 (0 : Fin 1))
    have hi : i = 0 := Subsingleton.elim _ _
    subst hi
    have e0 : affine c g y = c + g 0 * y.getD 0 0 := line_affine c g y
    have e1 : affine c g z = c + g 0 * z.getD 0 0 := line_affine c g z
    show (fY.getD 1 0 - fY.getD 0 0) / (z.getD 0 0 - y.getD 0 0) = g 0
    rw [List.getD_eq_getElem?_getD, List.getD_eq_getElem?_getD, h0, h1, Option.getD_some, Option.getD_some]
    rw [div_eq_iff hne]
    have e0' : affine (n := downEnv.n) c g y = c + g 0 * y.getD 0 0 := e0
    have e1' : affine (n := downEnv.n) c g z = c + g 0 * z.getD 0 0 := e1
    rw [e0', e1']; ring

/-- Trial point, predicted decrease and the set in use: two steps (the first with the Hessian matrix 1), a pass without a predicted decrease, and
a step after an improvement of the set. -/
def downData : List (ℚ × ℚ × ℚ × ℚ) := [(5 / 2, 7 / 8, 3, 2), (1 / 2, 4, 5 / 2, 2), (0, -1, 1 / 2, 2), (-1, 3, 1 / 2, 1 / 2 + 1 / 10 ^ 5)]

def downOrc (d : ℚ × ℚ × ℚ × ℚ) : Orc ℚ (List (List ℚ)) := lOrc 2 d.1 d.2.1 d.2.2.1 d.2.2.2

def downCheck (ds : List (ℚ × ℚ × ℚ × ℚ)) (s0 : MSt ℚ (List (List ℚ))) (k : ℕ) : Bool :=
  match mainLoop downEnv ((ds.map downOrc).take k) s0, ds[k]? with
  | .running s, some d =>
    match beforeStep downEnv (downOrc d) s with
    | .cont v => decide (v.set.Y = [[d.2.2.1], [d.2.2.2]]) && decide (d.2.2.1 ≠ d.2.2.2) && (v.set.Y.all fun y => decide (0 < downEnv.dist y [d.1])) &&
        decide (along 1 v.infoG.g v.x [d.1] ≤ -d.2.1)
    | _ => true
  | _, _ => true

theorem downCheck_sound {ds : List (ℚ × ℚ × ℚ × ℚ)} {s0 : MSt ℚ (List (List ℚ))} (h : ∀ k, k < ds.length → downCheck ds s0 k = true) :
    ∀ pre o post u, ds.map downOrc = pre ++ o :: post → mainLoop downEnv pre s0 = .running u →
      TrueLagrange downEnv o u ∧ ∀ v, beforeStep downEnv o u = .cont v → (∀ y ∈ v.set.Y, 0 < downEnv.dist y o.xnew) ∧ o.rpred = 0 ∧
        along downEnv.n v.infoG.g v.x o.xnew ≤ o.qcost := by
  intro pre o post u h1 h2
  have hk : pre.length < ds.length := by
    have := congrArg List.length h1
    simp only [List.length_map, List.length_append, List.length_cons] at this
    omega
  have ho : (ds.map downOrc)[pre.length]? = some o := by rw [h1]; simp
  have ht : mainLoop downEnv ((ds.map downOrc).take pre.length) s0 = .running u := by rw [h1]; simpa using h2
  rw [List.getElem?_map, List.getElem?_eq_getElem hk, Option.map_some, Option.some.injEq] at ho
  have hc := h _ hk
  unfold downCheck at hc
  rw [ht, List.getElem?_eq_getElem hk] at hc
  generalize ds[pre.length] = d at ho hc
  subst ho
  refine ⟨⟨fun _ => ?_, fun v hv _ _ => ?_⟩, fun v hv => ?_⟩
  · exact lOrc_proposals _ _ _ _ _
  · simp only [hv, Bool.and_eq_true, decide_eq_true_eq] at hc
    rw [hc.1.1.1]
    exact lOrc_values _ _ _ _ _ hc.1.1.2
  · simp only [hv, Bool.and_eq_true, decide_eq_true_eq, List.all_eq_true] at hc
    exact ⟨hc.1.2, rfl, hc.2⟩

theorem down_starts {s0 : MSt ℚ (List (List ℚ))} (h : startState downEnv [3] 1 1 [] = some s0) : Starts downEnv [3] 1 1 [] s0 :=
  ⟨⟨nrm1_nonneg, descOrder_sorted⟩, ⟨fun _ => rfl, fun _ h => by cases h⟩, rfl, by norm_num, h⟩

/-- From 3 to 2, where the penalty parameter grows, and to 1; the predictions are exact. -/
def wRun : List (Orc ℚ Unit) := [{ stepC [2] 1 with qcost := 1 }, { stepC [1] 1 with qcost := 1 }]

/-- The hypotheses of `C115_forward` for the pass after the first `k` ones. -/
def wCheck (s0 : MSt ℚ Unit) (k : ℕ) : Bool :=
  match mainLoop vEnv (wRun.take k) s0, wRun[k]? with
  | .running s, some o =>
    match beforeStep vEnv o s with
    | .cont v => ((List.range v.cur).any fun j => match v.set.Y[j]? with
        | some y => decide (1 / 10 ^ 10 < |o.lval1 j|) && decide (0 < vEnv.dist y o.xnew)
        | none => false) &&
      (match pass vEnv o s with
        | .cont t => (match t.ev.fX[t.m]?, vEnv.resNorm v.infoCe v.sl, vEnv.resNorm t.ceplus o.slplus with
          | some (.fin f), some c0, some c => decide (f ≤ v.fx + o.qcost) && decide (c ≤ c0 - o.rpred)
          | _, _, _ => false)
        | _ => true)
    | _ => true
  | _, _ => true

theorem wCheck_sound {s0 : MSt ℚ Unit} (h : ∀ k, k < 2 → wCheck s0 k = true) :
    ∀ pre o post s, wRun = pre ++ o :: post → mainLoop vEnv pre s0 = .running s →
      Honest vEnv o s ∧ ∀ v, beforeStep vEnv o s = .cont v → Enters vEnv o v := by
  intro pre o post s h1 h2
  have hk : pre.length < 2 := by
    have := congrArg List.length h1
    simp only [wRun, List.length_append, List.length_cons, List.length_nil] at this
    omega
  have ht : mainLoop vEnv (wRun.take pre.length) s0 = .running s := by rw [h1]; simpa using h2
  have ho : wRun[pre.length]? = some o := by rw [h1]; simp
  have hc := h _ hk
  unfold wCheck at hc
  rw [ht, ho] at hc
  refine ⟨fun v t hv hp f c0 c hf h3 h4 => ?_, fun v hv => ?_⟩
  · simp only [hv, hp, hf, h3, h4, Bool.and_eq_true, decide_eq_true_eq] at hc
    exact ⟨hc.2.1, fun _ => hc.2.2⟩
  · simp only [hv, Bool.and_eq_true, List.any_eq_true, List.mem_range] at hc
    obtain ⟨⟨j, hj, hy⟩, -⟩ := hc
    cases hv : v.set.Y[j]? with
    | none => rw [hv] at hy; cases hy
    | some y =>
      rw [hv] at hy
      simp only [Bool.and_eq_true, decide_eq_true_eq] at hy
      exact Or.inr ⟨j, y, hj, hv, hy.1, hy.2⟩

end Ex

/-- A constrained run meets the hypotheses of `C115_forward`; the penalty parameter grows in its first pass. -/
example : ∃ s0 t, Starts Ex.vEnv [3] 1 1 [] s0 ∧ mainLoop Ex.vEnv Ex.wRun s0 = .running t ∧ t.x = [1] ∧ t.sigma = 3 / 2 ∧ t.rejected = false := by
  have h : (match Ex.start Ex.vEnv [3] with
      | none => false
      | some s => match mainLoop Ex.vEnv Ex.wRun s with
        | .running t => decide (t.sigma = 3 / 2) && decide (t.x = [1]) && (t.ev.fX.all fun v => Fl.lt v (.fin (10 ^ 25))) &&
          (Ex.wCheck s 0 && Ex.wCheck s 1)
        | _ => false) = true := by decide +kernel
  split at h
  · cases h
  · rename_i s0 hs
    split at h
    · rename_i t hm
      simp only [Bool.and_eq_true, decide_eq_true_eq, List.all_eq_true] at h
      obtain ⟨⟨⟨h1, h2⟩, h3⟩, k0, k1⟩ := h
      have H : Starts Ex.vEnv [3] 1 1 [] s0 := Ex.envC_starts rfl hs
      refine ⟨s0, t, H, hm, h2, h1, ?_⟩
      exact (C115_forward H Ex.wRun t hm (Or.inl fun q hq => of_decide_eq_true (h3 _ hq)) (Ex.wCheck_sound fun k hk => by
        match k, hk with
        | 0, _ => exact k0
        | 1, _ => exact k1)).1
    · cases h

/-- A run of four passes with objective `2 x` meets the hypotheses of `C115_affine` and `C115_total`. -/
example : ∃ s0 t, Starts Ex.downEnv [3] 1 1 [] s0 ∧ mainLoop Ex.downEnv (Ex.downData.map Ex.downOrc) s0 = .running t ∧ t.x = [-1] ∧
    t.rejected = false ∧ gains Taken Ex.downEnv (Ex.downData.map Ex.downOrc) s0 = [7 / 8, 4, 3] ∧
    affine (n := 1) (0 : ℚ) (fun _ => 2) t.x + (7 / 8 + 4 + 3) ≤ 6 := by
  have h : (match startState Ex.downEnv [3] 1 1 [] with
      | none => false
      | some s => match mainLoop Ex.downEnv (Ex.downData.map Ex.downOrc) s with
        | .running t => decide (t.x = [-1]) && decide (gains Taken Ex.downEnv (Ex.downData.map Ex.downOrc) s = [7 / 8, 4, 3]) &&
          ((List.range 4).all fun k => Ex.downCheck Ex.downData s k)
        | _ => false) = true := by decide +kernel
  split at h
  · cases h
  · rename_i s0 hs
    split at h
    · rename_i t hm
      simp only [Bool.and_eq_true, decide_eq_true_eq, List.all_eq_true, List.mem_range] at h
      obtain ⟨⟨h1, h2⟩, h3⟩ := h
      have H := Ex.down_starts hs
      have hT := Ex.downCheck_sound (ds := Ex.downData) (s0 := s0) fun k hk => h3 k hk
      refine ⟨s0, t, H, hm, h1, ?_, h2, ?_⟩
      · exact (C115_affine H rfl rfl rfl rfl (by norm_num [Ex.downEnv, Ex.gEnv]) 0 (fun _ => 2) Ex.down_obj Ex.down_exact _ hT t hm).1
      · have := C115_total H rfl rfl rfl rfl (by norm_num [Ex.downEnv, Ex.gEnv]) 0 (fun _ => 2) Ex.down_obj Ex.down_exact _ hT t hm
        rw [h2] at this
        have e : affine (n := 1) (0 : ℚ) (fun _ => 2) [3] = 6 := by rw [Ex.line_affine]; norm_num
        have e' : affine (n := Ex.downEnv.n) (0 : ℚ) (fun _ => 2) [3] = 6 := e
        rw [e'] at this
        refine le_trans (le_of_eq ?_) this
        simp only [List.sum_cons, List.sum_nil]
        show _ = affine (n := 1) (0 : ℚ) (fun _ => 2) t.x + _
        ring
    · cases h

/-- The condition on the predicted change is needed: with a matrix of negative curvature a step along which the affine objective falls is rejected. -/
theorem C115_overestimated : ∃ (o : Orc ℚ (List (List ℚ))) (s0 t : MSt ℚ (List (List ℚ))) (M : ℚ), Starts Ex.downEnv [3] 1 1 [] s0 ∧
    TrueLagrange Ex.downEnv o s0 ∧ mainLoop Ex.downEnv [o] s0 = .running t ∧ o.rpred = 0 ∧ M < 0 ∧
    o.qcost = along 1 s0.infoG.g s0.x o.xnew + 1 / 2 * M * (5 / 2 - 3) ^ 2 ∧ o.xnew = [5 / 2] ∧ s0.x = [3] ∧
    t.ev.fX = [.fin 6, .fin 4, .fin 5] ∧ t.rejected = true ∧ t.x = [3] ∧ t.delta < s0.delta := by
  have h : (match startState Ex.downEnv [3] 1 1 [] with
      | none => false
      | some s => match mainLoop Ex.downEnv [Ex.downOrc (5 / 2, 20000, 3, 2)] s with
        | .running t => decide (s.x = [3]) && decide (t.rejected = true) && decide (t.x = [3]) && decide (t.delta < s.delta) &&
          decide (t.ev.fX = [Fl.fin 6, .fin 4, .fin 5]) && decide (s.infoG.g = [2]) &&
          (match beforeStep Ex.downEnv (Ex.downOrc (5 / 2, 20000, 3, 2)) s with
            | .cont v => decide (v.set.Y = [[3], [2]])
            | _ => false)
        | _ => false) = true := by decide +kernel
  split at h
  · cases h
  · rename_i s0 hs
    split at h
    · rename_i t hm
      simp only [Bool.and_eq_true, decide_eq_true_eq] at h
      obtain ⟨⟨⟨⟨⟨⟨h1, h2⟩, h3⟩, h4⟩, h5⟩, h6⟩, h7⟩ := h
      refine ⟨Ex.downOrc (5 / 2, 20000, 3, 2), s0, t, -159992, Ex.down_starts hs, ⟨fun _ => Ex.lOrc_proposals _ _ _ _ _, fun v hv _ _ => ?_⟩, hm, rfl, by norm_num, ?_, rfl,
        h1, h5, h2, h3, h4⟩
      · rw [hv] at h7
        rw [of_decide_eq_true h7]
        exact Ex.lOrc_values _ _ _ _ _ (by norm_num)
      · rw [h6, h1]
        norm_num [along, Ex.downOrc, Ex.lOrc, Ex.gOrc]
    · cases h

/-! ### One pass with the functions of the code -/

/-- Without constraints the decision about such a trial point can only fail by an index outside the lists. -/
theorem decideStep_goes {e : Env K F} {o : Orc K F} {norms : K} {s : MSt K F} (hme : e.me = 0) (hE : Enters e o s)
    {f c : K} (hf : s.ev.fX[s.m]? = some (.fin f)) (hc : e.resNorm s.ceplus o.slplus = some c)
    (hp : 0 < newPred o s.sigma) (hle : f + s.sigma * c ≤ s.merit0 - 1 / 10 ^ 4 * newPred o s.sigma) :
    (∃ t, decideStep e o norms s = .cont t) ∨ decideStep e o norms s = .crash .index := by
  have hne : newPred o s.sigma ≠ -1 := fun h1 => by rw [h1] at hp; linarith
  have hb : (s.ev.fX[s.m]?).bind Fl.val? = some f := by rw [hf]; rfl
  have hrho : (s.merit0 - (f + s.sigma * c)) / newPred o s.sigma ≥ cEta1 := by
    unfold cEta1
    rw [ge_iff_le, le_div_iff₀ hp]
    linarith
  have hacc : ∀ f rho norms pos s, (∃ t, accepted e o f rho norms pos s = .cont t) ∨ accepted e o f rho norms pos s = .crash .index := by
    intro f rho norms pos s
    unfold accepted
    dsimp only
    rw [if_neg (by rw [hme]; exact fun h => lt_irrefl _ h.1)]
    split
    · exact Or.inr rfl
    · split
      · exact Or.inr rfl
      · exact Or.inl ⟨_, rfl⟩
  have hlt : ¬ f + s.sigma * c ≥ s.merit0 := by
    have : (0 : K) < 1 / 10 ^ 4 * newPred o s.sigma := by positivity
    intro h
    linarith
  unfold decideStep
  rw [hb, hc]
  dsimp only
  rw [if_neg hne, if_neg hne, if_pos hrho, if_neg hlt]
  split
  · exact hacc _ _ _ _ _
  · rename_i hg
    have hi := includeInY_isSome e.dist e.build o.lval1 s.cur (1 / 10 ^ 10) (by positivity) o.xnew s.set.Y s.set.fac (hE.resolve_left hg)
    split
    · exact hacc _ _ _ _ _
    · rename_i hnone
      rw [hnone] at hi; cases hi

namespace Ex

theorem line_set : ∃ s0, startState lineEnv [1] 1 1 [] = some s0 ∧ s0.set.Y = [[1], [0]] ∧ s0.x = [1] := by
  unfold startState
  rw [line_init]
  exact ⟨_, rfl, rfl, rfl⟩

/-- Results of a pass with trial point 1/2, for which the model with the matrix 1 predicts the decrease 7/8. -/
noncomputable def halfOrc : Orc ℝ (List (List ℝ)) := { sqOrc with k1 := ⟨false, 2, 0, 0⟩, xnew := [1 / 2], qcost := -(7 / 8) }

theorem half_before {s0 : MSt ℝ (List (List ℝ))} (h1 : s0.niter = 0) (h2 : s0.ev.nsimul = 2) (h3 : s0.delta = 1) (h4 : s0.pred = 0)
    {o : Orc ℝ (List (List ℝ))} (o1 : o.k1 = ⟨false, 2, 0, 0⟩) :
    beforeStep lineEnv o s0 = .cont { s0.measure o.k1 with ev := { s0.ev with flag := Status.success } } := by
  have e1 : lineEnv.miter.le (.fin (s0.niter : ℝ)) = false := by rw [h1]; norm_num [lineEnv, sqEnv, Fl.le]
  have e2 : lineEnv.msimul.le (.fin (s0.ev.nsimul : ℝ)) = false := by rw [h2]; norm_num [lineEnv, sqEnv, Fl.le]
  have e4 : ¬ ((2 : ℝ) ≤ lineEnv.tolGrad) := by norm_num [lineEnv, sqEnv]
  unfold beforeStep
  rw [e1, e2, o1]
  simp only [Bool.false_eq_true, if_false]
  rw [if_neg (by
    rintro (h | h | h)
    · exact e4 h.1
    · simp only [MSt.measure, h3] at h; norm_num at h
    · simp only [MSt.measure, h4] at h; norm_num at h)]

theorem half_pass {s0 : MSt ℝ (List (List ℝ))} (hI : Inv lineEnv [] s0) (h1 : s0.niter = 0) (h2 : s0.ev.nsimul = 2) (h3 : s0.delta = 1) (h4 : s0.pred = 0)
    (h5 : s0.rejected = false) (h6 : s0.ev.infoF = .fin 2) (h7 : s0.sigma = 1) (h8 : s0.m = 1) (h9 : s0.ev.ceX = [])
    (h10 : s0.ev.fX = [.fin 2, .fin 0]) (h11 : s0.infoCe = []) (h12 : s0.ceplus = []) {o : Orc ℝ (List (List ℝ))}
    (o1 : o.k1 = ⟨false, 2, 0, 0⟩) (o2 : o.xnew = [1 / 2]) (o3 : o.rpred = 0) (o4 : o.qcost = -(7 / 8)) (o5 : o.tfail = false)
    (hE : ∀ v, beforeStep lineEnv o s0 = .cont v → Enters lineEnv o v) : ∃ t, pass lineEnv o s0 = .cont t := by
  have hr : ∀ sl, lineEnv.resNorm [] sl = some (nrm1 []) := fun _ => rfl
  have hn : nrm1 ([] : List ℝ) = 0 := rfl
  have hsg : sigmab o = 0 := by rw [sigmab, if_pos o3]
  have hpr : ∀ sg, newPred o sg = 7 / 8 := fun sg => by norm_num [newPred, o3, o4]
  have hE := hE _ (half_before h1 h2 h3 h4 o1)
  have hs := pass_sat lineEnv ⟨nrm1_nonneg, descOrder_sorted⟩ o s0 hI
  have key : (∃ t, pass lineEnv o s0 = .cont t) ∨ pass lineEnv o s0 = .crash .index := by
    rw [pass_eq, half_before h1 h2 h3 h4 o1]
    simp only [PassRes.bind]
    unfold stepStage globalise
    simp only [MSt.measure, h5, h6, h11, Bool.false_eq_true, if_false, Fl.val?, hr, PassRes.bind, o5]
    unfold penalty
    rw [hsg]
    simp only [h7]
    rw [if_neg (by norm_num)]
    simp only
    unfold evalTrial
    simp only [o2, h8]
    rw [line_eval _ _ _ (by norm_num)]
    simp only [h9, h10]
    rw [if_neg (by simp [Status.success])]
    simp only [finVals, List.flatten_nil, List.filterMap_nil, List.any_nil, Bool.false_eq_true, if_false]
    refine decideStep_goes (f := 1) (c := 0) rfl hE ?_ ?_ (by rw [hpr]; norm_num) ?_
    · simp [setOrAppend]
    · rw [← hn]
      simp only [h12, hr]
    · simp only [hpr, hn]
      norm_num
  rcases key with h | h
  · exact h
  · rw [h] at hs
    rcases hs with hs | hs | hs <;> cases hs

end Ex

/-- One pass with the functions of the code meets the hypotheses of `C115_code`, with the matrix that the code starts from. -/
example : ∃ s0 t o, Starts Ex.lineEnv [1] 1 1 [] s0 ∧ CodeLagrange Ex.lineEnv Ex.kern o s0 ∧ mainLoop Ex.lineEnv [o] s0 = .running t ∧
    t.x = [1 / 2] ∧ t.rejected = false ∧ t.pred = 7 / 8 := by
  obtain ⟨s0, H, h1, h2, h3, h4, h5, h6, h7, h8, h9, h10, h11, h12⟩ := Ex.line_start
  obtain ⟨s0', hs', hY, hx⟩ := Ex.line_set
  have e := H.state.symm.trans hs'
  cases e
  obtain ⟨pr, l, hC⟩ := code_exists Ex.lineEnv Ex.kern Ex.halfOrc s0
  have hg : vec 1 s0.infoG.g = ![2] :=
    (C104_exact (m := 0) (p := Ex.lineProb) (k := Ex.kern) H (fun h => absurd h (lt_irrefl _)) Ex.line_computes rfl (fun _ => rfl)
      ⟨rfl, rfl⟩ Ex.kern_qr Ex.realKer_lin le_rfl rfl rfl [] (fun pre o post u e1 => by simp at e1) s0 rfl).1
  have hg0 : s0.infoG.g.getD 0 0 = 2 := congrFun hg 0
  generalize ho : { Ex.halfOrc with propose := pr, lval1 := l, lval2 := l, lval3 := l } = o at hC
  have hvs := Ex.half_before h1 h2 h3 h4 (o := o) (by rw [← ho]; rfl)
  have hP : ∀ v, beforeStep Ex.lineEnv o s0 = .cont v → (∀ y ∈ v.set.Y, 0 < Ex.lineEnv.dist y o.xnew) ∧ o.rpred = 0 ∧
      ∃ M : Matrix (Fin 1) (Fin 1) ℝ, (∀ d, 0 ≤ d ⬝ᵥ M *ᵥ d) ∧
        o.qcost = along 1 v.infoG.g v.x o.xnew + 1 / 2 * ((vec 1 o.xnew - vec 1 v.x) ⬝ᵥ M *ᵥ (vec 1 o.xnew - vec 1 v.x)) := by
    intro v hv
    rw [hvs] at hv
    cases hv
    subst ho
    refine ⟨fun y hy => ?_, rfl, 1, fun d => ?_, ?_⟩
    · change y ∈ s0.set.Y at hy
      rw [hY] at hy
      rcases List.mem_cons.1 hy with rfl | hy
      · norm_num [Env.dist, Ex.lineEnv, Ex.sqEnv, Ex.halfOrc, Ex.nrm1]
      · rcases List.mem_cons.1 hy with rfl | hy
        · norm_num [Env.dist, Ex.lineEnv, Ex.sqEnv, Ex.halfOrc, Ex.nrm1]
        · cases hy
    · rw [one_mulVec]
      exact Finset.sum_nonneg fun i _ => mul_self_nonneg _
    · change -(7 / 8 : ℝ) = along 1 s0.infoG.g s0.x [1 / 2] + 1 / 2 * ((vec 1 [1 / 2] - vec 1 s0.x) ⬝ᵥ (1 : Matrix (Fin 1) (Fin 1) ℝ) *ᵥ (vec 1 [1 / 2] - vec 1 s0.x))
      rw [hx, one_mulVec]
      simp only [along, vec, dotProduct, Finset.univ_unique, Finset.sum_singleton, Pi.sub_apply, Fin.default_eq_zero, Fin.val_zero, hg0, Fin.isValue]
      norm_num [List.getD]
  have hI := H.started.inv
  obtain ⟨t, ht⟩ := Ex.half_pass hI h1 h2 h3 h4 h5 h6 h7 h8 h9 h10 h11 h12 (o := o) (by rw [← ho]; rfl) (by rw [← ho]; rfl)
    (by rw [← ho]; rfl) (by rw [← ho]; rfl) (by rw [← ho]; rfl) (fun v hv => by
      have hT := hC.holds (e := Ex.lineEnv) ⟨rfl, rfl⟩ Ex.kern_qr Ex.realKer_lin le_rfl
      have hD := start_det H
      have := beforeStep_det Ex.lineEnv o s0 hT.proposals hD
      rw [hv] at this
      have hDv : Det Ex.lineEnv v := this
      exact enters_of_lagrange (by norm_num [Ex.lineEnv, Ex.sqEnv]) hDv (hT.values v hv hDv.fixes hDv.len) (hP v hv).1)
  have hm : mainLoop Ex.lineEnv [o] s0 = .running t := by
    simp only [mainLoop]
    rw [ht]
  have key := C115_code (k := Ex.kern) H rfl rfl ⟨rfl, rfl⟩ Ex.kern_qr Ex.realKer_lin le_rfl (by norm_num [Ex.lineEnv, Ex.sqEnv]) rfl rfl
    0 (fun _ => 2) (fun w y q h => by
      obtain ⟨a, b⟩ := Ex.line_computes.obj w y q h
      refine ⟨?_, b⟩
      rw [a]
      show 2 * vec 1 y 0 = (0 : ℝ) + ∑ i : Fin 1, 2 * y.getD i 0
      simp [vec]) [o] (fun pre o' post u e1 e2 => by
      match pre with
      | [] => cases e1; cases e2; exact ⟨hC, hP⟩
      | a :: b => simp at e1) t hm
  have := (key.2.2 [] o [] s0 _ t rfl rfl hvs ht).2.1 (by rw [← ho]; norm_num [Ex.halfOrc])
  refine ⟨s0, t, o, H, hC, hm, ?_, key.1, ?_⟩
  · rw [this.1, ← ho]; rfl
  · rw [this.2.2.1, ← ho]; norm_num [Ex.halfOrc]

#print axioms C115_forward
#print axioms C115_affine
#print axioms C115_total
#print axioms C115_code
#print axioms C115_overestimated

end Sqpdfo
