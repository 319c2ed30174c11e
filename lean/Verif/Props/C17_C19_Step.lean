import Verif.Lemmas.MainBefore
import Verif.Props.C09_C11_Budget

/-! # C17-C19: acceptance of steps, penalty parameter, trust-region radius

A step of a run is a pass `pass e o s = .cont t` from a state `s` reached by the loop. -/

set_option linter.unusedSectionVars false

namespace Sqpdfo
open Spec
variable {K F : Type} [Field K] [LinearOrder K] [IsStrictOrderedRing K]

/-- What the loop knows about the memorised merit value. -/
structure Memory (e : Env K F) (s : MSt K F) : Prop where
  inv : Inv e [] s
  old : s.rejected = true → Memorised s
  new : s.rejected = false → s.pred ≠ -1 → ∃ q, s.ev.infoF = .fin q ∧ ClipF q s.fx

theorem clipF_fx (e : Env K F) (s : MSt K F) (hI : Inv e [] s) : ClipF s.fx s.fx := by
  obtain ⟨i, y, f, -, -, b3, -, b5⟩ := hI.link 0 (by have := hI.lo; omega) (by simp)
  obtain ⟨-, -, q, r, -, -, -, c4, c5⟩ := hI.hist _ _ b5
  rw [hI.f0] at b3
  simp only [Option.some.injEq] at b3
  simp only [Fl.fin.injEq] at c4
  subst b3 c4
  rcases le_or_gt q (10 ^ 25) with hq | hq
  · exact ⟨fun _ => rfl, fun h => by rw [c5.1 hq] at h; exact absurd hq (not_le.2 h)⟩
  · rw [c5.2 hq]; exact ⟨fun _ => rfl, fun h => absurd h (lt_irrefl _)⟩

/-- The set is improved before the step (`sqpdfo_main.py` L281-L285). -/
def Improves (e : Env K F) (o : Orc K F) (s : MSt K F) : Prop :=
  (o.k1.glagn ≤ e.tolGrad ∧ o.k1.feasn ≤ e.tolFeas ∧ o.k1.compl ≤ e.tolBnds) ∨
    s.delta < 1 / 10 ^ 10 ∨ s.pred = -1

/-- One step, summed up.  `f`, `c`: recorded objective value and constraint residual of the trial
point. -/
theorem pass_step (e : Env K F) (he : e.Ok) (o : Orc K F) (s t : MSt K F) (hM : Memory e s)
    (h : pass e o s = .cont t) :
    ∃ (v u w : MSt K F) (f c : K), Inv e [] v ∧
      (¬ Improves e o s ∧ v.delta = s.delta ∧ v.ixbest = s.ixbest ∧ v.fx = s.fx ∧ v.x = s.x ∧ v.set = s.set ∧
        v.infoCe = s.infoCe ∧ v.sl = s.sl ∨ Improves e o s ∧ v.ev.infoF = .fin v.fx) ∧
      1 / 10 ^ 10 ≤ v.delta ∧ v.rejected = s.rejected ∧ v.sigma = s.sigma ∧ v.sl = s.sl ∧
      v.ceplus = s.ceplus ∧
      (v.rejected = false → ∃ q, v.ev.infoF = .fin q ∧ ClipF q v.fx) ∧
      Before e o v u ∧ Memorised u ∧ w.x = v.x ∧ w.sl = v.sl ∧
      StepFrame { u with pred := newPred o u.sigma } t ∧ u.ev.fX[u.m]? = some (.fin f) ∧
      e.resNorm u.ceplus o.slplus = some c ∧
      (t.pred = -1 ∧ Stays u t ∧ t.set = u.set ∧ t.delta = u.delta ∧ t.rejected = u.rejected ∨
        0 < t.pred ∧ f + u.sigma * c ≤ u.merit0 - 1 / 10 ^ 4 * t.pred ∧ Succeeds u t f ∨
        0 < t.pred ∧ u.merit0 - 1 / 10 ^ 4 * t.pred < f + u.sigma * c ∧ Used u t ∨
        0 < t.pred ∧ Reduced (stepNorm e o w) u t) := by
  obtain ⟨v, u, w, a1, a2, a3, a4, a5, a6, a12, a13, -, a7, a8, a9, a10, a11⟩ :=
    pass_before e he o s t hM.inv h
  obtain ⟨b1, f, c, b2, b3, b4⟩ := decideStep_outcome e o _ u t a8.inv a11
  have hold : v.rejected = true → Memorised v := by
    intro hr
    have := hM.old (a3 ▸ hr)
    unfold Memorised at *
    rw [a6, a4, a2, a5]; exact this
  refine ⟨v, u, w, f, c, a1, ?_, ?_, a3, a2, a12, a13, ?_, a8, a8.merit hold, a9, a10, b1, b2, b3, b4⟩
  · rcases a7 with ⟨d0, d1, d2, c1, c2, c3, c4, c5, -, -, c8, c9, -⟩ | ⟨c0, c1, -⟩
    · exact Or.inl ⟨fun hi => hi.elim d0 (fun hi => hi.elim (not_lt.2 d2) d1), c4, c3, c2, c1, c5, c8, c9⟩
    · exact Or.inr ⟨c0, c1⟩
  · rcases a7 with ⟨-, -, c0, -, -, -, c4, -⟩ | ⟨-, -, c1, -⟩
    · rw [c4]; exact c0
    · exact c1
  · intro hr
    rcases a7 with ⟨-, c0, -, -, c2, -, -, -, -, c7, -⟩ | ⟨-, c1, -⟩
    · rw [c7, c2]; exact hM.new (a3 ▸ hr) c0
    · exact ⟨_, c1, clipF_fx e v a1⟩

theorem Memory.pass {e : Env K F} (he : e.Ok) {o : Orc K F} {s t : MSt K F} (hM : Memory e s)
    (h : pass e o s = .cont t) : Memory e t := by
  have hI : Inv e [] t := by
    have := pass_sat e he o s hM.inv; rw [h] at this; exact this.1
  obtain ⟨v, u, w, f, c, -, -, -, -, -, -, -, -, b, m, -, -, fr, hf, -, out⟩ := pass_step e he o s t hM h
  refine ⟨hI, fun _ => ?_, fun hr hp => ?_⟩
  · unfold Memorised at *
    rw [fr.merit0, fr.f0, fr.sigma, fr.ce0n]; exact m
  · obtain ⟨q, r, i1, i2, i3⟩ := b.info
    rw [hf] at i2
    simp only [Option.some.injEq, Fl.fin.injEq] at i2
    subst i2
    rcases out with ⟨o1, -⟩ | ⟨-, -, o2⟩ | ⟨-, -, o2⟩ | ⟨-, o2⟩
    · exact absurd o1 hp
    · exact ⟨q, by rw [o2.2.2.2 hr]; exact i1, by rw [o2.2.1]; exact i3⟩
    · rw [o2.2.2.1] at hr; cases hr
    · rw [o2.2.2.2.1] at hr; cases hr

/-- The state between two passes. -/
theorem Starts.memory {e : Env K F} {x0 : List K} {fuel : ℕ} {Δ : K} {sl : List K}
    {s0 : MSt K F} (H : Starts e x0 fuel Δ sl s0) (os : List (Orc K F)) (s : MSt K F)
    (h : mainLoop e os s0 = .running s) : Memory e s := by
  have h0 : Memory e s0 := by
    have hI := H.started.inv
    have hs := H.state
    unfold startState at hs
    split at hs
    · unfold mainInit at hs
      split at hs
      · split at hs
        · cases hs
        · simp only [Option.some.injEq] at hs
          subst hs
          exact ⟨hI, fun h => (by cases h), fun _ _ => ⟨_, rfl, clipF_fx e _ hI⟩⟩
      · cases hs
    · cases hs
  have key := mainLoop_induct e (Memory e) (fun _ => True) (fun _ => True)
    (fun o s hM => by
      cases hp : Sqpdfo.pass e o s with
      | cont t => exact hM.pass H.ok hp
      | ret t => trivial
      | crash c => trivial) os s0 h0
  rw [h] at key
  exact key

/-! ### C17 -/

theorem resNorm_residual {e : Env K F} {ce sl : List K} {c : K} (h : e.resNorm ce sl = some c) :
    ∃ r, Residual e.ns ce sl r ∧ c = e.nrm r := by
  unfold Env.resNorm resid at h
  by_cases h0 : e.ns = 0
  · rw [if_pos h0] at h
    simp only [Option.map_some, Option.some.injEq] at h
    refine ⟨ce, ⟨rfl, fun hp => by omega, fun _ _ => rfl, fun i c s hc _ => ?_⟩, h.symm⟩
    rw [h0, List.getElem?_eq_none_iff.2 (by omega)] at hc
    cases hc
  rw [if_neg h0] at h
  split at h
  · cases h
  rename_i hs
  rw [not_or, not_lt, not_not] at hs
  simp only [Option.map_some, Option.some.injEq] at h
  refine ⟨_, ⟨?_, fun _ => ⟨hs.2, hs.1⟩, fun i hi => ?_, fun i c s hc hsl => ?_⟩, h.symm⟩
  · simp only [List.length_zipWith, List.length_append, List.length_replicate, List.length_map]
    omega
  · rw [List.getElem?_zipWith, List.getElem?_append_left (by simp; omega),
      List.getElem?_replicate, if_pos (by omega), List.getElem?_eq_getElem (by omega)]
    simp
  · rw [List.getElem?_zipWith, hc, List.getElem?_append_right (by simp)]
    simp [hsl]

/-- The residual of given values and slacks is unique. -/
theorem Residual.unique {ns : ℕ} {ce sl r r' : List K} (h : Residual ns ce sl r)
    (h' : Residual ns ce sl r') : r = r' := by
  apply List.ext_getElem?
  intro i
  by_cases hi : i < ce.length
  swap
  · rw [List.getElem?_eq_none_iff.2 (by rw [h.length]; omega),
      List.getElem?_eq_none_iff.2 (by rw [h'.length]; omega)]
  by_cases hn : i + ns < ce.length
  · rw [h.equations i hn, h'.equations i hn]
  have hpos : 0 < ns := by omega
  obtain ⟨s1, s2⟩ := h.shape hpos
  obtain ⟨j, rfl⟩ : ∃ j, i = ce.length - ns + j := ⟨i - (ce.length - ns), by omega⟩
  have hj : j < sl.length := by omega
  rw [h.slacks j _ _ (List.getElem?_eq_getElem hi) (List.getElem?_eq_getElem hj),
    h'.slacks j _ _ (List.getElem?_eq_getElem hi) (List.getElem?_eq_getElem hj)]

/-- C17, full statement: *a trial point becomes the iterate only if the merit function at it is
smaller than at the current iterate by at least `1e-4` times a positive predicted reduction*; false
(`C17_merit_increases`).  Proved: the decrease is with respect to the *memorised* values `f0`, `ce0n`
with the current penalty parameter.  The merit value of the trial point is `f + sigma ‖r‖` with the
recorded value `f` and the residual `r` of its recorded constraint values (in the code:
`ceplus`, which is not set as long as all recorded constraint values are zero) and the trial slacks.
After a step that was not rejected, `f0` and `ce0n` belong to the
iterate `s.x` from which the step is made (`f0` is its value, which is recorded cut at `1e25`, `ce0n`
the norm of its residual), or,
if the set is improved before the step, `f0` is the recorded value of an evaluated point; after a
rejected step they are kept.  Status 8 does not
occur: `C11_statuses`. -/
theorem C17_sufficient_decrease_partial {e : Env K F} {x0 : List K} {fuel : ℕ} {Δ : K}
    {sl : List K} {s0 : MSt K F} (H : Starts e x0 fuel Δ sl s0) (os : List (Orc K F))
    (s : MSt K F) (h : mainLoop e os s0 = .running s) (o : Orc K F) (t : MSt K F)
    (ht : pass e o s = .cont t) (hacc : t.ixbest = t.m) :
    ∃ (f : K) (ce r : List K), t.ev.X[t.ixbest]? = some o.xnew ∧
      t.ev.fX[t.ixbest]? = some (.fin f) ∧ t.fx = f ∧
      (t.ev.ceX[t.ixbest]? = some (ce.map Fl.fin) ∨
        ce = s.ceplus ∧ ∀ col ∈ t.ev.ceX, ∀ q, Fl.fin q ∈ col → q = 0) ∧
      Residual e.ns ce o.slplus r ∧
      0 < t.pred ∧ f + t.sigma * e.nrm r ≤ t.f0 + t.sigma * t.ce0n - 1 / 10 ^ 4 * t.pred ∧
      f + t.sigma * e.nrm r < t.f0 + t.sigma * t.ce0n ∧
      (s.rejected = false → ¬ Improves e o s → s.ixbest < t.m ∧
        t.ev.fX[s.ixbest]? = some (.fin s.fx) ∧ ClipF t.f0 s.fx ∧
        ∃ r0, Residual e.ns s.infoCe s.sl r0 ∧ t.ce0n = e.nrm r0) ∧
      (s.rejected = false → Improves e o s → ∃ i : ℕ, i < t.m ∧
        t.ev.fX[i]? = some (.fin t.f0)) := by
  have hM := H.memory os s h
  obtain ⟨v, u, w, f, c, vi, vc, -, vr, -, vsl, vcp, vf, b, m, -, -, fr, hf, hc, out⟩ :=
    pass_step e H.ok o s t hM ht
  have htI : Inv e [] t := (hM.pass H.ok ht).inv
  have hm : t.m = u.m := fr.m
  have hmem : t.f0 + t.sigma * t.ce0n = u.merit0 := by
    unfold Memorised at m; rw [m, fr.f0, fr.sigma, fr.ce0n]
  have hix : v.ixbest < v.ev.fX.length := by
    obtain ⟨i, y, g, b1, -, -, -, b5⟩ := vi.link 0 (by have := vi.lo; omega) (by simp)
    rw [vi.ind0] at b1
    simp only [Option.some.injEq] at b1
    rw [b1]; exact (List.getElem?_eq_some_iff.1 b5).1
  rw [vi.fXlen] at hix
  obtain ⟨r, hr1, hr2⟩ := resNorm_residual hc
  subst hr2
  have hne : ¬ Stays u t := by
    intro hst
    have h1 : v.ixbest = v.m + 1 := by
      rw [← b.ixbest, ← hst.2.2, hacc, hm, b.m]
    omega
  have hlt : v.ixbest < t.m := by rw [hm, b.m]; exact hix
  have hval : t.ev.fX[v.ixbest]? = some (.fin v.fx) := by
    obtain ⟨i, y, g, b1, -, b3, -, b5⟩ := b.inv.link 0 (by have := b.inv.lo; omega) (by simp)
    rw [b.inv.ind0] at b1
    rw [b.inv.f0] at b3
    simp only [Option.some.injEq] at b1 b3
    rw [← b.fx, ← b.ixbest, b1, b3, fr.fX]; exact b5
  rcases out with ⟨-, o1, -⟩ | ⟨o1, o2, o3⟩ | ⟨-, -, o1, -⟩ | ⟨-, o1, -⟩
  · exact absurd o1 hne
  · refine ⟨f, u.ceplus, r, ?_, ?_, o3.2.1, ?_, hr1, o1, ?_, ?_, fun hr hn => ?_,
      fun hr hn => ?_⟩
    · rw [hacc, hm, fr.X]; exact b.X
    · rw [hacc, hm, fr.fX]; exact hf
    · rcases b.plus with hp | ⟨hp1, hp2⟩
      · left; rw [hacc, hm, fr.ceX]; exact hp
      · right; exact ⟨hp1.trans vcp, by rw [fr.ceX]; exact hp2⟩
    · rw [hmem, fr.sigma]; exact o2
    · rw [hmem, fr.sigma]
      have : 0 < 1 / 10 ^ 4 * t.pred := by positivity
      show f + u.sigma * e.nrm r < u.merit0
      linarith
    · obtain ⟨q, q1, q2⟩ := vf (vr.trans hr)
      obtain ⟨c', g1, g2, g3⟩ := b.fresh (vr.trans hr)
      rw [q1] at g1
      simp only [Fl.fin.injEq] at g1
      rcases vc with ⟨-, -, v2, v3, -, -, v6, v7⟩ | ⟨v1, -⟩
      · refine ⟨v2 ▸ hlt, by rw [← v2, ← v3]; exact hval, ?_, ?_⟩
        · rw [fr.f0, ← v3]; show ClipF u.f0 v.fx; rw [← g1]; exact q2
        · obtain ⟨r0, k1, k2⟩ := resNorm_residual g2
          refine ⟨r0, by rw [← v6, ← v7]; exact k1, ?_⟩
          rw [fr.ce0n]; show u.ce0n = _; rw [g3, k2]
      · exact absurd v1 hn
    · obtain ⟨c', g1, -, -⟩ := b.fresh (vr.trans hr)
      refine ⟨v.ixbest, hlt, ?_⟩
      rw [hval, fr.f0]
      show _ = some (Fl.fin u.f0)
      rcases vc with ⟨v1, -, v2, v3, -, -, v6, v7⟩ | ⟨-, v1⟩
      · exact absurd hn v1
      · rw [v1] at g1; rw [g1]
  · exact absurd o1 hne
  · exact absurd o1 hne

/-- C17, after a rejected step the reference values are kept: the next pass, with or without an improvement of the set, compares with the
same objective value and the same constraint norm (the penalty parameter may change). -/
theorem C17_reference_kept {e : Env K F} {x0 : List K} {fuel : ℕ} {Δ : K}
    {sl : List K} {s0 : MSt K F} (H : Starts e x0 fuel Δ sl s0) (os : List (Orc K F))
    (s : MSt K F) (h : mainLoop e os s0 = .running s) (o : Orc K F) (t : MSt K F)
    (ht : pass e o s = .cont t) (hr : s.rejected = true) : t.f0 = s.f0 ∧ t.ce0n = s.ce0n := by
  obtain ⟨v, u, w, -, -, vr, vf, vc, -, -, -, -, -, b, -, -, hd⟩ := pass_before e H.ok o s t (H.memory os s h).inv ht
  obtain ⟨fr, -⟩ := decideStep_outcome e o _ u t b.inv hd
  obtain ⟨k1, k2⟩ := b.kept (vr.trans hr)
  exact ⟨by rw [fr.f0, k1, vf], by rw [fr.ce0n, k2, vc]⟩

/-! ### C18 -/

/-- **C18.** The penalty parameter is at least 1, no pass decreases it, and whenever a trial point
was evaluated in a pass with positive predicted reduction `rpred` of the constraint norm, the
predicted reduction of the merit function (`pred`, unless it is replaced by the code -1 for
"none") is at least `0.3 sigma rpred`. -/
theorem C18_penalty {e : Env K F} {x0 : List K} {fuel : ℕ} {Δ : K}
    {sl : List K} {s0 : MSt K F} (H : Starts e x0 fuel Δ sl s0) (os : List (Orc K F))
    (s : MSt K F) (h : mainLoop e os s0 = .running s) (o : Orc K F) (t : MSt K F)
    (ht : pass e o s = .cont t) :
    1 ≤ s.sigma ∧ s.sigma ≤ t.sigma ∧
      (0 < o.rpred → 3 / 10 * (t.sigma * o.rpred) ≤ - o.qcost + t.sigma * o.rpred ∧
        t.pred = - o.qcost + t.sigma * o.rpred) := by
  have hM := H.memory os s h
  obtain ⟨v, u, w, f, c, vi, -, -, -, vs, -, -, -, b, -, -, -, fr, -, -, -⟩ :=
    pass_step e H.ok o s t hM ht
  have hs : t.sigma = u.sigma := fr.sigma
  refine ⟨hM.inv.sigma, by rw [hs, ← vs]; exact b.sigma, fun hr => ?_⟩
  have hd := b.dominate hr
  have h1 := b.inv.sigma
  rw [hs]
  have hpos : 0 < u.sigma * o.rpred := mul_pos (by linarith) hr
  refine ⟨by linarith, ?_⟩
  have hp : t.pred = newPred o u.sigma := fr.pred
  rw [hp]
  unfold newPred
  simp only
  rw [if_neg (not_lt.2 hr.le), if_neg (by linarith), if_neg (by linarith)]

/-- The penalty parameter along the whole run. -/
theorem C18_monotone {e : Env K F} {x0 : List K} {fuel : ℕ} {Δ : K}
    {sl : List K} {s0 : MSt K F} (H : Starts e x0 fuel Δ sl s0) (os os' : List (Orc K F))
    (s t : MSt K F) (h : mainLoop e os s0 = .running s)
    (h' : mainLoop e (os ++ os') s0 = .running t) : s.sigma ≤ t.sigma := by
  have hcat : ∀ (l l' : List (Orc K F)) (a b : MSt K F), mainLoop e l a = .running b →
      mainLoop e (l ++ l') a = mainLoop e l' b := by
    intro l
    induction l with
    | nil => intro l' a b hl; simp only [mainLoop, MainRes.running.injEq] at hl; rw [hl]; rfl
    | cons p l ih =>
      intro l' a b hl
      simp only [List.cons_append, mainLoop] at hl ⊢
      cases hp : pass e p a with
      | cont v => rw [hp] at hl; exact ih l' v b hl
      | ret v => rw [hp] at hl; cases hl
      | crash c => rw [hp] at hl; cases hl
  rw [hcat os os' s0 s h] at h'
  have key := mainLoop_induct e (fun u => Inv e [] u ∧ s.sigma ≤ u.sigma) (fun _ => True)
    (fun _ => True) (fun o u hu => by
      have hp := pass_sat e H.ok o u hu.1
      cases hq : Sqpdfo.pass e o u with
      | cont v => rw [hq] at hp; exact ⟨hp.1, le_trans hu.2 hp.2.1.sigma⟩
      | ret v => trivial
      | crash c => trivial) os' s ⟨(H.memory os s h).inv, le_refl _⟩
  rw [h'] at key
  exact key.2

/-! ### C19 -/

/-- C19, full statement: *the radius is positive; after a rejected step that does not change the
interpolation set the new radius is at most half of the old one and at least `0.01 min(radius, step
norm)`; after a successful step it is not smaller than before*.  The last part is false for
radii above `1e5` (`C19_success_shrinks`).  `d` is the radius used for the step: the one
before the pass or, after an improvement of the set, the new one.  Proved: positivity, the two
bounds, and that a successful step gives at least `min(d, 1e5)`. -/
theorem C19_radius_partial {e : Env K F} {x0 : List K} {fuel : ℕ} {Δ : K}
    {sl : List K} {s0 : MSt K F} (H : Starts e x0 fuel Δ sl s0) (os : List (Orc K F))
    (s : MSt K F) (h : mainLoop e os s0 = .running s) (o : Orc K F) (t : MSt K F)
    (ht : pass e o s = .cont t) :
    0 < s.delta ∧ 0 < t.delta ∧ ∃ (d : K) (x sl' : List K), 1 / 10 ^ 10 ≤ d ∧
      (t.pred = -1 ∧ t.ixbest < t.m ∧ t.m ∉ t.set.ind ∧ t.delta = d ∨
        t.ixbest = t.m ∧ min d (10 ^ 5) ≤ t.delta ∨
        t.ixbest < t.m ∧ t.m ∈ t.set.ind ∧ (t.delta = d ∨ t.delta = 1 / 2 * d) ∨
        t.ixbest < t.m ∧ t.m ∉ t.set.ind ∧ t.x = x ∧ ∃ norms, norms =
            (if e.ns > 0 then e.nrm (List.zipWith (· - ·) o.xnew x ++
              List.zipWith (· - ·) o.slplus sl') else e.nrm (List.zipWith (· - ·) o.xnew x)) ∧
          1 / 100 * min d norms ≤ t.delta ∧ t.delta ≤ 1 / 2 * d) := by
  have hM := H.memory os s h
  have htI : Inv e [] t := (hM.pass H.ok ht).inv
  obtain ⟨v, u, w, f, c, vi, -, vd, -, vs, -, -, -, b, -, wx, -, fr, -, -, out⟩ :=
    pass_step e H.ok o s t hM ht
  have hm : t.m = v.m + 1 := fr.m.trans b.m
  have hlt : ∀ i ∈ v.set.ind, i < v.m + 1 := by
    intro i hi
    obtain ⟨j, hj, rfl⟩ := List.mem_iff_getElem.1 hi
    obtain ⟨i', y, g, b1, -, -, -, b5⟩ := vi.link j (by rw [← vi.indlen]; exact hj) (by simp)
    rw [List.getElem?_eq_getElem hj] at b1
    simp only [Option.some.injEq] at b1
    rw [b1, ← vi.fXlen]; exact (List.getElem?_eq_some_iff.1 b5).1
  have hix : v.ixbest < v.m + 1 := hlt _ (List.mem_of_getElem? vi.ind0)
  have hnot : t.m ∉ v.set.ind := fun hi => by have := hlt _ hi; omega
  refine ⟨hM.inv.delta, htI.delta, v.delta, v.x, w.sl, vd, ?_⟩
  rcases out with ⟨o1, o2, o3, o4, -⟩ | ⟨-, -, o3⟩ | ⟨-, -, o1, o2, -, o4⟩ |
    ⟨-, o1, o2, -, -, k, k1, k2, k3⟩
  · refine Or.inl ⟨o1, ?_, ?_, by rw [o4, b.delta]⟩
    · rw [o2.2.2, b.ixbest, hm]; exact hix
    · rw [o3, b.set]; exact hnot
  · refine Or.inr (Or.inl ⟨by rw [o3.1, b.m, hm], ?_⟩)
    rw [← b.delta]; exact o3.2.2.1
  · refine Or.inr (Or.inr (Or.inl ⟨?_, ?_, by rw [← b.delta]; exact o4⟩))
    · rw [o1.2.2, b.ixbest, hm]; exact hix
    · rw [hm, ← b.m]; exact o2
  · refine Or.inr (Or.inr (Or.inr ⟨?_, ?_, by rw [o1.1, b.x], stepNorm e o w, ?_, ?_, ?_⟩))
    · rw [o1.2.2, b.ixbest, hm]; exact hix
    · rw [o2, b.set]; exact hnot
    · unfold stepNorm; rw [wx]
    · rw [k3, b.delta]
      have hn : 0 ≤ stepNorm e o w := by
        unfold stepNorm; split <;> exact H.ok.nrm_nonneg _
      have : 0 ≤ min v.delta (stepNorm e o w) := le_min vi.delta.le hn
      exact mul_le_mul_of_nonneg_right k1 this
    · rw [k3, b.delta]
      have h1 : min v.delta (stepNorm e o w) ≤ v.delta := min_le_left _ _
      have h2 := vi.delta
      calc k * min v.delta (stepNorm e o w) ≤ k * v.delta :=
            mul_le_mul_of_nonneg_left h1 (by linarith)
        _ ≤ 1 / 2 * v.delta := mul_le_mul_of_nonneg_right k2 h2.le

/-! ### Counterexamples and concrete cases -/

open Ex

theorem Ex.look_running (e : Env ℚ Unit) (x0 : List ℚ) (os : List (Orc ℚ Unit))
    (o : Orc ℚ Unit) (p : MSt ℚ Unit → MSt ℚ Unit → Bool)
    (h : look e x0 os false (fun _ => false) (fun s => match pass e o s with
      | .cont t => p s t
      | _ => false) (fun _ => false) = true) :
    ∃ s0, start e x0 = some s0 ∧ ∃ s, mainLoop e os s0 = .running s ∧
      ∃ t, pass e o s = .cont t ∧ p s t = true := by
  unfold look at h
  split at h
  · cases h
  · rename_i s0 hs
    refine ⟨s0, hs, ?_⟩
    cases hm : mainLoop e os s0 with
    | done t => rw [hm] at h; cases h
    | crash c => rw [hm] at h; cases h
    | running s =>
      rw [hm] at h
      simp only at h
      refine ⟨s, rfl, ?_⟩
      cases hp : pass e o s with
      | ret t => rw [hp] at h; cases h
      | crash c => rw [hp] at h; cases h
      | cont t => rw [hp] at h; exact ⟨t, rfl, h⟩

/-- One variable, quadratic models, objective `-x`. -/
def Ex.envQ : Env ℚ Unit := { env down (.fin 10) (.fin 100) with finalDeg := .quadratic }

theorem Ex.envQ_starts {s : MSt ℚ Unit} (h : start envQ [0] = some s) :
    Starts envQ [0] 1 1 [] s :=
  ⟨⟨nrm1_nonneg, descOrder_sorted⟩, ⟨fun _ => rfl, fun _ h => by cases h⟩, rfl, one_pos, h⟩

/-- Kernel results for a pass that improves the set (points `±1e-5`) and then tries `-2`. -/
def Ex.improve2 : Orc ℚ Unit :=
  { orc [-2] 1 with
    k1 := ⟨false, 0, 0, 0⟩
    propose := fun _ _ j => if j = 2 then ([1 / 10 ^ 5], 2) else ([-1 / 10 ^ 5], 2) }

/-- Negation of C17 with respect to the current iterate (no constraints, so the merit function is
the objective `-x`): the first step is rejected at `-2`; in the second pass the set is improved,
the point `1e-5` becomes the iterate, and the step is rejected again; in the third pass the
trial point `5e-6`, worse than the iterate, is compared with the value memorised in the
first pass and accepted. -/
theorem C17_merit_increases :
    ∃ s0, Starts envQ [0] 1 1 [] s0 ∧
      ∃ s, mainLoop envQ [orc [-2] 1, improve2] s0 = .running s ∧
        ∃ t, pass envQ (orc [5 / 10 ^ 6] (5 / 10 ^ 6)) s = .cont t ∧
          t.ixbest = t.m ∧ s.fx = -1 / 10 ^ 5 ∧ t.fx = -5 / 10 ^ 6 ∧ s.fx < t.fx ∧
          t.sigma = s.sigma := by
  obtain ⟨s0, h0, s, hs, t, ht, h⟩ := look_running envQ [0]
    [orc [-2] 1, improve2] (orc [5 / 10 ^ 6] (5 / 10 ^ 6))
    (fun s t => decide (t.ixbest = t.m ∧ s.fx = -1 / 10 ^ 5 ∧ t.fx = -5 / 10 ^ 6 ∧ s.fx < t.fx ∧
      t.sigma = s.sigma)) (by decide +kernel)
  exact ⟨s0, Ex.envQ_starts h0, s, hs, t, ht, by simpa using h⟩

/-- Negation of the last part of C19: 17 successful steps to the boundary double the radius
each time; the 18th, even better, sets it to `1e5 < 2 ^ 17`. -/
theorem C19_success_shrinks :
    ∃ s0, Starts (env down (.fin 100) (.fin 100)) [0] 1 1 [] s0 ∧
      ∃ s, mainLoop (env down (.fin 100) (.fin 100)) ((List.range 17).map fun k =>
          { orc [2 * (k : ℚ) + 2] 4 with active := true }) s0 = .running s ∧
        ∃ t, pass (env down (.fin 100) (.fin 100)) (orc [40] 2) s = .cont t ∧
          t.ixbest = t.m ∧ s.delta = 2 ^ 17 ∧ t.delta = 10 ^ 5 := by
  obtain ⟨s0, h0, s, hs, t, ht, h⟩ := look_running (env down (.fin 100) (.fin 100)) [0]
    ((List.range 17).map fun k => { orc [2 * (k : ℚ) + 2] 4 with active := true }) (orc [40] 2)
    (fun s t => decide (t.ixbest = t.m ∧ s.delta = 2 ^ 17 ∧ t.delta = 10 ^ 5)) (by decide +kernel)
  exact ⟨s0, Ex.starts rfl h0, s, hs, t, ht, by simpa using h⟩

/-- C17 after an accepted step: the hypotheses hold, and the value decreases from -1 to -3. -/
example : ∃ s0, Starts (env down (.fin 10) (.fin 100)) [0] 1 1 [] s0 ∧
    ∃ s, mainLoop (env down (.fin 10) (.fin 100)) [orc [1] 1] s0 = .running s ∧
      ∃ t, pass (env down (.fin 10) (.fin 100)) (orc [3] 1) s = .cont t ∧ t.ixbest = t.m ∧
        s.rejected = false ∧ ¬ Improves (env down (.fin 10) (.fin 100)) (orc [3] 1) s ∧
        t.f0 = -1 ∧ t.fx = -3 := by
  obtain ⟨s0, h0, s, hs, t, ht, h⟩ := look_running (env down (.fin 10) (.fin 100)) [0]
    [orc [1] 1] (orc [3] 1)
    (fun s t => decide (t.ixbest = t.m ∧ s.rejected = false ∧
      ¬ (((orc [3] 1).k1.glagn ≤ (env down (.fin 10) (.fin 100)).tolGrad ∧
          (orc [3] 1).k1.feasn ≤ (env down (.fin 10) (.fin 100)).tolFeas ∧
          (orc [3] 1).k1.compl ≤ (env down (.fin 10) (.fin 100)).tolBnds) ∨
        s.delta < 1 / 10 ^ 10 ∨ s.pred = -1) ∧ t.f0 = -1 ∧ t.fx = -3)) (by decide +kernel)
  exact ⟨s0, Ex.starts rfl h0, s, hs, t, ht, by
    simp only [decide_eq_true_eq] at h; exact h⟩

/-- C17 after a rejected step: the reference value 0 is kept, also when the set is improved before the next step. -/
example : ∃ s0, Starts envQ [0] 1 1 [] s0 ∧
    ∃ s, mainLoop envQ [orc [-2] 1] s0 = .running s ∧
      ∃ t, pass envQ improve2 s = .cont t ∧ s.rejected = true ∧ s.f0 = 0 ∧ t.f0 = 0 ∧ t.fx = -1 / 10 ^ 5 := by
  obtain ⟨s0, h0, s, hs, t, ht, h⟩ := look_running envQ [0] [orc [-2] 1] improve2
    (fun s t => decide (s.rejected = true ∧ s.f0 = 0 ∧ t.f0 = 0 ∧ t.fx = -1 / 10 ^ 5)) (by decide +kernel)
  exact ⟨s0, Ex.envQ_starts h0, s, hs, t, ht, of_decide_eq_true h⟩

/-- C18: the penalty parameter is raised from 1 to 10 when the model cost grows by 7 while the
constraint norm is predicted to fall by 1. -/
example : ∃ s0, Starts (env down (.fin 10) (.fin 100)) [0] 1 1 [] s0 ∧
    ∃ s, mainLoop (env down (.fin 10) (.fin 100)) [] s0 = .running s ∧
      ∃ t, pass (env down (.fin 10) (.fin 100)) { orc [3] (-7) with rpred := 1 } s = .cont t ∧
        s.sigma = 1 ∧ t.sigma = 10 ∧ t.pred = 3 := by
  obtain ⟨s0, h0, s, hs, t, ht, h⟩ := look_running (env down (.fin 10) (.fin 100)) [0]
    [] { orc [3] (-7) with rpred := 1 }
    (fun s t => decide (s.sigma = 1 ∧ t.sigma = 10 ∧ t.pred = 3)) (by decide +kernel)
  exact ⟨s0, Ex.starts rfl h0, s, hs, t, ht, by simpa using h⟩

/-- C19: a rejected step reduces the radius. -/
example : ∃ s0, Starts (env down (.fin 10) (.fin 100)) [0] 1 1 [] s0 ∧
    ∃ s, mainLoop (env down (.fin 10) (.fin 100)) [] s0 = .running s ∧
      ∃ t, pass (env down (.fin 10) (.fin 100)) (orc [-1] 1) s = .cont t ∧
        t.ixbest < t.m ∧ t.m ∉ t.set.ind ∧ t.delta < s.delta ∧ s.delta ≤ 100 * t.delta := by
  obtain ⟨s0, h0, s, hs, t, ht, h⟩ := look_running (env down (.fin 10) (.fin 100)) [0]
    [] (orc [-1] 1)
    (fun s t => decide (t.ixbest < t.m ∧ t.m ∉ t.set.ind ∧ t.delta < s.delta ∧
      s.delta ≤ 100 * t.delta)) (by decide +kernel)
  exact ⟨s0, Ex.starts rfl h0, s, hs, t, ht, by simpa using h⟩

#print axioms C17_sufficient_decrease_partial
#print axioms C17_reference_kept
#print axioms C17_merit_increases
#print axioms C18_penalty
#print axioms C18_monotone
#print axioms C19_radius_partial
#print axioms C19_success_shrinks

end Sqpdfo
