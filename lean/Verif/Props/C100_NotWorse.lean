import Verif.Props.C98_C99_Causal
import Verif.Props.C55_C58_C64_Runs
import Verif.Props.C81_Whole

/-! # C100: the returned point is not worse than the start point -/

set_option linter.unusedSectionVars false

namespace Sqpdfo
open Spec
variable {K F : Type} [Field K] [LinearOrder K] [IsStrictOrderedRing K]

theorem accepted_infoCe (e : Env K F) (hme : e.me = 0) (o : Orc K F) (f rho norms : K) (pos : ℕ) (s : MSt K F) :
    (accepted e o f rho norms pos s).Sat (fun t => t.infoCe = s.infoCe) (fun _ => False) (fun _ => True) := by
  unfold accepted
  dsimp only
  rw [if_neg (by rintro ⟨h1, -⟩; omega)]
  split
  · trivial
  split
  · trivial
  · show (if e.me > 0 then s.ceplus else s.infoCe) = s.infoCe
    rw [if_neg (by omega)]

theorem replaceAt_infoCe (e : Env K F) (hme : e.me = 0) (o : Orc K F) (f rho norms : K) (pos : ℕ) (s : MSt K F) :
    (replaceAt e o f rho norms pos s).Sat (fun t => t.infoCe = s.infoCe) (fun _ => False) (fun _ => True) := by
  unfold replaceAt
  rw [if_neg (by rintro ⟨h1, -⟩; omega)]
  dsimp only
  split
  · split
    · trivial
    rename_i set hset
    split
    · trivial
    · show (match set.ceY[0]? with
          | some c => if e.me > 0 then c else s.infoCe
          | none => s.infoCe) = s.infoCe
      split
      · rw [if_neg (by omega)]
      · rfl
  · rfl

theorem reduce_base (e : Env K F) (o : Orc K F) (f norms : K) (s : MSt K F) :
    (reduce e o f norms s).Sat (fun t => t.infoCe = s.infoCe) (fun t => t.fx = s.fx ∧ t.ixbest = s.ixbest)
      (fun _ => True) := by
  unfold reduce
  dsimp only
  split
  · exact ⟨rfl, rfl⟩
  · rfl

theorem rejectStep_base (e : Env K F) (hme : e.me = 0) (o : Orc K F) (f rho norms : K) (s : MSt K F) :
    (rejectStep e o f rho norms s).Sat (fun t => t.infoCe = s.infoCe) (fun t => t.fx = s.fx ∧ t.ixbest = s.ixbest)
      (fun _ => True) := by
  unfold rejectStep
  dsimp only
  split
  · refine PassRes.Sat.bind (Q := fun t => t.infoCe = s.infoCe) ?_ (fun u hu => hu)
    unfold augmentRejected
    dsimp only
    rw [if_neg (by rintro ⟨h1, -⟩; omega)]
    rfl
  · unfold replaceOrReduce
    split
    · dsimp only
      split
      · exact PassRes.Sat.bind (Q := fun t => t.infoCe = s.infoCe)
          ((replaceAt_infoCe e hme o f rho norms _ _).mono (fun _ h => h) (fun _ h => h.elim) (fun _ h => h))
          (fun u hu => hu)
      · split
        · exact PassRes.Sat.bind (Q := fun t => t.infoCe = s.infoCe)
            ((replaceAt_infoCe e hme o f rho norms _ _).mono (fun _ h => h) (fun _ h => h.elim) (fun _ h => h))
            (fun u hu => hu)
        · exact reduce_base e o f norms _
    · exact reduce_base e o f norms _

/-- Without constraints the decision about the trial point does not touch `info.ce`; on return the iterate is unchanged. -/
theorem decideStep_base (e : Env K F) (hme : e.me = 0) (o : Orc K F) (norms : K) (s : MSt K F) :
    (decideStep e o norms s).Sat (fun t => t.infoCe = s.infoCe) (fun t => t.fx = s.fx ∧ t.ixbest = s.ixbest)
      (fun _ => True) := by
  unfold decideStep
  split
  · trivial
  split
  · trivial
  dsimp only
  split
  · rfl
  split
  · split
    · exact ⟨rfl, rfl⟩
    split
    · exact (accepted_infoCe e hme o _ _ norms _ _).mono (fun _ h => h) (fun _ h => h.elim) (fun _ h => h)
    · split
      · exact (accepted_infoCe e hme o _ _ norms _ _).mono (fun _ h => h) (fun _ h => h.elim) (fun _ h => h)
      · exact rejectStep_base e hme o _ _ norms _
  · exact rejectStep_base e hme o _ _ norms _

/-- When a pass returns, the iterate is that before the pass or a better one. -/
theorem pass_ret_best (e : Env K F) (he : e.Ok) (hme : e.me = 0) (o : Orc K F) (s : MSt K F) (hI : Inv e [] s) :
    (pass e o s).Sat (fun _ => True) (fun t => t.fx < s.fx ∨ t.fx = s.fx ∧ t.ixbest = s.ixbest) (fun _ => True) := by
  unfold pass
  split
  · exact Or.inr ⟨rfl, rfl⟩
  split
  · exact Or.inr ⟨rfl, rfl⟩
  split
  · exact Or.inr ⟨rfl, rfl⟩
  dsimp only
  refine PassRes.Sat.bind (Q := fun t => t.fx < s.fx ∨ t.fx = s.fx ∧ t.ixbest = s.ixbest) ?_ ?_
  · split
    · refine (improve_best e he hme o _ ?_).mono (fun _ h => h.1) (fun _ h => h.1) (fun _ h => h)
      exact { hI with link := fun j hj hp => hI.link j hj hp, flag := rfl }
    · exact Or.inr ⟨rfl, rfl⟩
  · intro v hv
    unfold stepStage
    refine PassRes.Sat.bind (Q := fun t => t.fx < s.fx ∨ t.fx = s.fx ∧ t.ixbest = s.ixbest) ?_ ?_
    · unfold globalise
      split
      · exact hv
      split
      · trivial
      split
      · trivial
      · exact hv
    intro g hg
    dsimp only
    split
    · exact hg
    refine PassRes.Sat.bind (Q := fun t => t.fx < s.fx ∨ t.fx = s.fx ∧ t.ixbest = s.ixbest) ?_ ?_
    · refine PassRes.Sat.bind (Q := fun t => t.fx < s.fx ∨ t.fx = s.fx ∧ t.ixbest = s.ixbest) ?_ ?_
      · unfold penalty
        split
        · dsimp only
          split
          · exact hg
          · exact hg
        · exact hg
      · intro p hp
        unfold evalTrial
        dsimp only
        split
        · trivial
        split
        · exact hp
        split
        · split
          · trivial
          split
          · trivial
          · exact hp
        · exact hp
    · intro u hu
      refine (decideStep_base e hme o _ u).mono (fun _ _ => trivial) (fun t ht => ?_) (fun _ h => h)
      rw [ht.1, ht.2]; exact hu

/-- The invariant of an unconstrained run relative to the value `b` of the start point. -/
structure BelowStart (e : Env K F) (b : K) (s : MSt K F) : Prop where
  inv : Inv e [] s
  best : s.fx < b ∨ s.fx = b ∧ s.ixbest = 0
  noCe : NoCe s
  infoCe : s.infoCe = []
  ceplus : s.ceplus = []
  old : s.rejected = true → s.f0 ≤ b ∧ s.ce0n = e.nrm [] ∧ Memorised s
  new : s.rejected = false → s.pred ≠ -1 → ∃ q, s.ev.infoF = .fin q ∧ q ≤ b

theorem BelowStart.le {e : Env K F} {b : K} {s : MSt K F} (h : BelowStart e b s) : s.fx ≤ b :=
  h.best.elim (fun h => h.le) (fun h => h.1.le)

theorem BelowStart.pass {e : Env K F} {x0 : List K} {fuel : ℕ} {Δ : K} {sl : List K} {s0 : MSt K F}
    (H : Starts e x0 fuel Δ sl s0) (hme : e.me = 0) (hns : e.ns = 0) {b : K} (hb : b ≤ 10 ^ 25) {o : Orc K F}
    {s t : MSt K F} (hs : BelowStart e b s) (h : pass e o s = .cont t) : BelowStart e b t := by
  have hI : Inv e [] t := by
    have := pass_sat e H.ok o s hs.inv; rw [h] at this; exact this.1
  have hC : NoCe t := by
    have := pass_noCe H.constr hme hns o s hs.noCe; rw [h] at this; exact this
  obtain ⟨v, u, w, vi, vsig, vrej, vf0, vce, vm, -, vcp, -, vcase, B, -, -, hd⟩ := pass_before e H.ok o s t hs.inv h
  obtain ⟨fr, f, c, hf, hc, out⟩ := decideStep_outcome e o _ u t B.inv hd
  -- after the improvement
  have hv : (v.fx < b ∨ v.fx = b ∧ v.ixbest = 0) ∧ v.infoCe = [] ∧
      (v.rejected = false → ∃ q, v.ev.infoF = .fin q ∧ q ≤ b) := by
    rcases vcase with ⟨-, d1, -, -, c2, c3, -, -, -, c7, c8, -⟩ | ⟨-, c1, -, c4⟩
    · refine ⟨by rw [c2, c3]; exact hs.best, c8.trans hs.infoCe, fun hr => ?_⟩
      rw [c7]; exact hs.new (vrej ▸ hr) d1
    · obtain ⟨k1, k2⟩ := c4.best hme
      have hvb : v.fx < b ∨ v.fx = b ∧ v.ixbest = 0 := by
        rcases k1 with k1 | ⟨k1, k3⟩
        · exact Or.inl (lt_of_lt_of_le k1 hs.le)
        · rw [k1, k3]; exact hs.best
      exact ⟨hvb, k2.trans hs.infoCe, fun _ => ⟨_, c1, hvb.elim (fun h => h.le) (fun h => h.1.le)⟩⟩
  obtain ⟨hv1, hv2, hv3⟩ := hv
  have hcp : u.ceplus = [] := by
    rcases B.plus with hp | ⟨hp, -⟩
    · have : u.ev.ceX = [] := by have h1 := fr.ceX; rw [hC] at h1; exact h1.symm
      rw [this] at hp; simp at hp
    · rw [hp, vcp, hs.ceplus]
  have hu : u.f0 ≤ b ∧ u.ce0n = e.nrm [] ∧ Memorised u := by
    cases hr : v.rejected with
    | true =>
      obtain ⟨k1, k2⟩ := B.kept hr
      obtain ⟨l1, l2, l3⟩ := hs.old (vrej ▸ hr)
      refine ⟨by rw [k1, vf0]; exact l1, by rw [k2, vce]; exact l2, B.merit fun _ => ?_⟩
      unfold Memorised at *
      rw [vm, vf0, vsig, vce]; exact l3
    | false =>
      obtain ⟨c', k1, k2, k3⟩ := B.fresh hr
      obtain ⟨q, q1, q2⟩ := hv3 hr
      rw [q1] at k1
      simp only [Fl.fin.injEq] at k1
      rw [resNorm_some hns, hv2] at k2
      simp only [Option.some.injEq] at k2
      exact ⟨k1 ▸ q2, by rw [k3, ← k2], B.merit fun h1 => by rw [hr] at h1; cases h1⟩
  have hcc : c = e.nrm [] := by
    rw [resNorm_some hns, hcp] at hc
    simpa using hc.symm
  have hce : t.infoCe = [] := by
    have := decideStep_base e hme o (stepNorm e o w) u
    rw [hd] at this
    have h1 : t.infoCe = u.infoCe := this
    rw [h1, B.infoCe, hv2]
  have hmem : Memorised t := by
    have := hu.2.2
    unfold Memorised at *
    rw [fr.merit0, fr.f0, fr.sigma, fr.ce0n]; exact this
  have stay : Stays u t → t.fx < b ∨ t.fx = b ∧ t.ixbest = 0 := by
    rintro ⟨-, k1, k2⟩
    rw [k1, k2, B.fx, B.ixbest]; exact hv1
  have succ : 0 < t.pred → f + u.sigma * c ≤ u.merit0 - 1 / 10 ^ 4 * t.pred → f < b := by
    intro hp hle
    have h1 := hu.2.2
    unfold Memorised at h1
    have h2 : 0 < 1 / 10 ^ 4 * t.pred := by positivity
    rw [h1, hu.2.1, hcc] at hle
    linarith [hu.1]
  refine ⟨hI, ?_, hC, hce, (fr.ceplus.trans hcp), fun _ => ⟨by rw [fr.f0]; exact hu.1,
    by rw [fr.ce0n]; exact hu.2.1, hmem⟩, fun hr hp => ?_⟩
  · rcases out with ⟨-, o1, -⟩ | ⟨o1, o2, o3⟩ | ⟨-, -, o1, -⟩ | ⟨-, o1, -⟩
    · exact stay o1
    · exact Or.inl (by rw [o3.2.1]; exact succ o1 o2)
    · exact stay o1
    · exact stay o1
  · rcases out with ⟨o1, -⟩ | ⟨o1, o2, o3⟩ | ⟨-, -, o2⟩ | ⟨-, o2⟩
    · exact absurd o1 hp
    · obtain ⟨q, r, i1, i2, i3⟩ := B.info
      rw [hf] at i2
      simp only [Option.some.injEq, Fl.fin.injEq] at i2
      subst i2
      have hlt := succ o1 o2
      refine ⟨q, by rw [o3.2.2.2 hr]; exact i1, ?_⟩
      rcases le_or_gt q (10 ^ 25) with hq | hq
      · rw [i3.1 hq] at hlt; exact hlt.le
      · rw [i3.2 hq] at hlt; exact absurd hb (not_le.2 hlt)
    · rw [o2.2.2.1] at hr; cases hr
    · rw [o2.2.2.2.1] at hr; cases hr

/-- C100, full statement: *the point returned by a run is the start point or a better one: without constraints one with a smaller
objective value, with constraints one that is not worse in both the objective value and the violation of the constraints*; the part on
constraints is false (`C100_constrained_false`).  Proved: without constraints (bounds are allowed), at any time and on return the
current point is the start point itself or its recorded value is smaller than that of the start point, whatever the kernels return. -/
theorem C100_unconstrained_partial {e : Env K F} {x0 : List K} {fuel : ℕ} {Δ : K} {sl : List K} {s0 : MSt K F}
    (H : Starts e x0 fuel Δ sl s0) (hme : e.me = 0) (hns : e.ns = 0) (os : List (Orc K F)) (t : MSt K F)
    (h : mainLoop e os s0 = .running t ∨ mainLoop e os s0 = .done t) :
    ∃ b q : K, t.ev.X[0]? = some x0 ∧ t.ev.fX[0]? = some (.fin b) ∧ t.ev.X[t.ixbest]? = some t.x ∧
      t.ev.fX[t.ixbest]? = some (.fin q) ∧ t.fx = q ∧ (q < b ∨ t.x = x0) := by
  have hI0 := H.started.inv
  obtain ⟨hX0, hx0, hi0, hf0, hce0, hcp0, hr0, hinf0⟩ : s0.ev.X[0]? = some x0 ∧ s0.x = x0 ∧ s0.ixbest = 0 ∧
      s0.ev.infoF = .fin s0.fx ∧ (s0.infoCe = [] ∧ NoCe s0) ∧ s0.ceplus = [] ∧ s0.rejected = false ∧ True := by
    have hs := H.state
    unfold startState at hs
    split at hs
    · rename_i D ev hi
      have hX := (C48_done_complete e.U x0 _ _ _ _ _ _ rfl hi).2.1
      have hce := (initLoop_start e H.constr x0 _ _ _ _ _ _ rfl hi).2.1 hme
      unfold mainInit at hs
      split at hs
      · rename_i fY ceY x h1 h2 h3
        split at hs
        · cases hs
        · rw [hce] at h2
          simp only [List.mapM_nil, Option.pure_def, Option.some.injEq] at h2
          subst h2
          simp only [Option.some.injEq] at hs
          subst hs
          have hx : ev.X[0]? = some x0 := by rw [hX]; rfl
          have hxx : x = x0 := by rw [hx] at h3; simpa using h3.symm
          exact ⟨hx, hxx, rfl, rfl, ⟨rfl, hce⟩, rfl, rfl, trivial⟩
      · cases hs
    · cases hs
  -- the value of the start point
  have hv0 : s0.ev.fX[0]? = some (.fin s0.fx) := by
    obtain ⟨i, y, f, b1, -, b3, -, b5⟩ := hI0.link 0 (by have := hI0.lo; omega) (by simp)
    rw [hI0.ind0, hi0] at b1
    rw [hI0.f0] at b3
    simp only [Option.some.injEq] at b1 b3
    rw [b3]; rw [← b1] at b5; exact b5
  have hb : s0.fx ≤ 10 ^ 25 := by
    have := clipF_fx e s0 hI0
    by_contra hc
    exact absurd (this.2 (not_le.1 hc)) (ne_of_gt (not_le.1 hc))
  have h0 : BelowStart e s0.fx s0 := ⟨hI0, Or.inr ⟨rfl, hi0⟩, hce0.2, hce0.1, hcp0,
    (fun h1 => by rw [hr0] at h1; cases h1), fun _ _ => ⟨_, hf0, le_refl _⟩⟩
  have key := mainLoop_induct e (BelowStart e s0.fx) (fun t => t.fx < s0.fx ∨ t.fx = s0.fx ∧ t.ixbest = 0)
    (fun _ => True) (fun o s hs => by
      have h2 := pass_ret_best e H.ok hme o s hs.inv
      cases hp : Sqpdfo.pass e o s with
      | cont t => exact hs.pass H hme hns hb hp
      | ret t =>
        rw [hp] at h2
        rcases h2 with h2 | ⟨h2, h3⟩
        · exact Or.inl (lt_of_lt_of_le h2 hs.le)
        · show t.fx < s0.fx ∨ t.fx = s0.fx ∧ t.ixbest = 0
          rw [h2, h3]; exact hs.best
      | crash c => trivial) os s0 h0
  have hbest : t.fx < s0.fx ∨ t.fx = s0.fx ∧ t.ixbest = 0 := by
    rcases h with h | h
    · rw [h] at key; exact key.best
    · rw [h] at key; exact key
  obtain ⟨-, -, hl, hy, hfy, hi, -⟩ := C14_interpolation_data H os t h
  obtain ⟨i, y, f, b1, b2, b3, b4, b5⟩ := hl 0 (List.getElem?_eq_some_iff.1 hy).1
  rw [b1] at hi; rw [b2] at hy; rw [b3] at hfy
  simp only [Option.some.injEq] at hi hy hfy
  subst hi hy hfy
  obtain ⟨d, hd⟩ := mainLoop_added e os s0 t hI0.hlen h
  have hX : t.ev.X[0]? = some x0 := by
    rw [hd.X, List.getElem?_append_left (List.getElem?_eq_some_iff.1 hX0).1]; exact hX0
  have hF : t.ev.fX[0]? = some (.fin s0.fx) := by
    obtain ⟨l, hl⟩ := hd.fX
    rw [← hl, List.getElem?_append_left (List.getElem?_eq_some_iff.1 hv0).1]; exact hv0
  refine ⟨s0.fx, t.fx, hX, hF, b4, b5, rfl, hbest.imp id fun h1 => ?_⟩
  rw [h1.2, hX] at b4
  simpa using b4.symm

/-- C100 in terms of the objective `obj` of the user (whose calls may fail, but if a number is returned it is the value of `obj`):
without constraints the current point is the start point or has a smaller value; values above `1e25`, which are cut, included. -/
theorem C100_objective_partial {e : Env K F} {x0 : List K} {fuel : ℕ} {Δ : K} {sl : List K} {s0 : MSt K F}
    (H : Starts e x0 fuel Δ sl s0) (hme : e.me = 0) (hns : e.ns = 0) (obj : List K → K)
    (hobj : ∀ w y q, e.U.f w y = .num (.fin q) → q = obj y) (os : List (Orc K F)) (t : MSt K F)
    (h : mainLoop e os s0 = .running t ∨ mainLoop e os s0 = .done t) : obj t.x < obj x0 ∨ t.x = x0 := by
  obtain ⟨b, q, h1, h2, h3, h4, -, h6⟩ := C100_unconstrained_partial H hme hns os t h
  refine h6.imp (fun hlt => ?_) id
  obtain ⟨-, -, -, -, -, -, hr⟩ := C14_interpolation_data H os t h
  obtain ⟨y, w, p, r, a1, -, a3, a4, a5⟩ := hr _ _ h2
  obtain ⟨y', w', p', r', b1, -, b3, b4, b5⟩ := hr _ _ h4
  rw [h1] at a1; rw [h3] at b1
  simp only [Option.some.injEq, Fl.fin.injEq] at a1 b1 a4 b4
  subst a1 b1 a4 b4
  rw [← hobj _ _ _ a3, ← hobj _ _ _ b3]
  rcases le_or_gt p' (10 ^ 25) with hp' | hp'
  · rw [b5.1 hp'] at hlt
    rcases le_or_gt p (10 ^ 25) with hp | hp
    · rw [a5.1 hp] at hlt; exact hlt
    · exact lt_of_le_of_lt hp' hp
  · rw [b5.2 hp'] at hlt
    rcases le_or_gt p (10 ^ 25) with hp | hp
    · rw [a5.1 hp] at hlt; exact absurd hp (not_le.2 hlt)
    · rw [a5.2 hp] at hlt; exact absurd hlt (lt_irrefl _)

/-- C100 for whole calls without constraints (no slack variables left over from an earlier call, see C21): the first evaluated point `y`
is the given start point, if it is not too close to the bounds, otherwise a point near it within the bounds; the returned point is `y`
or has a smaller value. -/
theorem C100_call_partial (k : Kernels K F) (hn : ∀ v, 0 ≤ k.nrm v) (ho : ∀ d, SortedDesc d (k.order d)) (U : User (List K) K)
    (hc : U.c = none) (fuel : ℕ) (os : List (Orc K F)) (a : Args K) (ex : Extra) (g : Globals K) (hw : WellFormed a) (hmi : a.mi = 0)
    (hg : g.nbrSlacks = 0) (obj : List K → K) (hobj : ∀ w y q, U.f w y = .num (.fin q) → q = obj y) (x : List K) (t : MSt K F)
    (h : call k U fuel os a ex g = .done x t) :
    ∃ D y, IsFit (boxes a) D ∧ InsideBy D (boxes a) y ∧
      ((∀ v ∈ boxes a, v.lb + D < v.x0 ∧ v.x0 < v.ub - D) → y = (boxes a).map (·.x0)) ∧
      t.ev.X[0]? = some y ∧ (obj x < obj y ∨ x = y) := by
  have hC : Counts U 0 := ⟨fun _ => rfl, fun c h => by rw [hc] at h; cases h⟩
  obtain ⟨i, e, s0, y, D, hi, he, hst, hfit, ⟨hin, hkeep⟩, -, hm, hx⟩ := (call_main k hn ho U 0 hC fuel os a ex g hw).1 x t h
  obtain ⟨hA, hB, -, -, Δ, ys, -, -, h3⟩ := setup_go U _ _ _ _ _ hw i hi
  obtain ⟨-, -, -, -, -, -, -, -, e2, -, -, e5, -⟩ := envOf_some he
  have hme : e.me = 0 := by rw [e2]; exact ceRows_eq k U 0 hC _ _ _ _ _ _ h3
  have hns : e.ns = 0 := by
    have h1 : e.ns = i.nbrSlacks := by
      unfold envOf at he
      split at he
      · cases he; rfl
      · cases he
    obtain ⟨o, g', lb, ub, Δ', ys', -, -, -, k1, -, -, k2⟩ := setup_checked U k.sqrt k.nrm fuel a g hw hA hB
    rw [k2, k1 hmi] at hi
    unfold setupTail at hi
    split at hi
    · cases hi
    dsimp only at hi
    split at hi
    · cases hi
    · cases hi
    · cases hi
    · cases hi
    · rw [if_neg (by omega)] at hi
      cases hi
      exact h1
  obtain ⟨b, q, c1, -, c3, -⟩ := C100_unconstrained_partial hst hme hns os t (Or.inr hm)
  have hxx : t.x = x := by rw [c3] at hx; simpa using hx
  have := C100_objective_partial hst hme hns obj (by rw [e5]; exact hobj) os t (Or.inr hm)
  rw [hxx] at this
  exact ⟨D, y, hfit, hin, hkeep, c1, this⟩

/-! ### Counterexample and concrete cases -/

open Ex

/-- Objective and constraint for `C100_constrained_false`. -/
def Ex.backF (x : List ℚ) : ℚ := if x = [2] then -10 else if x = [3] then 1 else 0

def Ex.backC (x : List ℚ) : ℚ := if x = [0] then 0 else if x = [2] then 5 else if x = [3] then 49 / 10 else 1

/-- At most two iterations. -/
def Ex.env2 : Env ℚ Unit := { envC backF backC false with miter := .fin 2 }

/-- Negation of C100 with a constraint `c = 0`: the start point 0 satisfies the constraint and has the value 0.  The first step goes to a
point with value -10 and constraint value 5, a decrease of the merit function with penalty parameter 1.  Then the penalty
parameter is raised, and relative to the new merit function the step to a point with value 1 and constraint value 4.9 is a decrease.  The run
ends there with the iteration limit: worse than the start point in both respects.  Each of the steps meets the decrease that its model predicts. -/
theorem C100_constrained_false :
    ∃ s0, Starts env2 [0] 1 1 [] s0 ∧
      ∃ t, mainLoop env2 [orc [2] 10, { orc [3] (-11) with rpred := 1 / 10 }, orc [3] 1] s0 = .done t ∧
        t.ev.flag = Status.stopOnMaxIter ∧ t.x = [3] ∧ t.fx = 1 ∧ t.infoCe = [49 / 10] ∧
        t.ev.X[0]? = some [0] ∧ t.ev.fX[0]? = some (Fl.fin 0) ∧ t.ev.ceX[0]? = some [Fl.fin 0] := by
  obtain ⟨s0, h0, t, ht, h⟩ := look_done env2 [0] [orc [2] 10, { orc [3] (-11) with rpred := 1 / 10 }, orc [3] 1]
    (fun t => decide (t.ev.flag = Status.stopOnMaxIter ∧ t.x = [3] ∧ t.fx = 1 ∧ t.infoCe = [49 / 10] ∧
        t.ev.X[0]? = some [0] ∧ t.ev.fX[0]? = some (Fl.fin 0) ∧ t.ev.ceX[0]? = some [Fl.fin 0])) (by decide +kernel)
  exact ⟨s0, ⟨⟨nrm1_nonneg, descOrder_sorted⟩, ⟨(envC_constr backF backC false).1, (envC_constr backF backC false).2⟩, rfl, one_pos, h0⟩, t, ht, of_decide_eq_true h⟩

/-- Without constraints: objective `-x`; the first trial point is worse than the start point and is rejected, the
second is better. -/
example : ∃ s0, Starts (env down (.fin 10) (.fin 100)) [0] 1 1 [] s0 ∧
    (env down (.fin 10) (.fin 100)).me = 0 ∧ (env down (.fin 10) (.fin 100)).ns = 0 ∧
    (∀ w y q, (env down (.fin 10) (.fin 100)).U.f w y = .num (.fin q) → q = -y.sum) ∧
    ∃ s, mainLoop (env down (.fin 10) (.fin 100)) [orc [-1] 1] s0 = .running s ∧ s.x = [0] ∧
      ∃ t, pass (env down (.fin 10) (.fin 100)) (orc [1 / 2] 1) s = .cont t ∧ t.x = [1 / 2] ∧ t.fx = -1 / 2 := by
  obtain ⟨s0, h0, s, hs, t, ht, h⟩ := look_running (env down (.fin 10) (.fin 100)) [0] [orc [-1] 1] (orc [1 / 2] 1)
    (fun s t => decide (s.x = [0] ∧ t.x = [1 / 2] ∧ t.fx = -1 / 2)) (by decide +kernel)
  have h := of_decide_eq_true h
  exact ⟨s0, Ex.starts rfl h0, rfl, rfl, fun w y q h => by simp only [env, down, FOut.num.injEq, Fl.fin.injEq] at h; exact h.symm,
    s, hs, h.1, t, ht, h.2⟩

/-- A whole call: from 0 to 3, objective `-x`. -/
example : ∃ x t, call wKern down 1 [orc [1] 1, orc [2] 1, orc [3] 1, orc [4] 1] (wArgs wThree) wPlain .fresh = .done x t ∧
    x = [3] ∧ down.c = none ∧ (wArgs wThree).mi = 0 ∧ (Globals.fresh (K := ℚ)).nbrSlacks = 0 ∧ WellFormed (wArgs wThree) ∧
    ∀ w y q, down.f w y = .num (.fin q) → q = -y.sum := by
  have h : wSummary (call wKern down 1 [orc [1] 1, orc [2] 1, orc [3] 1, orc [4] 1] (wArgs wThree) wPlain .fresh) =
    some (5, 3, 5, [3]) := by decide +kernel
  cases hc : call wKern down 1 [orc [1] 1, orc [2] 1, orc [3] 1, orc [4] 1] (wArgs wThree) wPlain .fresh with
  | done x t =>
    rw [hc] at h
    simp only [wSummary, Option.some.injEq, Prod.mk.injEq] at h
    exact ⟨x, t, rfl, h.2.2.2, rfl, rfl, rfl, wArgs_wellFormed _ wThree_typed,
      fun w y q h => by simp only [down, FOut.num.injEq, Fl.fin.injEq] at h; exact h.symm⟩
  | _ => rw [hc] at h; cases h

#print axioms C100_unconstrained_partial
#print axioms C100_objective_partial
#print axioms C100_call_partial
#print axioms C100_constrained_false

end Sqpdfo
