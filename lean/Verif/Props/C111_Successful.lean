import Verif.Props.C100_NotWorse
import Verif.Props.C104_Poised
import Verif.Props.C109_Limits

/-! # C111: the predicted decreases of the steps that are taken -/

set_option linter.unusedSectionVars false

namespace Sqpdfo
open Spec
variable {K F : Type} [Field K] [LinearOrder K] [IsStrictOrderedRing K]

/-- After a pass: the point evaluated last (the trial point) is the iterate. -/
def Spec.Taken (t : MSt K F) : Prop := t.ev.X.length = t.ixbest + 1

instance (t : MSt K F) : Decidable (Taken t) := by unfold Taken; infer_instance

/-- After a pass: the trial point is the iterate, and the step counts as successful. -/
def Spec.Regular (t : MSt K F) : Prop := Taken t ∧ t.rejected = false

instance (t : MSt K F) : Decidable (Regular t) := by unfold Regular; infer_instance

/-- The predicted decreases of the passes of a run after which `p` holds. -/
def Spec.gains (p : MSt K F → Prop) [DecidablePred p] (e : Env K F) : List (Orc K F) → MSt K F → List K
  | [], _ => []
  | o :: os, s =>
    match pass e o s with
    | .cont t => if p t then t.pred :: gains p e os t else gains p e os t
    | _ => []

/-! ### The invariant -/

/-- The invariant of an unconstrained run: the memorised value and that of the iterate are at most `b`. -/
structure Level (e : Env K F) (b : K) (s : MSt K F) : Prop where
  inv : Inv e [] s
  fx : s.fx ≤ b
  noCe : NoCe s
  infoCe : s.infoCe = []
  ceplus : s.ceplus = []
  old : s.rejected = true → s.f0 ≤ b ∧ s.ce0n = e.nrm [] ∧ Memorised s
  new : s.rejected = false → s.pred ≠ -1 → ∃ q, s.ev.infoF = .fin q ∧ q ≤ b

/-- One pass: the level is kept; after a regular step it is lower by a fraction of the predicted decrease. -/
theorem Level.pass {e : Env K F} {x0 : List K} {fuel : ℕ} {Δ : K} {sl : List K} {s0 : MSt K F}
    (H : Starts e x0 fuel Δ sl s0) (hme : e.me = 0) (hns : e.ns = 0) {b : K} (hb : b ≤ 10 ^ 25) {o : Orc K F}
    {s t : MSt K F} (hs : Level e b s) (h : pass e o s = .cont t) :
    Level e b t ∧ (Taken t → 0 < t.pred) ∧ (Regular t → Level e (b - 1 / 10 ^ 4 * t.pred) t) := by
  have hI : Inv e [] t := by
    have := pass_sat e H.ok o s hs.inv; rw [h] at this; exact this.1
  have hC : NoCe t := by
    have := pass_noCe H.constr hme hns o s hs.noCe; rw [h] at this; exact this
  obtain ⟨v, u, w, vi, vsig, vrej, vf0, vce, vm, -, vcp, -, vcase, B, -, -, hd⟩ := pass_before e H.ok o s t hs.inv h
  obtain ⟨fr, f, c, hf, hc, out⟩ := decideStep_outcome e o _ u t B.inv hd
  -- after the improvement
  have hv : v.fx ≤ b ∧ v.infoCe = [] ∧ (v.rejected = false → ∃ q, v.ev.infoF = .fin q ∧ q ≤ b) := by
    rcases vcase with ⟨-, d1, -, -, c2, c3, -, -, -, c7, c8, -⟩ | ⟨-, c1, -, c4⟩
    · refine ⟨by rw [c2]; exact hs.fx, c8.trans hs.infoCe, fun hr => ?_⟩
      rw [c7]; exact hs.new (vrej ▸ hr) d1
    · obtain ⟨k1, k2⟩ := c4.best hme
      have hvb : v.fx ≤ b := by
        rcases k1 with k1 | ⟨k1, k3⟩
        · exact k1.le.trans hs.fx
        · rw [k1]; exact hs.fx
      exact ⟨hvb, k2.trans hs.infoCe, fun _ => ⟨_, c1, hvb⟩⟩
  obtain ⟨hv1, hv2, hv3⟩ := hv
  have hcp : u.ceplus = [] := by
    rcases B.plus with hp | ⟨hp, -⟩
    · have : u.ev.ceX = [] := by have h1 := fr.ceX; rw [hC] at h1; exact h1.symm
      rw [this] at hp; simp at hp
    · rw [hp, vcp, hs.ceplus]
  have hu : u.f0 ≤ b ∧ u.ce0n = e.nrm [] ∧ Memorised u := by
    cases hr : v.rejected with
    | true =>
      obtain ⟨k1, k2⟩ := B.kept hr
      obtain ⟨l1, l2, l3⟩ := hs.old (vrej ▸ hr)
      refine ⟨by rw [k1, vf0]; exact l1, by rw [k2, vce]; exact l2, B.merit fun _ => ?_⟩
      unfold Memorised at *
      rw [vm, vf0, vsig, vce]; exact l3
    | false =>
      obtain ⟨c', k1, k2, k3⟩ := B.fresh hr
      obtain ⟨q, q1, q2⟩ := hv3 hr
      rw [q1] at k1
      simp only [Fl.fin.injEq] at k1
      rw [resNorm_some hns, hv2] at k2
      simp only [Option.some.injEq] at k2
      exact ⟨k1 ▸ q2, by rw [k3, ← k2], B.merit fun h1 => by rw [hr] at h1; cases h1⟩
  have hcc : c = e.nrm [] := by
    rw [resNorm_some hns, hcp] at hc
    simpa using hc.symm
  have hce : t.infoCe = [] := by
    have := decideStep_base e hme o (stepNorm e o w) u
    rw [hd] at this
    have h1 : t.infoCe = u.infoCe := this
    rw [h1, B.infoCe, hv2]
  have hmem : Memorised t := by
    have := hu.2.2
    unfold Memorised at *
    rw [fr.merit0, fr.f0, fr.sigma, fr.ce0n]; exact this
  have stay : Stays u t → t.fx ≤ b := by
    rintro ⟨-, k1, -⟩
    rw [k1, B.fx]; exact hv1
  have notTaken : Stays u t → ¬ Taken t := by
    rintro ⟨-, -, k2⟩ ht
    unfold Taken at ht
    rw [hI.Xlen, fr.m, k2, B.ixbest] at ht
    have hm : u.m = v.m + 1 := B.m
    obtain ⟨i, y, f, a, -, -, d, -⟩ := vi.link 0 (by have := vi.lo; omega) (by simp)
    rw [vi.ind0] at a
    simp only [Option.some.injEq] at a
    subst a
    have := (List.getElem?_eq_some_iff.1 d).1
    rw [vi.Xlen] at this
    simp only at ht
    omega
  have succ : f + u.sigma * c ≤ u.merit0 - 1 / 10 ^ 4 * t.pred → f ≤ b - 1 / 10 ^ 4 * t.pred := by
    intro hle
    have h1 := hu.2.2
    unfold Memorised at h1
    rw [h1, hu.2.1, hcc] at hle
    linarith [hu.1]
  have info : 0 < t.pred → f + u.sigma * c ≤ u.merit0 - 1 / 10 ^ 4 * t.pred → u.ev.infoF = .fin f := by
    intro hp hle
    obtain ⟨q, r, i1, i2, i3⟩ := B.info
    rw [hf] at i2
    simp only [Option.some.injEq, Fl.fin.injEq] at i2
    subst i2
    rcases le_or_gt q (10 ^ 25) with hq | hq
    · rw [i1, i3.1 hq]
    · have h2 : 0 < 1 / 10 ^ 4 * t.pred := by positivity
      have := succ hle
      rw [i3.2 hq] at this
      linarith
  have down : ∀ p : K, 0 < p → (b - 1 / 10 ^ 4 * p) ≤ b := fun p hp => by
    have : 0 < 1 / 10 ^ 4 * p := by positivity
    linarith
  refine ⟨⟨hI, ?_, hC, hce, fr.ceplus.trans hcp, fun _ => ⟨by rw [fr.f0]; exact hu.1, by rw [fr.ce0n]; exact hu.2.1, hmem⟩, fun hr hp => ?_⟩, ?_, ?_⟩
  · rcases out with ⟨-, o1, -⟩ | ⟨o1, o2, o3⟩ | ⟨-, -, o1, -⟩ | ⟨-, o1, -⟩
    · exact stay o1
    · rw [o3.2.1]; exact (succ o2).trans (down _ o1)
    · exact stay o1
    · exact stay o1
  · rcases out with ⟨o1, -⟩ | ⟨o1, o2, o3⟩ | ⟨-, -, o2⟩ | ⟨-, o2⟩
    · exact absurd o1 hp
    · exact ⟨f, by rw [o3.2.2.2 hr]; exact info o1 o2, (succ o2).trans (down _ o1)⟩
    · rw [o2.2.2.1] at hr; cases hr
    · rw [o2.2.2.2.1] at hr; cases hr
  · intro ht
    rcases out with ⟨-, o1, -⟩ | ⟨o1, -, -⟩ | ⟨-, -, o1, -⟩ | ⟨-, o1, -⟩
    · exact absurd ht (notTaken o1)
    · exact o1
    · exact absurd ht (notTaken o1)
    · exact absurd ht (notTaken o1)
  · rintro ⟨ht, hr⟩
    rcases out with ⟨-, o1, -⟩ | ⟨o1, o2, o3⟩ | ⟨-, -, o1, -⟩ | ⟨-, o1, -⟩
    · exact absurd ht (notTaken o1)
    · refine ⟨hI, by rw [o3.2.1]; exact succ o2, hC, hce, fr.ceplus.trans hcp, (fun h1 => by rw [hr] at h1; cases h1), fun _ _ =>
        ⟨f, by rw [o3.2.2.2 hr]; exact info o1 o2, succ o2⟩⟩
    · exact absurd ht (notTaken o1)
    · exact absurd ht (notTaken o1)

/-- Along a run. -/
theorem Level.run {e : Env K F} {x0 : List K} {fuel : ℕ} {Δ : K} {sl : List K} {s0 : MSt K F}
    (H : Starts e x0 fuel Δ sl s0) (hme : e.me = 0) (hns : e.ns = 0) : ∀ (os : List (Orc K F)) {b : K} (_ : b ≤ 10 ^ 25) {s t : MSt K F},
    Level e b s → (mainLoop e os s = .running t ∨ mainLoop e os s = .done t) →
    t.fx ≤ b - 1 / 10 ^ 4 * (gains Regular e os s).sum ∧ ∀ p ∈ gains Taken e os s, 0 < p := by
  intro os
  induction os with
  | nil =>
    rintro b - s t hs (h | h)
    · simp only [mainLoop, MainRes.running.injEq] at h
      subst h
      exact ⟨by simpa [gains] using hs.fx, by simp [gains]⟩
    · cases h
  | cons o os ih =>
    intro b hb s t hs h
    have h2 := pass_ret_best e H.ok hme o s hs.inv
    cases hp : Sqpdfo.pass e o s with
    | crash c => simp [mainLoop, hp] at h
    | ret r =>
      rw [hp] at h2
      simp only [mainLoop, hp, reduceCtorEq, MainRes.done.injEq, false_or] at h
      subst h
      refine ⟨?_, by simp [gains, hp]⟩
      have : gains Regular e (o :: os) s = [] := by simp [gains, hp]
      rw [this]
      simp only [List.sum_nil, mul_zero, sub_zero]
      rcases h2 with h2 | ⟨h2, -⟩
      · exact h2.le.trans hs.fx
      · rw [h2]; exact hs.fx
    | cont r =>
      simp only [mainLoop, hp] at h
      obtain ⟨l1, l2, l3⟩ := hs.pass H hme hns hb hp
      have hT : ∀ p ∈ gains Taken e (o :: os) s, 0 < p := by
        simp only [gains, hp]
        split_ifs with ht
        · intro p hp'
          rcases List.mem_cons.1 hp' with rfl | hp'
          · exact l2 ht
          · exact (ih hb l1 h).2 p hp'
        · exact (ih hb l1 h).2
      refine ⟨?_, hT⟩
      simp only [gains, hp]
      split_ifs with hr
      · have hpos := l2 hr.1
        have hle : b - 1 / 10 ^ 4 * r.pred ≤ 10 ^ 25 := by
          have : 0 < 1 / 10 ^ 4 * r.pred := by positivity
          linarith
        have := (ih hle (l3 hr) h).1
        rw [List.sum_cons]
        linarith
      · exact (ih hb l1 h).1

theorem start_level {e : Env K F} {x0 : List K} {fuel : ℕ} {Δ : K} {sl : List K} {s0 : MSt K F}
    (H : Starts e x0 fuel Δ sl s0) (hme : e.me = 0) : Level e s0.fx s0 ∧ s0.fx ≤ 10 ^ 25 ∧ s0.ev.X[0]? = some x0 ∧ s0.ev.fX[0]? = some (.fin s0.fx) := by
  have hI0 := H.started.inv
  obtain ⟨hX0, hi0, hf0, hce0, hcp0, hr0⟩ : s0.ev.X[0]? = some x0 ∧ s0.ixbest = 0 ∧
      s0.ev.infoF = .fin s0.fx ∧ (s0.infoCe = [] ∧ NoCe s0) ∧ s0.ceplus = [] ∧ s0.rejected = false := by
    have hs := H.state
    unfold startState at hs
    split at hs
    · rename_i D ev hi
      have hX := (C48_done_complete e.U x0 _ _ _ _ _ _ rfl hi).2.1
      have hce := (initLoop_start e H.constr x0 _ _ _ _ _ _ rfl hi).2.1 hme
      unfold mainInit at hs
      split at hs
      · rename_i fY ceY x h1 h2 h3
        split at hs
        · cases hs
        · rw [hce] at h2
          simp only [List.mapM_nil, Option.pure_def, Option.some.injEq] at h2
          subst h2
          simp only [Option.some.injEq] at hs
          subst hs
          have hx : ev.X[0]? = some x0 := by rw [hX]; rfl
          exact ⟨hx, rfl, rfl, ⟨rfl, hce⟩, rfl, rfl⟩
      · cases hs
    · cases hs
  have hv0 : s0.ev.fX[0]? = some (.fin s0.fx) := by
    obtain ⟨i, y, f, b1, -, b3, -, b5⟩ := hI0.link 0 (by have := hI0.lo; omega) (by simp)
    rw [hI0.ind0, hi0] at b1
    rw [hI0.f0] at b3
    simp only [Option.some.injEq] at b1 b3
    rw [b3]; rw [← b1] at b5; exact b5
  have hb : s0.fx ≤ 10 ^ 25 := by
    have := clipF_fx e s0 hI0
    by_contra hc
    exact absurd (this.2 (not_le.1 hc)) (ne_of_gt (not_le.1 hc))
  exact ⟨⟨hI0, le_refl _, hce0.2, hce0.1, hcp0, (fun h1 => by rw [hr0] at h1; cases h1), fun _ _ => ⟨_, hf0, le_refl _⟩⟩, hb, hX0, hv0⟩

/-! ### The bound -/

/-- C111, full statement: *without constraints, the sum of the predicted decreases of all steps that are taken is at most `10^4` times the
decrease of the objective from the start point to the current point*; this is false (`C111_false`): a step to a point that is in the
interpolation set already is taken, but counts as rejected, so that the next steps are compared with the value before it.  Proved: the
bound for the steps that are taken and count as successful, whatever the kernels return; all summands are positive. -/
theorem C111_decrease_partial {e : Env K F} {x0 : List K} {fuel : ℕ} {Δ : K} {sl : List K} {s0 : MSt K F}
    (H : Starts e x0 fuel Δ sl s0) (hme : e.me = 0) (hns : e.ns = 0) (os : List (Orc K F)) (t : MSt K F)
    (h : mainLoop e os s0 = .running t ∨ mainLoop e os s0 = .done t) :
    ∃ b q : K, t.ev.X[0]? = some x0 ∧ t.ev.fX[0]? = some (.fin b) ∧ t.ev.X[t.ixbest]? = some t.x ∧ t.ev.fX[t.ixbest]? = some (.fin q) ∧
      1 / 10 ^ 4 * (gains Regular e os s0).sum ≤ b - q ∧ ∀ p ∈ gains Taken e os s0, 0 < p := by
  obtain ⟨hL, hb, hX0, hv0⟩ := start_level H hme
  obtain ⟨k1, k2⟩ := hL.run H hme hns os hb h
  obtain ⟨-, -, hl, hy, hfy, hi, -⟩ := C14_interpolation_data H os t h
  obtain ⟨i, y, f, b1, b2, b3, b4, b5⟩ := hl 0 (List.getElem?_eq_some_iff.1 hy).1
  rw [b1] at hi; rw [b2] at hy; rw [b3] at hfy
  simp only [Option.some.injEq] at hi hy hfy
  subst hi hy hfy
  obtain ⟨d, hd⟩ := mainLoop_added e os s0 t H.started.inv.hlen h
  have hX : t.ev.X[0]? = some x0 := by
    rw [hd.X, List.getElem?_append_left (List.getElem?_eq_some_iff.1 hX0).1]; exact hX0
  have hF : t.ev.fX[0]? = some (.fin s0.fx) := by
    obtain ⟨l, hl⟩ := hd.fX
    rw [← hl, List.getElem?_append_left (List.getElem?_eq_some_iff.1 hv0).1]; exact hv0
  exact ⟨s0.fx, t.fx, hX, hF, b4, b5, by linarith, k2⟩

/-! ### When all steps that are taken count as successful -/

/-- The trial point can enter the set: the set grows, or some point of the set that is not the trial point has a Lagrange value of at
least `1e-10` there. -/
def Spec.Enters (e : Env K F) (o : Orc K F) (v : MSt K F) : Prop :=
  growable e v.cur ∨ ∃ j y, j < v.cur ∧ v.set.Y[j]? = some y ∧ 1 / 10 ^ 10 < |o.lval1 j| ∧ 0 < e.dist y o.xnew

theorem pickMax_isSome (cv : ℕ → K) : ∀ (js : List ℕ) (pos : Option ℕ) (best : K),
    (pos.isSome = true ∨ ∃ j ∈ js, best < cv j) → (pickMax cv js pos best).isSome = true := by
  intro js
  induction js with
  | nil =>
    rintro pos best (h | ⟨j, hj, -⟩)
    · exact h
    · cases hj
  | cons i js ih =>
    intro pos best h
    unfold pickMax
    split_ifs with hi
    · exact ih _ _ (Or.inl rfl)
    · refine ih _ _ (h.imp id ?_)
      rintro ⟨j, hj, hlt⟩
      rcases List.mem_cons.1 hj with rfl | hj
      · exact absurd hlt hi
      · exact ⟨j, hj, hlt⟩

theorem includeInY_isSome {P : Type} (dist : P → P → K) (build : List P → F) (lval : ℕ → K) (n : ℕ) (thr : K) (hthr : 0 ≤ thr) (x : P) (Y : List P) (fac : F)
    (h : ∃ j y, j < n ∧ Y[j]? = some y ∧ thr < |lval j| ∧ 0 < dist y x) :
    (includeInY dist build lval (List.range n) thr .distance x x Y fac).1.isSome = true := by
  obtain ⟨j, y, hj, hy, hl, hd⟩ := h
  have hmem : j ∈ List.range n := List.mem_range.2 hj
  unfold includeInY
  rw [if_neg (List.ne_nil_of_mem hmem)]
  dsimp only
  have hs : j ∈ (List.range Y.length).filter fun j => decide (|if j ∈ List.range n then lval j else 0| > thr) := by
    refine List.mem_filter.2 ⟨List.mem_range.2 (List.getElem?_eq_some_iff.1 hy).1, ?_⟩
    rw [if_pos hmem]
    exact decide_eq_true hl
  rw [if_neg (List.ne_nil_of_mem hs)]
  have := pickMax_isSome (candCrit dist .distance x (fun j => if j ∈ List.range n then lval j else 0) Y) _ none 0
    (Or.inr ⟨j, hs, by simp only [candCrit, hy, critVal]; exact hd⟩)
  cases hp : pickMax (candCrit dist .distance x (fun j => if j ∈ List.range n then lval j else 0) Y)
    ((List.range Y.length).filter fun j => decide (|if j ∈ List.range n then lval j else 0| > thr)) none 0 with
  | none => rw [hp] at this; cases this
  | some pos => rfl

theorem accepted_rejected (e : Env K F) (o : Orc K F) (f rho norms : K) (pos : ℕ) (s : MSt K F) :
    (accepted e o f rho norms pos s).Sat (fun t => t.rejected = false) (fun _ => True) (fun _ => True) := by
  unfold accepted
  dsimp only
  split
  · trivial
  split
  · trivial
  split
  · trivial
  · rfl

theorem decideStep_regular (e : Env K F) (o : Orc K F) (norms : K) (s t : MSt K F) (hI : Inv e [] s) (hE : Enters e o s)
    (h : decideStep e o norms s = .cont t) (ht : t.ixbest ≠ s.ixbest) : t.rejected = false := by
  obtain ⟨fr, f, c, hf, hc, out⟩ := decideStep_outcome e o norms s t hI h
  have hout : 0 < t.pred ∧ f + s.sigma * c ≤ s.merit0 - 1 / 10 ^ 4 * t.pred := by
    rcases out with ⟨-, o1, -⟩ | ⟨o1, o2, -⟩ | ⟨-, -, o1, -⟩ | ⟨-, o1, -⟩
    · exact absurd o1.2.2 ht
    · exact ⟨o1, o2⟩
    · exact absurd o1.2.2 ht
    · exact absurd o1.2.2 ht
  have hpred : t.pred = newPred o s.sigma := fr.pred
  rw [hpred] at hout
  have hne : newPred o s.sigma ≠ -1 := fun h1 => by rw [h1] at hout; linarith [hout.1]
  have hb : (s.ev.fX[s.m]?).bind Fl.val? = some f := by rw [hf]; rfl
  have hrho : (s.merit0 - (f + s.sigma * c)) / newPred o s.sigma ≥ cEta1 := by
    unfold cEta1
    rw [ge_iff_le, le_div_iff₀ hout.1]
    linarith [hout.2]
  unfold decideStep at h
  rw [hb, hc] at h
  dsimp only at h
  rw [if_neg hne, if_neg hne, if_pos hrho] at h
  split at h
  · cases h
  split at h
  · have := accepted_rejected e o f ((s.merit0 - (f + s.sigma * c)) / newPred o s.sigma) norms
      ((augmentY e o.xnew (s.set.Y.take s.cur)).1 - 1)
      { s with pred := newPred o s.sigma, cur := (augmentY e o.xnew (s.set.Y.take s.cur)).1, set := { s.set with Y := (augmentY e o.xnew (s.set.Y.take s.cur)).2.1, fac := (augmentY e o.xnew (s.set.Y.take s.cur)).2.2 } }
    rw [h] at this; exact this
  · rename_i hg
    have hE := hE.resolve_left hg
    have hi := includeInY_isSome e.dist e.build o.lval1 s.cur (1 / 10 ^ 10) (by positivity) o.xnew s.set.Y s.set.fac hE
    split at h
    · rename_i pos hpos
      have := accepted_rejected e o f ((s.merit0 - (f + s.sigma * c)) / newPred o s.sigma) norms pos
        { s with pred := newPred o s.sigma, set := { s.set with
          Y := (includeInY e.dist e.build o.lval1 (List.range s.cur) (1 / 10 ^ 10) .distance o.xnew o.xnew s.set.Y s.set.fac).2.1,
          fac := (includeInY e.dist e.build o.lval1 (List.range s.cur) (1 / 10 ^ 10) .distance o.xnew o.xnew s.set.Y s.set.fac).2.2 } }
      rw [h] at this; exact this
    · rename_i hnone
      rw [hnone] at hi; cases hi

theorem pass_regular (e : Env K F) (he : e.Ok) (o : Orc K F) (s t : MSt K F) (hI : Inv e [] s)
    (hE : ∀ v, beforeStep e o s = .cont v → Enters e o v) (h : pass e o s = .cont t) (ht : Taken t) : t.rejected = false := by
  rw [pass_eq] at h
  have hb := beforeStep_inv e he o s hI
  cases hv : beforeStep e o s with
  | ret v => rw [hv] at h; cases h
  | crash c => rw [hv] at h; cases h
  | cont v =>
    rw [hv] at h hb
    have vi : Inv e [] v := hb
    obtain ⟨u, w, B, -, -, hd⟩ := stepStage_before e o v t vi h
    have hEu : Enters e o u := by
      have := hE v hv
      unfold Enters at *
      rw [B.cur, B.set]
      exact this
    refine decideStep_regular e o _ u t B.inv hEu hd fun heq => ?_
    obtain ⟨fr, -⟩ := decideStep_outcome e o _ u t B.inv hd
    unfold Taken at ht
    rw [fr.X, B.inv.Xlen, heq, B.ixbest] at ht
    have hm : u.m = v.m + 1 := B.m
    obtain ⟨i, y, f, a, -, -, d, -⟩ := vi.link 0 (by have := vi.lo; omega) (by simp)
    rw [vi.ind0] at a
    simp only [Option.some.injEq] at a
    subst a
    have := (List.getElem?_eq_some_iff.1 d).1
    rw [vi.Xlen] at this
    omega

theorem gains_regular {e : Env K F} (he : e.Ok) : ∀ (os : List (Orc K F)) (s : MSt K F), Inv e [] s →
    (∀ pre o post u, os = pre ++ o :: post → mainLoop e pre s = .running u → ∀ v, beforeStep e o u = .cont v → Enters e o v) →
    gains Taken e os s = gains Regular e os s := by
  intro os
  induction os with
  | nil => intro s _ _; rfl
  | cons o os ih =>
    intro s hI hE
    simp only [gains]
    cases hp : pass e o s with
    | ret t => rfl
    | crash c => rfl
    | cont t =>
      have hI' : Inv e [] t := by
        have := pass_sat e he o s hI; rw [hp] at this; exact this.1
      have h1 := ih t hI' fun pre o' post u h2 h3 => hE (o :: pre) o' post u (by rw [h2]; rfl) (by simp only [mainLoop, hp]; exact h3)
      dsimp only
      rw [h1]
      by_cases ht : Taken t
      · rw [if_pos ht, if_pos ⟨ht, pass_regular e he o s t hI (hE [] o os s rfl rfl) hp ht⟩]
      · rw [if_neg ht, if_neg fun hr => ht hr.1]

/-- C111 with all steps that are taken: the bound holds if each trial point can enter the set (`Enters`). -/
theorem C111_all {e : Env K F} {x0 : List K} {fuel : ℕ} {Δ : K} {sl : List K} {s0 : MSt K F}
    (H : Starts e x0 fuel Δ sl s0) (hme : e.me = 0) (hns : e.ns = 0) (os : List (Orc K F))
    (hE : ∀ pre o post u, os = pre ++ o :: post → mainLoop e pre s0 = .running u → ∀ v, beforeStep e o u = .cont v → Enters e o v) (t : MSt K F)
    (h : mainLoop e os s0 = .running t ∨ mainLoop e os s0 = .done t) :
    ∃ b q : K, t.ev.X[0]? = some x0 ∧ t.ev.fX[0]? = some (.fin b) ∧ t.ev.X[t.ixbest]? = some t.x ∧ t.ev.fX[t.ixbest]? = some (.fin q) ∧
      1 / 10 ^ 4 * (gains Taken e os s0).sum ≤ b - q ∧ ∀ p ∈ gains Taken e os s0, 0 < p := by
  rw [gains_regular H.ok os s0 H.started.inv hE]
  obtain ⟨b, q, h1, h2, h3, h4, h5, h6⟩ := C111_decrease_partial H hme hns os t h
  rw [gains_regular H.ok os s0 H.started.inv hE] at h6
  exact ⟨b, q, h1, h2, h3, h4, h5, h6⟩

/-! ### Linear models with the Lagrange functions of the sets -/

theorem affine_sum {n : ℕ} (y : List K) (c : ℕ → K) (g : ℕ → Fin n → K) (m : ℕ) :
    affine (∑ j ∈ Finset.range m, c j) (∑ j ∈ Finset.range m, g j) y = ∑ j ∈ Finset.range m, affine (c j) (g j) y := by
  induction m with
  | zero => simp [affine]
  | succ m ih => rw [Finset.sum_range_succ, Finset.sum_range_succ, Finset.sum_range_succ, affine_add, ih]

/-- The Lagrange functions sum up to 1, so one of them is at least `1 / (n + 1)`. -/
theorem lagrange_large {n : ℕ} {Y : List (List K)} (h : Fixes n Y) (hl : Y.length = n + 1) (x : List K) :
    ∃ j, j < n + 1 ∧ ∃ (c : K) (g : Fin n → K), Cardinal Y j c g ∧ 1 / (n + 1 : K) ≤ affine c g x := by
  choose c g hc using fun j => h.cardinal hl j
  have hz := h (∑ j ∈ Finset.range (n + 1), c j + -1) (∑ j ∈ Finset.range (n + 1), g j + 0) (fun y hy => by
    obtain ⟨i, hi, rfl⟩ := List.mem_iff_getElem.1 hy
    rw [affine_add, affine_sum]
    rw [Finset.sum_congr rfl fun j _ => hc j i _ (List.getElem?_eq_getElem hi)]
    rw [Finset.sum_ite_eq, if_pos (Finset.mem_range.2 (hl ▸ hi))]
    simp [affine])
  have h1 : ∑ j ∈ Finset.range (n + 1), affine (c j) (g j) x = 1 := by
    have h2 : affine (∑ j ∈ Finset.range (n + 1), c j + -1) (∑ j ∈ Finset.range (n + 1), g j + 0) x = 0 := by
      rw [hz.1, hz.2]; simp [affine]
    rw [affine_add, affine_sum] at h2
    have h3 : affine (-1 : K) (0 : Fin n → K) x = -1 := by simp [affine]
    rw [h3] at h2
    linarith
  by_contra hcon
  push Not at hcon
  have h4 : ∑ j ∈ Finset.range (n + 1), affine (c j) (g j) x < ∑ j ∈ Finset.range (n + 1), 1 / (n + 1 : K) :=
    Finset.sum_lt_sum_of_nonempty ⟨0, by simp⟩ fun j hj => hcon j (Finset.mem_range.1 hj) _ _ (hc j)
  rw [h1, Finset.sum_const, Finset.card_range, nsmul_eq_mul] at h4
  have : ((n + 1 : ℕ) : K) * (1 / (n + 1 : K)) = 1 := by
    have : (n + 1 : K) ≠ 0 := by positivity
    push_cast
    field_simp
  rw [this] at h4
  exact absurd h4 (lt_irrefl _)

/-- With the Lagrange functions of the set in use a trial point that is not in the set can enter it. -/
theorem enters_of_lagrange {e : Env K F} (hn : (e.n : K) + 1 < 10 ^ 10) {o : Orc K F} {v : MSt K F} (hD : Det e v) (hv : GoodValues e o v.set.Y)
    (hx : ∀ y ∈ v.set.Y, 0 < e.dist y o.xnew) : Enters e o v := by
  obtain ⟨j, hj, c, g, hc, hle⟩ := lagrange_large hD.fixes hD.len o.xnew
  have hj' : j < v.set.Y.length := by rw [hD.len]; exact hj
  refine Or.inr ⟨j, v.set.Y[j], by rw [hD.cur]; exact hj, List.getElem?_eq_getElem hj', ?_, hx _ (List.getElem_mem hj')⟩
  rw [(hv j hj' c g hc).1]
  refine lt_of_lt_of_le ?_ (le_trans hle (le_abs_self _))
  exact one_div_lt_one_div_of_lt (by positivity) hn

/-- C111 for linear models with the Lagrange functions of the sets in use (as in `C104_poised`): if every trial point has a positive distance to the points of the set
in use, the predicted decreases of all steps that are taken sum up to at most `10^4` times the decrease of the objective. -/
theorem C111_linear {e : Env K F} {x0 : List K} {fuel : ℕ} {Δ : K} {sl : List K} {s0 : MSt K F}
    (H : Starts e x0 fuel Δ sl s0) (hme : e.me = 0) (hns : e.ns = 0) (hlin : e.finalDeg = .linear) (hreg : e.regression = false)
    (hn : (e.n : K) + 1 < 10 ^ 10) (os : List (Orc K F))
    (hT : ∀ pre o post u, os = pre ++ o :: post → mainLoop e pre s0 = .running u →
      TrueLagrange e o u ∧ ∀ v, beforeStep e o u = .cont v → ∀ y ∈ v.set.Y, 0 < e.dist y o.xnew) (t : MSt K F)
    (h : mainLoop e os s0 = .running t ∨ mainLoop e os s0 = .done t) :
    ∃ b q : K, t.ev.X[0]? = some x0 ∧ t.ev.fX[0]? = some (.fin b) ∧ t.ev.X[t.ixbest]? = some t.x ∧ t.ev.fX[t.ixbest]? = some (.fin q) ∧
      1 / 10 ^ 4 * (gains Taken e os s0).sum ≤ b - q ∧ ∀ p ∈ gains Taken e os s0, 0 < p := by
  refine C111_all H hme hns os (fun pre o post u h1 h2 v hv => ?_) t h
  obtain ⟨hTu, hx⟩ := hT pre o post u h1 h2
  have hDu : Det e u := mainLoop_det e hlin hreg pre s0 (fun pre' o' post' u' h3 h4 =>
    (hT pre' o' (post' ++ o :: post) u' (by rw [h1, h3]; simp) h4).1) (start_det H) u (Or.inl h2)
  have hDv : Det e v := by
    have := beforeStep_det e o u hTu.proposals hDu
    rw [hv] at this; exact this
  exact enters_of_lagrange hn hDv (hTu.values v hv hDv.fixes hDv.len) (hx v hv)

/-! ### Consequences for objectives that are bounded below -/

theorem count_le_sum (l : List K) (hl : ∀ p ∈ l, 0 < p) (ε : K) :
    ((l.filter fun p => decide (ε ≤ p)).length : K) * ε ≤ l.sum := by
  induction l with
  | nil => simp
  | cons a l ih =>
    have ih := ih fun p hp => hl p (List.mem_cons_of_mem _ hp)
    have ha := hl a List.mem_cons_self
    rw [List.filter_cons, List.sum_cons]
    split_ifs with h
    · have := of_decide_eq_true h
      rw [List.length_cons]
      push_cast
      linarith
    · linarith

theorem gains_sub (e : Env K F) : ∀ (os : List (Orc K F)) (s : MSt K F) (p : K), p ∈ gains Regular e os s → p ∈ gains Taken e os s := by
  intro os
  induction os with
  | nil => intro s p h; exact h
  | cons o os ih =>
    intro s p h
    simp only [gains] at h ⊢
    cases hp : pass e o s with
    | ret t => rw [hp] at h; exact h
    | crash c => rw [hp] at h; exact h
    | cont t =>
      rw [hp] at h
      dsimp only at h ⊢
      by_cases hr : Regular t
      · rw [if_pos hr] at h
        rw [if_pos hr.1]
        rcases List.mem_cons.1 h with rfl | h
        · exact List.mem_cons_self
        · exact List.mem_cons_of_mem _ (ih t p h)
      · rw [if_neg hr] at h
        by_cases ht : Taken t
        · rw [if_pos ht]; exact List.mem_cons_of_mem _ (ih t p h)
        · rw [if_neg ht]; exact ih t p h

/-- Number of successful steps: at most `10^4 (f(x0) - low) / ε` of them have a predicted decrease of at least `ε`, if no recorded value is below `low`. -/
theorem C111_count {e : Env K F} {x0 : List K} {fuel : ℕ} {Δ : K} {sl : List K} {s0 : MSt K F}
    (H : Starts e x0 fuel Δ sl s0) (hme : e.me = 0) (hns : e.ns = 0) (os : List (Orc K F)) (t : MSt K F)
    (h : mainLoop e os s0 = .running t ∨ mainLoop e os s0 = .done t) (low : K) (hlow : ∀ q, .fin q ∈ t.ev.fX → low ≤ q) (ε : K) :
    ∃ b, t.ev.fX[0]? = some (.fin b) ∧
      (((gains Regular e os s0).filter fun p => decide (ε ≤ p)).length : K) * ε ≤ 10 ^ 4 * (b - low) := by
  obtain ⟨b, q, -, h2, -, h4, h5, h6⟩ := C111_decrease_partial H hme hns os t h
  refine ⟨b, h2, ?_⟩
  have := count_le_sum (gains Regular e os s0) (fun p hp => h6 p (gains_sub e os s0 p hp)) ε
  have hq := hlow q (List.mem_of_getElem? h4)
  linarith

theorem gains_append (p : MSt K F → Prop) [DecidablePred p] (e : Env K F) (o : Orc K F) : ∀ (os : List (Orc K F)) (s u t : MSt K F), mainLoop e os s = .running u → pass e o u = .cont t →
    gains p e (os ++ [o]) s = gains p e os s ++ (if p t then [t.pred] else []) := by
  intro os
  induction os with
  | nil =>
    intro s u t h1 h2
    cases h1
    simp only [List.nil_append, gains, h2]
  | cons a os ih =>
    intro s u t h1 h2
    simp only [mainLoop] at h1
    simp only [List.cons_append, gains]
    cases hp : pass e a s with
    | ret r => rw [hp] at h1; cases h1
    | crash c => rw [hp] at h1; cases h1
    | cont r =>
      rw [hp] at h1
      have := ih r u t h1 h2
      dsimp only at h1 ⊢
      rw [this]
      split_ifs <;> simp

/-- Runs without end (`miter`, `msimul` infinite): if the recorded values are bounded below, the predicted decreases of the successful steps tend to 0. -/
theorem C111_infinite [Archimedean K] {e : Env K F} {x0 : List K} {fuel : ℕ} {Δ : K} {sl : List K} {s0 : MSt K F}
    (H : Starts e x0 fuel Δ sl s0) (hme : e.me = 0) (hns : e.ns = 0) (o : ℕ → Orc K F) (s : ℕ → MSt K F) (h0 : s 0 = s0)
    (hs : ∀ i, pass e (o i) (s i) = .cont (s (i + 1))) (low : K) (hlow : ∀ i q, .fin q ∈ (s i).ev.fX → low ≤ q) (ε : K) (hε : 0 < ε) :
    ∃ N, ∀ i, N ≤ i → Regular (s (i + 1)) → (s (i + 1)).pred < ε := by
  have hrun : ∀ i, mainLoop e ((List.range i).map o) s0 = .running (s i) := by
    intro i
    induction i with
    | zero => rw [← h0]; rfl
    | succ i ih =>
      rw [List.range_succ, List.map_append, List.map_singleton, mainLoop_append _ _ _ _ _ ih]
      simp only [mainLoop, hs i]
  have hb : ∃ b, ∀ i, (gains Regular e ((List.range i).map o) s0).sum ≤ 10 ^ 4 * (b - low) := by
    refine ⟨s0.fx, fun i => ?_⟩
    obtain ⟨hL, hb, -, -⟩ := start_level H hme
    have h1 := (hL.run H hme hns ((List.range i).map o) hb (Or.inl (hrun i))).1
    have h2 : low ≤ (s i).fx := by
      obtain ⟨b, q, -, -, -, h4, -⟩ := C111_decrease_partial H hme hns _ (s i) (Or.inl (hrun i))
      have hI := (H.memory _ _ (hrun i)).inv
      obtain ⟨j, y, f, c1, -, c3, -, c5⟩ := hI.link 0 (by have := hI.lo; omega) (by simp)
      rw [hI.f0] at c3
      simp only [Option.some.injEq] at c3
      rw [c3]
      exact hlow i _ (List.mem_of_getElem? c5)
    linarith
  obtain ⟨b, hb⟩ := hb
  have hstep : ∀ i, (gains Regular e ((List.range (i + 1)).map o) s0).sum =
      (gains Regular e ((List.range i).map o) s0).sum + if Regular (s (i + 1)) then (s (i + 1)).pred else 0 := by
    intro i
    rw [List.range_succ, List.map_append, List.map_singleton, gains_append _ _ _ _ _ _ _ (hrun i) (hs i), List.sum_append]
    split_ifs <;> simp
  have hpos : ∀ i, Regular (s (i + 1)) → 0 < (s (i + 1)).pred := by
    intro i hr
    obtain ⟨-, -, -, -, -, -, -, h6⟩ := C111_decrease_partial H hme hns _ _ (Or.inl (hrun (i + 1)))
    refine h6 _ (gains_sub e _ _ _ ?_)
    rw [List.range_succ, List.map_append, List.map_singleton, gains_append _ _ _ _ _ _ _ (hrun i) (hs i), if_pos hr]
    simp
  have hmono : ∀ i k, (gains Regular e ((List.range i).map o) s0).sum ≤ (gains Regular e ((List.range (i + k)).map o) s0).sum := by
    intro i k
    induction k with
    | zero => exact le_refl _
    | succ k ih =>
      rw [← Nat.add_assoc, hstep]
      split_ifs with hr
      · linarith [hpos _ hr]
      · linarith
  by_contra hcon
  push Not at hcon
  have hk : ∀ k : ℕ, ∃ i, (k : K) * ε ≤ (gains Regular e ((List.range i).map o) s0).sum := by
    intro k
    induction k with
    | zero => exact ⟨0, by simp [gains]⟩
    | succ k ih =>
      obtain ⟨i, hi⟩ := ih
      obtain ⟨j, hij, hr, hj⟩ := hcon i
      refine ⟨j + 1, ?_⟩
      have := hmono i (j - i)
      rw [Nat.add_sub_cancel' hij] at this
      rw [hstep, if_pos hr]
      push_cast
      linarith
  obtain ⟨k, hk'⟩ := exists_nat_gt (10 ^ 4 * (b - low) / ε)
  obtain ⟨i, hi⟩ := hk k
  have := hb i
  rw [div_lt_iff₀ hε] at hk'
  linarith

theorem accepted_fields {e : Env K F} (hme : e.me = 0) {o : Orc K F} {f rho norms : K} {pos : ℕ} {s : MSt K F} {R : PassRes K F}
    (hR : accepted e o f rho norms pos s = R) : R.Sat (fun t => t.rejected = false ∧ t.delta = succDelta rho o.active norms s.delta ∧ t.fx = f ∧ t.ev = s.ev ∧
      t.m = s.m ∧ t.pred = s.pred ∧ t.ixbest = s.m ∧ t.infoCe = s.infoCe ∧ t.ceplus = s.ceplus) (fun _ => False) (fun c => c = .index) := by
  subst hR
  unfold accepted
  dsimp only
  split
  · rename_i h; omega
  split
  · rfl
  split
  · rfl
  · exact ⟨rfl, rfl, rfl, rfl, rfl, rfl, rfl, by simp [MSt.newGx, MSt.storeG, hme], rfl⟩

namespace Ex

/-- The objective decreases with the number of the call. -/
def fading : User (List ℚ) ℚ := ⟨fun w _ => .num (.fin (1 / (w.logF.length + 1))), none⟩

/-- The oracle of the endless run. -/
def fadeOrc (s : MSt ℚ (List (List ℚ))) : Orc ℚ (List (List ℚ)) := gOrc 1 [s.x.sum + 1] (s.fx - 1 / (s.m + 2))

theorem fading_augm (y : List ℚ) (ev : EvSt (List ℚ) ℚ) (hl : ev.fX.length = ev.X.length) :
    augmX fading (.fin big) y ev.X.length ev = some { ev with
      X := ev.X ++ [y], fX := ev.fX ++ [.fin (1 / (ev.w.logF.length + 1))], nsimul := ev.nsimul + 1,
      infoF := .fin (1 / (ev.w.logF.length + 1)), w := { ev.w with logF := ev.w.logF ++ [y] } } := by
  have h1 : ¬ (big : ℚ) ≤ 1 / (ev.w.logF.length + 1) := by
    have h2 : (1 : ℚ) / (ev.w.logF.length + 1) ≤ 1 := by
      rw [div_le_one (by positivity)]; linarith [Nat.cast_nonneg (α := ℚ) ev.w.logF.length]
    have h3 : (1 : ℚ) < big := by unfold big; norm_num
    linarith
  have h2 : (Fl.fin (big : ℚ)).fmin (.fin (1 / (ev.w.logF.length + 1))) = .fin (1 / (ev.w.logF.length + 1)) := by
    simp only [Fl.fmin, Fl.isNan, Fl.le, h1, decide_false, Bool.false_eq_true, if_false]
  unfold augmX sqpdfoFunc fading
  simp only [setOrAppend, hl, lt_irrefl, if_false, h2]
  simp [Fl.isNan, Fl.isInf]

/-- A state of the endless run. -/
structure Fades (s0 s : MSt ℚ (List (List ℚ))) : Prop where
  run : ∃ os, mainLoop (gEnv fading .pinf) os s0 = .running s
  rejected : s.rejected = false
  pred : s.pred ≠ -1
  delta : 1 ≤ s.delta
  infoF : s.ev.infoF = .fin s.fx
  noCe : s.ev.ceX = []
  ce : s.infoCe = [] ∧ s.ceplus = []
  log : s.ev.w.logF.length = s.m + 1
  fx : 1 / (s.m + 2 : ℚ) < s.fx
  x : s.x.length = 1

theorem fades_next {s0 s : MSt ℚ (List (List ℚ))} (H : Starts (gEnv fading .pinf) [3] 1 1 [] s0) (h : Fades s0 s) :
    ∃ t, pass (gEnv fading .pinf) (fadeOrc s) s = .cont t ∧ Fades s0 t ∧ Regular t := by
  obtain ⟨os, hos⟩ := h.run
  have hI := (H.memory os s hos).inv
  have hC := C57_unconstrained_errors H rfl rfl (os ++ [fadeOrc s])
  rw [mainLoop_append _ _ _ _ _ hos] at hC
  have hp : 0 < s.fx - 1 / (s.m + 2 : ℚ) := by linarith [h.fx]
  have hsg := hI.sigma
  obtain ⟨a, ha⟩ := List.length_eq_one_iff.1 h.x
  have hcase : (∃ t, pass (gEnv fading .pinf) (fadeOrc s) s = .cont t ∧ t.rejected = false ∧ 1 ≤ t.delta ∧ t.fx = 1 / (s.m + 2 : ℚ) ∧ t.ev.infoF = .fin (1 / (s.m + 2 : ℚ)) ∧
      t.ev.ceX = [] ∧ t.ev.w.logF.length = s.m + 2 ∧ t.m = s.m + 1 ∧ 0 < t.pred ∧ t.ixbest = s.m + 1 ∧ t.infoCe = [] ∧ t.ceplus = [] ∧ t.ev.X[s.m + 1]? = some [a + 1]) ∨
      pass (gEnv fading .pinf) (fadeOrc s) s = .crash .index := by
    obtain ⟨N, u, hu, u1, u2, u3, u4, u5, u6, u7, u8, u9, u10, u11, u12, u13⟩ : ∃ N u, pass (gEnv fading .pinf) (fadeOrc s) s = decideStep (gEnv fading .pinf) (fadeOrc s) N u ∧
        u.delta = s.delta ∧ u.set = s.set ∧ u.cur = s.cur ∧ u.m = s.m + 1 ∧ u.ev.fX[s.m + 1]? = some (.fin (1 / (s.m + 2 : ℚ))) ∧ u.ceplus = [] ∧ u.infoCe = [] ∧
        u.merit0 = s.fx ∧ u.ev.infoF = .fin (1 / (s.m + 2 : ℚ)) ∧ u.ev.ceX = [] ∧ u.ev.w.logF.length = s.m + 2 ∧ u.ev.X[s.m + 1]? = some [a + 1] ∧ u.sigma = s.sigma := by
      have e1 : (gEnv fading .pinf).miter.le (.fin (s.niter : ℚ)) = false := rfl
      have e2 : (gEnv fading .pinf).msimul.le (.fin (s.ev.nsimul : ℚ)) = false := rfl
      have e3 : ¬ (s.delta < 1 / 10 ^ 10) := by linarith [h.delta, show (1 : ℚ) / 10 ^ 10 ≤ 1 by norm_num]
      have e4 : ¬ ((1 : ℚ) ≤ 1 / 10 ^ 5) := by norm_num
      have hq : (1 : ℚ) / (s.m + 1 + 1) = 1 / (s.m + 2) := by ring
      have hsum : s.x.sum = a := by rw [ha]; simp
      have hXl : s.m + 1 = s.ev.X.length := hI.Xlen.symm
      have hev := fading_augm [a + 1] { s.ev with flag := Status.success } (by simp only; rw [hI.fXlen, hI.Xlen])
      dsimp only at hev
      rw [← hXl] at hev
      refine ⟨stepNorm (gEnv fading .pinf) (fadeOrc s) s, { s.measure (fadeOrc s).k1 with
        niter := s.niter + 1
        ev := { s.ev with
          flag := Status.success, X := s.ev.X ++ [[a + 1]], fX := s.ev.fX ++ [.fin (1 / (s.ev.w.logF.length + 1))], nsimul := s.ev.nsimul + 1,
          infoF := .fin (1 / (s.ev.w.logF.length + 1)), w := { s.ev.w with logF := s.ev.w.logF ++ [[a + 1]] } }
        m := s.m + 1
        f0 := s.fx
        ce0n := 0
        merit0 := s.fx + s.sigma * 0 }, ?_, ?_⟩
      · have p1 : pass (gEnv fading .pinf) (fadeOrc s) s = stepStage (gEnv fading .pinf) (fadeOrc s)
            { s.measure (fadeOrc s).k1 with ev := { s.ev with flag := Status.success } } := by
          unfold pass
          rw [e1, e2]
          simp only [Bool.false_eq_true, if_false]
          rw [if_neg (show ¬ (fadeOrc s).k1.fail = true from Bool.false_ne_true), if_neg]
          · rfl
          · rintro (⟨k, -⟩ | k | k)
            · exact e4 k
            · exact e3 k
            · exact h.pred k
        rw [p1]
        have p2 : globalise (gEnv fading .pinf) { s.measure (fadeOrc s).k1 with ev := { s.ev with flag := Status.success } } =
            .cont { s.measure (fadeOrc s).k1 with ev := { s.ev with flag := Status.success }, f0 := s.fx, ce0n := 0, merit0 := s.fx + s.sigma * 0 } := by
          unfold globalise
          simp only [MSt.measure, h.rejected, h.infoF, Fl.val?, resNorm_some (show (gEnv fading .pinf).ns = 0 from rfl), h.ce.1, Bool.false_eq_true, if_false]
          rfl
        unfold stepStage
        rw [p2]
        simp only [PassRes.bind]
        rw [if_neg (show ¬ (fadeOrc s).tfail = true from Bool.false_ne_true)]
        have p3 : ∀ r : MSt ℚ (List (List ℚ)), r.sigma = s.sigma → penalty (fadeOrc s) r = .cont r := by
          intro r hr
          unfold penalty
          rw [if_neg]
          rw [hr, show sigmab (fadeOrc s) = 0 from if_pos rfl]
          linarith
        rw [p3]
        rotate_left
        · rfl
        dsimp only
        have p4 : (fadeOrc s).xnew = [a + 1] := by simp [fadeOrc, gOrc, hsum]
        unfold evalTrial
        dsimp only [MSt.measure]
        rw [p4, show (gEnv fading .pinf).U = fading from rfl, hev]
        simp [h.noCe, finVals, Status.success]
        rfl
      · refine ⟨rfl, rfl, rfl, rfl, ?_, h.ce.2, h.ce.1, by simp, by simp only [h.log]; rw [← hq]; push_cast; rfl, h.noCe, by simp [h.log], ?_, rfl⟩
        · simp only [h.log]
          rw [List.getElem?_append_right (by rw [hI.fXlen]), hI.fXlen, Nat.sub_self, ← hq]
          push_cast
          rfl
        · simp only
          rw [hXl]
          simp
    have hne : newPred (fadeOrc s) u.sigma = s.fx - 1 / (s.m + 2 : ℚ) := by
      simp only [newPred, fadeOrc, gOrc, mul_zero, add_zero, neg_neg, lt_irrefl, if_false]
      rw [if_neg (not_lt.2 hp.le), if_neg hp.ne']
    have hsum' : s.x.sum = a := by rw [ha]; simp
    have hgr : ¬ growable (gEnv fading .pinf) u.cur := by
      have h1 := hI.lo
      rw [u3]
      rintro (h2 | ⟨h2, -⟩)
      · have h3 : (gEnv fading .pinf).pfinal = 2 := rfl
        have h4 : (gEnv fading .pinf).n = 1 := rfl
        omega
      · cases h2
    rw [hu]
    have hrho : (u.merit0 - (1 / (s.m + 2 : ℚ) + u.sigma * 0)) / (s.fx - 1 / (s.m + 2 : ℚ)) = 1 := by
      rw [u8, mul_zero, add_zero, div_self hp.ne']
    have hinc := includeInY_isSome (gEnv fading .pinf).dist (gEnv fading .pinf).build (fadeOrc s).lval1 u.cur (1 / 10 ^ 10) (by norm_num) (fadeOrc s).xnew u.set.Y u.set.fac
      ⟨0, [a], by rw [u3]; have := hI.lo; omega, by rw [u2, hI.Y0, ha], by simp only [fadeOrc, gOrc]; norm_num, by simp [fadeOrc, gOrc, hsum', Env.dist, gEnv, nrm1]⟩
    have hn1 : ¬ s.fx - 1 / (s.m + 2 : ℚ) = -1 := by linarith
    unfold decideStep
    rw [u4, u5, resNorm_some (show (gEnv fading .pinf).ns = 0 from rfl), u6]
    simp only [Option.bind_some, Fl.val?, hne]
    rw [show (gEnv fading .pinf).nrm [] = 0 from rfl, if_neg hn1, if_neg hn1, hrho, if_pos (by unfold cEta1; norm_num), if_neg (by rw [u8]; linarith), if_neg hgr]
    cases hi : (includeInY (gEnv fading .pinf).dist (gEnv fading .pinf).build (fadeOrc s).lval1 (List.range u.cur) (1 / 10 ^ 10) .distance (fadeOrc s).xnew (fadeOrc s).xnew u.set.Y u.set.fac).1 with
    | none => rw [hi] at hinc; cases hinc
    | some pos =>
      dsimp only
      generalize hR : accepted (gEnv fading .pinf) (fadeOrc s) _ _ _ _ _ = R
      have hA := accepted_fields (by rfl) hR
      cases R with
      | ret r => exact hA.elim
      | crash c => exact Or.inr (congrArg _ hA)
      | cont t =>
        obtain ⟨k1, k2, k3, k4, k5, k6, k7, k8, k9⟩ := hA
        dsimp only at k2 k4 k5 k6 k7 k8 k9
        refine Or.inl ⟨t, rfl, k1, ?_, k3, by rw [k4, u9], by rw [k4, u10], by rw [k4, u11], k5, by rw [k6]; exact hp, k7, by rw [k8, u7], k9, by rw [k4, u12]⟩
        rw [k2, u1]
        have hd := h.delta
        unfold succDelta
        rw [if_pos (by unfold cEta2; norm_num), if_neg (fun k => Bool.false_ne_true k.1)]
        refine le_min (hd.trans (le_max_right _ _)) (by unfold cDeltamax; norm_num)
  rcases hcase with ⟨t, ht, t1, t2, t3, t4, t5, t6, t7, t8, t9, t10, t11, t12⟩ | hbad
  · have hrun : mainLoop (gEnv fading .pinf) (os ++ [fadeOrc s]) s0 = .running t := by
      rw [mainLoop_append _ _ _ _ _ hos]; simp only [mainLoop, ht]
    have hI' := (H.memory _ _ hrun).inv
    refine ⟨t, ht, ⟨⟨_, hrun⟩, t1, by linarith, t2, by rw [t4, t3], t5, ⟨t10, t11⟩, by rw [t6, t7], ?_, ?_⟩, ?_, t1⟩
    · rw [t3, t7]
      apply one_div_lt_one_div_of_lt
      · positivity
      · push_cast; linarith
    · obtain ⟨i, y, f, c1, c2, -, c4, -⟩ := hI'.link 0 (by have := hI'.lo; omega) (by simp)
      rw [hI'.ind0, t9] at c1
      rw [hI'.Y0] at c2
      simp only [Option.some.injEq] at c1 c2
      rw [← c1, t12] at c4
      rw [c2, ← Option.some.inj c4]; rfl
    · unfold Taken; rw [hI'.Xlen, t7, t9]
  · have := hC .index (by simp only [mainLoop, hbad])
    rcases this with h | h <;> cases h

/-- The run does not end. -/
theorem fades_run {s0 : MSt ℚ (List (List ℚ))} (H : Starts (gEnv fading .pinf) [3] 1 1 [] s0) (h : Fades s0 s0) :
    ∃ s : ℕ → MSt ℚ (List (List ℚ)), s 0 = s0 ∧ ∀ i, pass (gEnv fading .pinf) (fadeOrc (s i)) (s i) = .cont (s (i + 1)) ∧ Regular (s (i + 1)) := by
  have hn : ∀ s : {s // Fades s0 s}, ∃ t : {s // Fades s0 s}, pass (gEnv fading .pinf) (fadeOrc s.1) s.1 = .cont t.1 ∧ Regular t.1 := by
    rintro ⟨s, hs⟩
    obtain ⟨t, h1, h2, h3⟩ := fades_next H hs
    exact ⟨⟨t, h2⟩, h1, h3⟩
  choose g hg using hn
  exact ⟨fun i => (g^[i] ⟨s0, h⟩).1, rfl, fun i => by
    have := hg (g^[i] ⟨s0, h⟩)
    simp only [Function.iterate_succ_apply']
    exact this⟩

end Ex

/-- A run without end that meets the hypotheses of `C111_infinite`; all of its steps are successful. -/
example : ∃ (o : ℕ → Orc ℚ (List (List ℚ))) (s : ℕ → MSt ℚ (List (List ℚ))), Starts (Ex.gEnv Ex.fading .pinf) [3] 1 1 [] (s 0) ∧
    (∀ i, pass (Ex.gEnv Ex.fading .pinf) (o i) (s i) = .cont (s (i + 1))) ∧ (∀ i, Regular (s (i + 1))) ∧ (∀ i q, .fin q ∈ (s i).ev.fX → 0 ≤ q) ∧
    ∀ ε, 0 < ε → ∃ N, ∀ i, N ≤ i → (s (i + 1)).pred < ε := by
  have h : ((startState (Ex.gEnv Ex.fading .pinf) [3] 1 1 []).any fun s => !s.rejected && decide (s.pred ≠ -1) && decide (s.delta = 1) && decide (s.fx = 1) &&
      decide (s.ev.infoF.val? = some 1) && s.ev.ceX.isEmpty && s.infoCe.isEmpty && s.ceplus.isEmpty && decide (s.ev.w.logF.length = 2) && decide (s.m = 1) && decide (s.x = [3])) = true := by
    decide +kernel
  cases hs : startState (Ex.gEnv Ex.fading .pinf) [3] 1 1 [] with
  | none => rw [hs] at h; cases h
  | some s0 =>
    rw [hs] at h
    simp only [Option.any_some, Bool.and_eq_true, Bool.not_eq_true', decide_eq_true_eq, List.isEmpty_iff] at h
    obtain ⟨⟨⟨⟨⟨⟨⟨⟨⟨⟨h1, h2⟩, h3⟩, h4⟩, h5⟩, h6⟩, h7⟩, h8⟩, h9⟩, h10⟩, h11⟩ := h
    have H : Starts (Ex.gEnv Ex.fading .pinf) [3] 1 1 [] s0 := ⟨Ex.gEnv_ok _ _, Ex.gEnv_constr _ _, rfl, one_pos, hs⟩
    have hf0 : s0.ev.infoF = .fin s0.fx := by
      cases hf : s0.ev.infoF <;> rw [hf] at h5 <;> simp [Fl.val?] at h5
      rw [h5, h4]
    obtain ⟨s, k0, k⟩ := Ex.fades_run H ⟨⟨[], rfl⟩, h1, h2, by rw [h3], hf0, h6, ⟨h7, h8⟩, by rw [h9, h10], by rw [h4, h10]; norm_num, by rw [h11]; rfl⟩
    have hlow : ∀ i q, .fin q ∈ (s i).ev.fX → 0 ≤ q := by
      intro i q hq
      have hrun : ∀ i, ∃ os, mainLoop (Ex.gEnv Ex.fading .pinf) os s0 = .running (s i) := by
        intro i
        induction i with
        | zero => exact ⟨[], by rw [k0]; rfl⟩
        | succ i ih =>
          obtain ⟨os, ho⟩ := ih
          exact ⟨os ++ [Ex.fadeOrc (s i)], by rw [mainLoop_append _ _ _ _ _ ho]; simp only [mainLoop, (k i).1]⟩
      obtain ⟨os, ho⟩ := hrun i
      obtain ⟨-, -, -, -, -, -, hr⟩ := C14_interpolation_data H os (s i) (Or.inl ho)
      obtain ⟨j, hj⟩ := List.mem_iff_getElem?.1 hq
      obtain ⟨y, w, p, r, -, -, a3, a4, a5⟩ := hr _ _ hj
      have hp : 0 ≤ p := by
        have : p = 1 / (w.logF.length + 1) := by
          have : FOut.num (Fl.fin (1 / (w.logF.length + 1 : ℚ))) = .num (.fin p) := a3
          simpa using this.symm
        rw [this]; positivity
      simp only [Fl.fin.injEq] at a4
      rcases le_or_gt p (10 ^ 25) with hc | hc
      · rw [a4, a5.1 hc]; exact hp
      · rw [a4, a5.2 hc]; norm_num
    refine ⟨fun i => Ex.fadeOrc (s i), s, k0 ▸ H, fun i => (k i).1, fun i => (k i).2, hlow, fun ε hε => ?_⟩
    obtain ⟨N, hN⟩ := C111_infinite H rfl rfl _ s k0 (fun i => (k i).1) 0 hlow ε hε
    exact ⟨N, fun i hi => hN i hi (k i).2⟩

/-- The bound for the user's objective: `obj(x0)` is larger than the value of the current point by at least `1e-4` times the predicted decreases of
the successful steps. -/
theorem C111_objective {e : Env K F} {x0 : List K} {fuel : ℕ} {Δ : K} {sl : List K} {s0 : MSt K F}
    (H : Starts e x0 fuel Δ sl s0) (hme : e.me = 0) (hns : e.ns = 0) (obj : List K → K)
    (hobj : ∀ w y q, e.U.f w y = .num (.fin q) → q = obj y) (os : List (Orc K F)) (t : MSt K F)
    (h : mainLoop e os s0 = .running t ∨ mainLoop e os s0 = .done t) :
    obj t.x + 1 / 10 ^ 4 * (gains Regular e os s0).sum ≤ obj x0 := by
  obtain ⟨b, q, h1, h2, h3, h4, h5, h6⟩ := C111_decrease_partial H hme hns os t h
  have hnn : 0 ≤ (gains Regular e os s0).sum := List.sum_nonneg fun p hp => (h6 p (gains_sub e os s0 p hp)).le
  rcases hnn.eq_or_lt with h0 | h0
  · rw [← h0, mul_zero, add_zero]
    rcases C100_objective_partial H hme hns obj hobj os t h with hlt | heq
    · exact hlt.le
    · rw [heq]
  obtain ⟨-, -, -, -, -, -, hr⟩ := C14_interpolation_data H os t h
  obtain ⟨y, w, p, r, a1, -, a3, a4, a5⟩ := hr _ _ h2
  obtain ⟨y', w', p', r', b1, -, b3, b4, b5⟩ := hr _ _ h4
  rw [h1] at a1; rw [h3] at b1
  simp only [Option.some.injEq, Fl.fin.injEq] at a1 b1 a4 b4
  subst a1 b1 a4 b4
  rw [← hobj _ _ _ a3, ← hobj _ _ _ b3]
  have hgap : 0 < 1 / 10 ^ 4 * (gains Regular e os s0).sum := by positivity
  have hbp : b ≤ p := by
    rcases le_or_gt p (10 ^ 25) with hp | hp
    · rw [a5.1 hp]
    · rw [a5.2 hp]; exact hp.le
  have hb25 : b ≤ 10 ^ 25 := by
    rcases le_or_gt p (10 ^ 25) with hp | hp
    · rw [a5.1 hp]; exact hp
    · rw [a5.2 hp]
  rcases le_or_gt p' (10 ^ 25) with hp' | hp'
  · rw [b5.1 hp'] at h5; linarith
  · rw [b5.2 hp'] at h5; linarith

/-- `C111_linear`, `C111_count` and `C111_objective` on the run of `C104` (objective `x^2`, from 3 to 1 and from 1 to 1/2, the set is improved in between). -/
example : ∃ s0 t, Starts (Ex.gEnv Ex.square .pinf) [3] 1 1 [] s0 ∧ mainLoop (Ex.gEnv Ex.square .pinf) Ex.lRun s0 = .running t ∧
    gains Taken (Ex.gEnv Ex.square .pinf) Ex.lRun s0 = [8, 3 / 4] ∧
    (∀ pre o post u, Ex.lRun = pre ++ o :: post → mainLoop (Ex.gEnv Ex.square .pinf) pre s0 = .running u → TrueLagrange (Ex.gEnv Ex.square .pinf) o u ∧
      ∀ v, beforeStep (Ex.gEnv Ex.square .pinf) o u = .cont v → ∀ y ∈ v.set.Y, 0 < (Ex.gEnv Ex.square .pinf).dist y o.xnew) ∧
    (∃ b q : ℚ, t.ev.fX[0]? = some (.fin b) ∧ t.ev.fX[t.ixbest]? = some (.fin q) ∧ 1 / 10 ^ 4 * (8 + 3 / 4) ≤ b - q) ∧
    (∃ b : ℚ, t.ev.fX[0]? = some (.fin b) ∧ (1 : ℚ) ≤ 10 ^ 4 * (b - 0)) ∧
    t.x.sum ^ 2 + 1 / 10 ^ 4 * (8 + 3 / 4) ≤ 3 ^ 2 := by
  have h : ((startState (Ex.gEnv Ex.square .pinf) [3] 1 1 []).bind fun s => match mainLoop (Ex.gEnv Ex.square .pinf) Ex.lRun s with
      | .running t => some (gains Taken (Ex.gEnv Ex.square .pinf) Ex.lRun s, gains Regular (Ex.gEnv Ex.square .pinf) Ex.lRun s, t.ev.fX.all fun v => Fl.le (.fin 0) v)
      | _ => none) = some ([8, 3 / 4], [8, 3 / 4], true) := by decide +kernel
  obtain ⟨s0, H⟩ := Ex.gStarts
  rw [H.state] at h
  simp only [Option.bind_some] at h
  cases hm : mainLoop (Ex.gEnv Ex.square .pinf) Ex.lRun s0 with
  | done t => rw [hm] at h; cases h
  | crash c => rw [hm] at h; cases h
  | running t =>
    rw [hm] at h
    simp only [Option.some.injEq, Prod.mk.injEq, List.all_eq_true] at h
    obtain ⟨hg, hg', hlow⟩ := h
    have far : ∀ (pre : List (Orc ℚ (List (List ℚ)))) (o : Orc ℚ (List (List ℚ))) (u v : MSt ℚ (List (List ℚ))) (a b : ℚ), Ex.lLook pre o = some [[a], [b]] →
        mainLoop (Ex.gEnv Ex.square .pinf) pre s0 = .running u → beforeStep (Ex.gEnv Ex.square .pinf) o u = .cont v → v.set.Y = [[a], [b]] := by
      intro pre o u v a b hl hu hv
      unfold Ex.lLook at hl
      rw [H.state] at hl
      simp only [Option.bind_some, hu, hv, Option.some.injEq] at hl
      exact hl
    have hT : ∀ pre o post u, Ex.lRun = pre ++ o :: post → mainLoop (Ex.gEnv Ex.square .pinf) pre s0 = .running u → TrueLagrange (Ex.gEnv Ex.square .pinf) o u ∧
        ∀ v, beforeStep (Ex.gEnv Ex.square .pinf) o u = .cont v → ∀ y ∈ v.set.Y, 0 < (Ex.gEnv Ex.square .pinf).dist y o.xnew := by
      intro pre o post u h1 h2
      match pre with
      | [] =>
        cases h1
        refine ⟨Ex.lTrue H h2 _ _ _ _ _ (by norm_num) (by decide +kernel), fun v hv y hy => ?_⟩
        rw [far [] _ u v 3 2 (by decide +kernel) h2 hv] at hy
        revert y; decide +kernel
      | [a] =>
        cases h1
        refine ⟨Ex.lTrue H h2 _ _ _ _ _ (by norm_num) (by decide +kernel), fun v hv y hy => ?_⟩
        rw [far _ _ u v 1 (1 + 1 / 10 ^ 5) (by decide +kernel) h2 hv] at hy
        revert y; decide +kernel
      | a :: b :: l =>
        have := congrArg List.length h1
        simp [Ex.lRun] at this
    obtain ⟨b, q, -, b1, -, b2, b3, -⟩ := C111_linear H rfl rfl rfl rfl (by simp only [Ex.gEnv]; norm_num) Ex.lRun hT t (Or.inl hm)
    obtain ⟨b', c1, c2⟩ := C111_count H rfl rfl Ex.lRun t (Or.inl hm) 0 (fun q hq => of_decide_eq_true (hlow _ hq)) 1
    have c3 := C111_objective H rfl rfl (fun x => x.sum ^ 2) (fun w y q hq => by
      have : FOut.num (Fl.fin (y.sum ^ 2)) = .num (.fin q) := hq
      simpa using this.symm) Ex.lRun t (Or.inl hm)
    rw [hg] at b3
    rw [hg'] at c2 c3
    refine ⟨s0, t, H, hm, hg, hT, ⟨b, q, b1, b2, by simpa using b3⟩, ⟨b', c1, ?_⟩, by simpa using c3⟩
    rw [show (([8, 3 / 4] : List ℚ).filter fun p => decide (1 ≤ p)) = [8] by decide +kernel] at c2
    simpa using c2

/-! ### The counterexample -/

namespace Ex

/-- Values 3, 2, `3 - 2e-4` and `3 - 4e-4` at 3, 2, 1 and 0. -/
def zigzag : User (List ℚ) ℚ :=
  ⟨fun _ x => .num (.fin (if x = [0] then 3 - 4 / 10 ^ 4 else if x = [1] then 3 - 2 / 10 ^ 4 else x.sum)), none⟩

/-- From 3 to 1, from 1 to 2 (a point of the set), from 2 to 0; Lagrange values of the sets in use. -/
def zigRun : List (Orc ℚ (List (List ℚ))) := [lOrc 1 1 2 3 2, lOrc 1 2 (1 - 2 / 10 ^ 4) 1 2, lOrc 1 0 2 2 1]

/-- Sets in use at the trial points. -/
def zigSet (k : ℕ) : Option (List (List ℚ)) :=
  (startState (gEnv zigzag .pinf) [3] 1 1 []).bind fun s =>
    match mainLoop (gEnv zigzag .pinf) (zigRun.take k) s, zigRun[k]? with
    | .running u, some o => match beforeStep (gEnv zigzag .pinf) o u with
      | .cont t => some t.set.Y
      | _ => none
    | _, _ => none

end Ex

/-- C111 is false for all steps that are taken.  Linear models, one variable, the Lagrange values are those of the sets in use: the second trial point
is the point 2 of the set.  It is taken, but the step counts as rejected; the third step, which increases the objective from 2 to
`3 - 4e-4`, is compared with the value before the second one and taken as well.  The predicted decreases sum up to `5 - 2e-4`, more than `10^4` times the decrease `4e-4`. -/
theorem C111_false : ∃ s0 t, Starts (Ex.gEnv Ex.zigzag .pinf) [3] 1 1 [] s0 ∧ mainLoop (Ex.gEnv Ex.zigzag .pinf) Ex.zigRun s0 = .running t ∧
    (Ex.zigSet 0 = some [[3], [2]] ∧ Ex.zigSet 1 = some [[1], [2]] ∧ Ex.zigSet 2 = some [[2], [1]]) ∧
    (∀ g x p a b, a ≠ b → GoodValues (Ex.gEnv Ex.zigzag .pinf) (Ex.lOrc g x p a b) [[a], [b]]) ∧
    t.ev.w.logF = [[3], [2], [1], [2], [0]] ∧ t.x = [0] ∧ t.fx = 3 - 4 / 10 ^ 4 ∧
    gains Taken (Ex.gEnv Ex.zigzag .pinf) Ex.zigRun s0 = [2, 1 - 2 / 10 ^ 4, 2] ∧
    gains Regular (Ex.gEnv Ex.zigzag .pinf) Ex.zigRun s0 = [2, 2] ∧
    ¬ 1 / 10 ^ 4 * (gains Taken (Ex.gEnv Ex.zigzag .pinf) Ex.zigRun s0).sum ≤ 3 - t.fx := by
  have h : ((startState (Ex.gEnv Ex.zigzag .pinf) [3] 1 1 []).bind fun s => match mainLoop (Ex.gEnv Ex.zigzag .pinf) Ex.zigRun s with
      | .running t => some ((t.ev.w.logF, t.x, t.fx), (gains Taken (Ex.gEnv Ex.zigzag .pinf) Ex.zigRun s, gains Regular (Ex.gEnv Ex.zigzag .pinf) Ex.zigRun s))
      | _ => none) = some (([[3], [2], [1], [2], [0]], [0], 3 - 4 / 10 ^ 4), ([2, 1 - 2 / 10 ^ 4, 2], [2, 2])) := by decide +kernel
  cases hs : startState (Ex.gEnv Ex.zigzag .pinf) [3] 1 1 [] with
  | none => rw [hs] at h; cases h
  | some s =>
    rw [hs] at h
    simp only [Option.bind_some] at h
    cases hm : mainLoop (Ex.gEnv Ex.zigzag .pinf) Ex.zigRun s with
    | done t => rw [hm] at h; cases h
    | crash c => rw [hm] at h; cases h
    | running t =>
      rw [hm] at h
      simp only [Option.some.injEq, Prod.mk.injEq] at h
      obtain ⟨⟨h1, h2, h3⟩, h4, h5⟩ := h
      refine ⟨s, t, ⟨Ex.gEnv_ok _ _, Ex.gEnv_constr _ _, rfl, one_pos, hs⟩, hm, ⟨by decide +kernel, by decide +kernel, by decide +kernel⟩,
        fun g x p a b hab => Ex.lOrc_values g x p a b hab, h1, h2, h3, h4, h5, ?_⟩
      rw [h3, h4]
      norm_num

#print axioms C111_decrease_partial
#print axioms C111_all
#print axioms C111_linear
#print axioms C111_count
#print axioms C111_infinite
#print axioms C111_objective
#print axioms C111_false

end Sqpdfo
