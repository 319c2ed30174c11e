import Verif.Lemmas.StepDetail
import Verif.Props.C17_C19_Step

/-! # C82-C84: slacks, radius and interpolation set after a step -/

set_option linter.unusedSectionVars false

namespace Sqpdfo
open Spec
variable {K F : Type} [Field K] [LinearOrder K] [IsStrictOrderedRing K]

/-- The stages of a pass that continues. -/
theorem pass_stages {e : Env K F} {x0 : List K} {fuel : ℕ} {Δ : K}
    {sl : List K} {s0 : MSt K F} (H : Starts e x0 fuel Δ sl s0) {os : List (Orc K F)}
    {s : MSt K F} (h : mainLoop e os s0 = .running s) {o : Orc K F} {t : MSt K F}
    (ht : pass e o s = .cont t) :
    ∃ v u w : MSt K F, Inv e [] v ∧ v.sl = s.sl ∧ v.cur = s.cur ∧
      (¬ Improves e o s → v.delta = s.delta ∧ v.set = s.set ∧ v.x = s.x ∧
        v.poisedModel = s.poisedModel ∧ v.epsCur = s.epsCur ∧ v.ixbest = s.ixbest) ∧
      Before e o v u ∧ w.x = v.x ∧ w.sl = v.sl ∧ decideStep e o (stepNorm e o w) u = .cont t ∧
      v.ixbest < u.m ∧ (∀ i ∈ v.set.ind, i < u.m) ∧ t.m = u.m ∧
      StepFrame { u with pred := newPred o u.sigma } t ∧ (Improves e o s → Improvement e o s v) := by
  have hM := H.memory os s h
  obtain ⟨v, u, w, a1, -, -, -, -, -, a7, -, a9, a10, b, wx, wsl, hd⟩ :=
    pass_before e H.ok o s t hM.inv ht
  have hlt : ∀ i ∈ v.set.ind, i < v.m + 1 := by
    intro i hi
    obtain ⟨j, hj, rfl⟩ := List.mem_iff_getElem.1 hi
    obtain ⟨i', y, g, b1, -, -, -, b5⟩ := a1.link j (by rw [← a1.indlen]; exact hj) (by simp)
    rw [List.getElem?_eq_getElem hj] at b1
    simp only [Option.some.injEq] at b1
    rw [b1, ← a1.fXlen]; exact (List.getElem?_eq_some_iff.1 b5).1
  have hfr := (decideStep_outcome e o _ u t b.inv hd).1
  refine ⟨v, u, w, a1, a7, a9, fun hn => ?_, b, wx, wsl, hd, ?_, ?_, hfr.m, hfr, fun hi => ?_⟩
  · rcases a10 with ⟨-, -, -, c1, -, c3, c4, c5, -, -, -, -, c8, c9⟩ | ⟨c, -⟩
    · exact ⟨c4, c5, c1, c8, c9, c3⟩
    · exact absurd c hn
  · rw [b.m]; exact hlt _ (List.mem_of_getElem? a1.ind0)
  · rw [b.m]; exact hlt
  · rcases a10 with ⟨c0, c1, c2, -⟩ | ⟨-, -, -, c⟩
    · exact (hi.elim c0 (fun hi => hi.elim (not_lt.2 c2) c1)).elim
    · exact c

/-! ### C82 -/

/-- **C82.** Slacks.  A step that does not make the trial point the iterate keeps the slacks.  A step
that does takes the trial slacks, except that a slack which is zero although the value of its
inequality at the new iterate exceeds 0.01 is set to the square root of this value. -/
theorem C82_slacks {e : Env K F} {x0 : List K} {fuel : ℕ} {Δ : K}
    {sl : List K} {s0 : MSt K F} (H : Starts e x0 fuel Δ sl s0) (os : List (Orc K F))
    (s : MSt K F) (h : mainLoop e os s0 = .running s) (o : Orc K F) (t : MSt K F)
    (ht : pass e o s = .cont t) :
    (t.ixbest ≠ t.m → t.sl = s.sl) ∧
      (t.ixbest = t.m → (e.me = 0 ∨ e.ns = 0 → t.sl = s.sl) ∧
        (0 < e.me → 0 < e.ns → t.infoCe.length = e.me ∧ e.ns ≤ e.me ∧ o.slplus.length = e.ns ∧
          t.sl.length = e.ns ∧
          (t.ev.ceX[t.ixbest]? = some (t.infoCe.map Fl.fin) ∨
            ∀ col ∈ t.ev.ceX, ∀ q, Fl.fin q ∈ col → q = 0) ∧
          ∀ i a c, o.slplus[i]? = some a → t.infoCe[e.me - e.ns + i]? = some c →
            ∃ a', t.sl[i]? = some a' ∧ SlackMoved e.sqrt a c a')) := by
  obtain ⟨v, u, w, vi, vsl, vcur, -, b, -, -, hd, hix, -, hm, hfr, -⟩ := pass_stages H h ht
  by_cases hp : t.pred = -1
  · have := decideStep_null b.inv hd hp
    have h1 : t.ixbest = v.ixbest := by rw [this]; exact b.ixbest
    have h2 : t.sl = s.sl := by rw [this]; exact b.sl.trans vsl
    exact ⟨fun _ => h2, fun h0 => by rw [h1, hm] at h0; omega⟩
  obtain ⟨f, -, hc⟩ := decideStep_detail b.inv hd hp
  have keep : Keeps u t → (t.ixbest ≠ t.m → t.sl = s.sl) ∧ ¬ t.ixbest = t.m := by
    intro k
    refine ⟨fun _ => k.sl.trans (b.sl.trans vsl), fun h0 => ?_⟩
    rw [k.ixbest, b.ixbest, hm] at h0; omega
  rcases hc with ⟨a, -⟩ | ⟨k, -⟩ | ⟨k, -⟩
  · have hA : t.ixbest = t.m := by rw [a.ixbest, hm]
    refine ⟨fun h0 => absurd hA h0, fun _ => ⟨fun h0 => ?_, fun h1 h2 => ?_⟩⟩
    · rw [a.sl, if_neg (by omega)]; exact b.sl.trans vsl
    · have e1 : t.infoCe = u.ceplus := by rw [a.infoCe, if_pos h1]
      have e2 := a.ceplus h1
      obtain ⟨-, f', c', -, hc, -⟩ := decideStep_outcome e o _ u t b.inv hd
      obtain ⟨r, hr, -⟩ := resNorm_residual hc
      obtain ⟨s1, s2⟩ := hr.shape h2
      rw [e2] at s2
      refine ⟨by rw [e1, e2], s2, s1, ?_, ?_, fun i x c hx hc => ?_⟩
      · rw [a.sl, if_pos ⟨h1, h2⟩, e1]
        unfold moveSl
        rw [List.length_zipWith, List.length_drop, s1, e2]; omega
      · rw [hfr.ceX, hA, hm, e1]
        rcases b.plus with hp | hp
        · exact Or.inl hp
        · exact Or.inr hp.2
      · rw [a.sl, if_pos ⟨h1, h2⟩]
        exact moveSl_moved e _ _ i x c hx hc
  · exact ⟨(keep k).1, fun h0 => absurd h0 (keep k).2⟩
  · exact ⟨(keep k).1, fun h0 => absurd h0 (keep k).2⟩

/-- Moving slacks never makes a constraint residual larger, and afterwards no slack is zero while its
inequality exceeds 0.01 (where `sqrt` is a square root for the values above 0.01). -/
theorem C82_residual {e : Env K F} {x0 : List K} {fuel : ℕ} {Δ : K}
    {sl : List K} {s0 : MSt K F} (H : Starts e x0 fuel Δ sl s0) (os : List (Orc K F))
    (s : MSt K F) (h : mainLoop e os s0 = .running s) (o : Orc K F) (t : MSt K F)
    (ht : pass e o s = .cont t) (hacc : t.ixbest = t.m) (hme : 0 < e.me) (hns : 0 < e.ns)
    (hsq : ∀ c ∈ t.infoCe, 1 / 100 < c → e.sqrt c ^ 2 = c) (r r' : List K)
    (hr : Residual e.ns t.infoCe o.slplus r) (hr' : Residual e.ns t.infoCe t.sl r') :
    (∀ (i : ℕ) (a b : K), r[i]? = some a → r'[i]? = some b → |b| ≤ |a|) ∧
      ∀ i a c, t.sl[i]? = some a → t.infoCe[e.me - e.ns + i]? = some c → 1 / 100 < c → a ≠ 0 := by
  obtain ⟨h1, h2, h3, h4, -, h5⟩ := ((C82_slacks H os s h o t ht).2 hacc).2 hme hns
  constructor
  · intro i a b ha hb
    have hi : i < e.me := by
      rw [← h1, ← hr.length]; exact (List.getElem?_eq_some_iff.1 ha).1
    by_cases hn : i + e.ns < e.me
    · rw [hr.equations i (by rw [h1]; exact hn)] at ha
      rw [hr'.equations i (by rw [h1]; exact hn), ha] at hb
      simp only [Option.some.injEq] at hb
      rw [hb]
    · obtain ⟨j, rfl⟩ : ∃ j, i = e.me - e.ns + j := ⟨i - (e.me - e.ns), by omega⟩
      have hj : j < e.ns := by omega
      obtain ⟨c, hc⟩ : ∃ c, t.infoCe[e.me - e.ns + j]? = some c :=
        ⟨_, List.getElem?_eq_getElem (by omega)⟩
      obtain ⟨x, hs⟩ : ∃ x, o.slplus[j]? = some x := ⟨_, List.getElem?_eq_getElem (by omega)⟩
      obtain ⟨a', k1, k2, k3⟩ := h5 j x c hs hc
      have q1 := hr.slacks j _ _ (by rw [h1]; exact hc) hs
      have q2 := hr'.slacks j _ _ (by rw [h1]; exact hc) k1
      rw [h1, ha] at q1
      rw [h1, hb] at q2
      simp only [Option.some.injEq] at q1 q2
      rw [q1, q2]
      by_cases hz : x = 0 ∧ 1 / 100 < c
      · rw [k2 hz.1 hz.2, hsq _ (List.mem_of_getElem? hc) hz.2, sub_self, abs_zero]
        exact abs_nonneg _
      · rw [k3 hz]
  · intro i a c ha hc hlt h0
    have hi : i < o.slplus.length := by
      rw [h3, ← h4]; exact (List.getElem?_eq_some_iff.1 ha).1
    obtain ⟨a', k1, k2, k3⟩ := h5 i _ c (List.getElem?_eq_getElem hi) hc
    rw [ha] at k1
    simp only [Option.some.injEq] at k1
    by_cases hz : o.slplus[i] = 0 ∧ 1 / 100 < c
    · have := hsq c (List.mem_of_getElem? hc) hlt
      rw [← k2 hz.1 hz.2, ← k1, h0] at this
      norm_num at this
      linarith
    · have := k3 hz
      rw [← k1, h0] at this
      exact hz ⟨this.symm, hlt⟩

/-! ### C83 -/

/-- Factor for an interpolated value `g` (possibly infinite or not a number). -/
theorem redDelta_factor (g : Fl K) (delta norms : K) :
    (∀ q, g = .fin q → redDelta g delta norms = max (1 / 100) (min q (1 / 2)) * min delta norms) ∧
      (g = .nan ∨ g = .pinf → redDelta g delta norms = 1 / 2 * min delta norms) ∧
      (g = .ninf → redDelta g delta norms = 1 / 100 * min delta norms) := by
  have key : ∀ q : K, Fl.fmin g (.fin cGamma2) = .fin q →
      redDelta g delta norms = max (1 / 100) q * min delta norms := by
    intro q hq
    simp only [redDelta, hq, fmax_fin]
    rfl
  have h2 : max (1 / 100 : K) (1 / 2) = 1 / 2 := max_eq_right (by norm_num)
  refine ⟨?_, ?_, ?_⟩
  · rintro q rfl
    exact key _ (by rw [fmin_fin]; rfl)
  · rintro (rfl | rfl)
    · rw [key (1 / 2) rfl, h2]
    · rw [key (1 / 2) rfl, h2]
  · rintro rfl
    rfl

/-- **C83.** The radius.  `d` is the radius used for the step (the one before the pass, or the one
after an improvement of the set), `norms` the norm of the step.  After a step that leaves the set as it is, the radius is
`k min(d, norms)`, where `k` is the point, cut to `[0.01, 0.5]`, at which the parabola
through the function values has changed by 0.9 of the predicted change; if there is no such point,
`k` is 0.5 (slope zero or negative) or 0.01 (slope positive).  After a rejected step
that changes the set it is halved, unless it is at most `1e-5`.  After a successful step it
is at most `max(5 d, 2 norms)`, at most `max(2 d, 2 norms)` from `d = 5` on, and at
most `max(d, 2 norms)` and `1e5` if the step did not reach the boundary. -/
theorem C83_radius {e : Env K F} {x0 : List K} {fuel : ℕ} {Δ : K}
    {sl : List K} {s0 : MSt K F} (H : Starts e x0 fuel Δ sl s0) (os : List (Orc K F))
    (s : MSt K F) (h : mainLoop e os s0 = .running s) (o : Orc K F) (t : MSt K F)
    (ht : pass e o s = .cont t) (hp : t.pred ≠ -1) :
    ∃ (d norms f : K) (x sl' : List K), (¬ Improves e o s → d = s.delta ∧ x = s.x ∧ sl' = s.sl) ∧
      (Improves e o s → RadiusAfter (s.pred = -1) o.k1.glagn s.delta t.epsCur d) ∧
      t.ev.fX[t.m]? = some (.fin f) ∧
      norms = (if e.ns > 0 then e.nrm (List.zipWith (· - ·) o.xnew x ++
              List.zipWith (· - ·) o.slplus sl') else e.nrm (List.zipWith (· - ·) o.xnew x)) ∧
      (t.m ∉ t.set.ind → ∃ k, t.delta = k * min d norms ∧
        (∀ g, (∀ g', Interpolates t.fx f o.gTs t.pred g' ↔ g' = g) →
          k = max (1 / 100) (min g (1 / 2))) ∧
        ((¬ ∃! g, Interpolates t.fx f o.gTs t.pred g) → (o.gTs ≤ 0 → k = 1 / 2) ∧
          (0 < o.gTs → k = 1 / 100))) ∧
      (t.m ∈ t.set.ind → t.ixbest ≠ t.m → (1 / 10 ^ 5 < d → t.delta = 1 / 2 * d) ∧
        (d ≤ 1 / 10 ^ 5 → t.delta = d)) ∧
      (t.ixbest = t.m → t.delta ≤ max (5 * d) (2 * norms) ∧
        (5 ≤ d → t.delta ≤ max (2 * d) (2 * norms)) ∧
        (o.active = false → t.delta ≤ max d (2 * norms) ∧ t.delta ≤ 10 ^ 5)) := by
  obtain ⟨v, u, w, vi, vsl, vcur, vn, b, wx, wsl, hd, hix, hind, hm, hfr, himp⟩ := pass_stages H h ht
  obtain ⟨f, hf, hc⟩ := decideStep_detail b.inv hd hp
  have hst := (decideStep_outcome e o _ u t b.inv hd).2
  refine ⟨u.delta, stepNorm e o w, f, v.x, v.sl, fun hn => ?_, fun hi => ?_, ?_, ?_, ?_, ?_, ?_⟩
  · obtain ⟨n1, n2, n3, -⟩ := vn hn
    exact ⟨by rw [b.delta, n1], n3, vsl⟩
  · rw [(decideStep_poisedFlag b.inv hd).1, b.epsCur, b.delta]
    exact (himp hi).delta
  · rw [hfr.fX, hm]; exact hf
  · unfold stepNorm; rw [wx, wsl]
  · intro hnot
    have hnot' : u.m ∉ t.set.ind := by rw [← hm]; exact hnot
    rcases hc with ⟨a, g | g⟩ | ⟨k, -, g | g⟩ | ⟨k, -, -, -, kd, -⟩
    · exact absurd g.2.2.new.2 hnot'
    · obtain ⟨-, -, pos, g3, -⟩ := g; exact absurd g3.new.2 hnot'
    · exact absurd g.2.2.new.2 hnot'
    · obtain ⟨-, -, -, pos, -, g2, g3⟩ := g
      have hlt : pos < u.cur := by
        rcases g3 with g3 | g3
        · exact g3.lt
        · exact g3.2.lt
      rw [g2] at hnot'
      exact absurd (List.mem_set (by rw [b.inv.indlen]; exact hlt) _) hnot'
    have hfx : t.fx = u.fx := by
      obtain ⟨f', c', -, -, out⟩ := hst
      rcases out with ⟨-, o1, -⟩ | ⟨-, -, o1⟩ | ⟨-, -, o1⟩ | ⟨-, o1⟩
      · exact o1.2.1
      · have := o1.1
        rw [k.ixbest, b.ixbest] at this; omega
      · exact o1.1.2.1
      · exact o1.1.2.1
    rw [hfx]
    have hint : ∀ g, Interpolates u.fx f o.gTs t.pred g ↔
        g * (f - u.fx - o.gTs - 9 / 10 * (- t.pred - o.gTs)) = (9 / 10 - 1) * o.gTs := by
      intro g
      unfold Interpolates
      constructor <;> intro h0 <;> linarith
    unfold gamInter at kd
    simp only [show (cEta2 : K) = 9 / 10 from rfl] at kd
    by_cases hden : f - u.fx - o.gTs - 9 / 10 * (- t.pred - o.gTs) = 0
    · rw [if_pos hden] at kd
      have hno : ∀ g, ¬ ∀ g', Interpolates u.fx f o.gTs t.pred g' ↔ g' = g := by
        intro g hg
        have h1 := (hg g).2 rfl
        have h2 : Interpolates u.fx f o.gTs t.pred (g + 1) := by
          rw [hint] at h1 ⊢
          rw [hden] at h1 ⊢
          linarith
        have := (hg _).1 h2
        linarith
      by_cases hnum : (9 / 10 - 1) * o.gTs = 0
      · rw [if_pos hnum] at kd
        have h0 : o.gTs = 0 := by linarith
        refine ⟨1 / 2, by rw [kd]; exact (redDelta_factor _ _ _).2.1 (Or.inl rfl),
          fun g hg => absurd hg (hno g), fun _ => ⟨fun _ => rfl, fun h1 => by linarith⟩⟩
      · rw [if_neg hnum] at kd
        by_cases hs : (9 / 10 - 1) * o.gTs > 0
        · rw [if_pos hs] at kd
          refine ⟨1 / 2, by rw [kd]; exact (redDelta_factor _ _ _).2.1 (Or.inr rfl),
            fun g hg => absurd hg (hno g), fun _ => ⟨fun _ => rfl, fun h1 => by linarith⟩⟩
        · rw [if_neg hs] at kd
          refine ⟨1 / 100, by rw [kd]; exact (redDelta_factor _ _ _).2.2 rfl,
            fun g hg => absurd hg (hno g), fun _ => ⟨fun h1 => ?_, fun _ => rfl⟩⟩
          exact absurd (le_antisymm (not_lt.1 hs) (by linarith)) hnum
    · rw [if_neg hden] at kd
      have hq : ∀ g, Interpolates u.fx f o.gTs t.pred g ↔ g = (9 / 10 - 1) * o.gTs /
          (f - u.fx - o.gTs - 9 / 10 * (- t.pred - o.gTs)) := by
        intro g
        rw [hint, eq_div_iff hden]
      refine ⟨_, by rw [kd]; exact (redDelta_factor _ _ _).1 _ rfl, fun g hg => ?_, fun hn => ?_⟩
      · have := (hg _).1 ((hq _).2 rfl)
        rw [this]
      · exact absurd ⟨_, (hq _).2 rfl, fun g hg => (hq g).1 hg⟩ hn
  · intro hin hne
    rcases hc with ⟨a, -⟩ | ⟨k, kd, -⟩ | ⟨k, -, -, ks, -⟩
    · exact absurd (by rw [a.ixbest, hm]) hne
    · rw [kd]
      refine ⟨fun h0 => if_pos h0, fun h0 => if_neg (not_lt.2 h0)⟩
    · rw [ks, b.set, hm] at hin
      exact absurd (hind _ hin) (lt_irrefl _)
  · intro hacc
    have keep : ¬ Keeps u t := by
      intro k
      have := k.ixbest
      rw [hacc, b.ixbest, hm] at this; omega
    rcases hc with ⟨a, -⟩ | ⟨k, -⟩ | ⟨k, -⟩
    swap
    · exact absurd k keep
    swap
    · exact absurd k keep
    have hd0 := b.inv.delta
    have key : ∀ x : K, x = min (max (2 * stepNorm e o w) u.delta) cDeltamax →
        x ≤ max (5 * u.delta) (2 * stepNorm e o w) ∧
        (5 ≤ u.delta → x ≤ max (2 * u.delta) (2 * stepNorm e o w)) ∧
        (o.active = false → x ≤ max u.delta (2 * stepNorm e o w) ∧ x ≤ 10 ^ 5) := by
      rintro x rfl
      have h1 : min (max (2 * stepNorm e o w) u.delta) cDeltamax ≤ max (2 * stepNorm e o w) u.delta :=
        min_le_left _ _
      rw [max_comm (2 * stepNorm e o w)] at h1 ⊢
      refine ⟨h1.trans (max_le_max (by linarith) (le_refl _)),
        fun _ => h1.trans (max_le_max (by linarith) (le_refl _)), fun _ => ⟨h1, min_le_right _ _⟩⟩
    rcases a.delta with ⟨rho, hrho, a1⟩ | a1
    · unfold succDelta at a1
      split at a1
      · split at a1
        · rename_i hact
          refine ⟨by rw [a1]; exact le_max_of_le_left (by linarith), fun h5 => absurd hact.2 (not_lt.2 h5),
            fun hf => by rw [hf] at hact; exact absurd hact.1 (by decide)⟩
        · exact key _ a1
      · split at a1
        · rename_i hact
          refine ⟨by rw [a1]; exact le_max_of_le_left (by linarith),
            fun h5 => by rw [a1]; exact le_max_of_le_left (by linarith),
            fun hf => by rw [hf] at hact; exact absurd hact (by decide)⟩
        · exact key _ a1
    · exact key _ a1

/-! ### C84 -/

/-- **C84.** The interpolation set after a step with predicted reduction.  `Y`, `ind`: points and their
numbers before the decision (before the pass, unless the set was improved; then they are old points or points evaluated in this pass), `d` the radius, `z` the
iterate, `D y j` the distance of the `j`-th point from `y`.  As long as the set may grow, the
trial point is added.  In a full set, an accepted point takes the place of the farthest one (from the new
iterate) with Lagrange value above `1e-10`; if there is none, of a far or close one.  A rejected
point may replace a far or close point (never the iterate) if the model is not known to be poised or
the radius is small; otherwise, or if no point can be replaced, the set is left as it is. -/
theorem C84_set {e : Env K F} {x0 : List K} {fuel : ℕ} {Δ : K}
    {sl : List K} {s0 : MSt K F} (H : Starts e x0 fuel Δ sl s0) (os : List (Orc K F))
    (s : MSt K F) (h : mainLoop e os s0 = .running s) (o : Orc K F) (t : MSt K F)
    (ht : pass e o s = .cont t) (hp : t.pred ≠ -1) :
    ∃ (Y : List (List K)) (ind : List ℕ) (d eps : K) (pm : Bool) (z : List K) (D : List K → ℕ → K),
      (¬ Improves e o s → Y = s.set.Y ∧ ind = s.set.ind ∧ d = s.delta ∧ eps = s.epsCur ∧
        pm = s.poisedModel ∧ z = s.x) ∧
      (Improves e o s → EpsAfter (s.pred = -1) (e.tolFeas < o.k1.feasn) s.delta s.epsCur eps ∧
        RadiusAfter (s.pred = -1) o.k1.glagn s.delta eps d ∧ (pm = true ↔ t.m = s.m + 1) ∧
        ind.length = s.cur ∧ Y.length = s.cur ∧ ∀ (j i : ℕ), ind[j]? = some i →
          t.ev.X[i]? = Y[j]? ∧ (i ∈ s.set.ind ∨ s.m < i ∧ i < t.m)) ∧
      Y[0]? = some z ∧ (∀ y j p, Y[j]? = some p → D y j = e.nrm (List.zipWith (· - ·) p y)) ∧
      (s.cur < e.pfinal ∨ e.regression = true ∧ s.cur < e.pfinal + e.pfinal →
        t.cur = s.cur + 1 ∧ Joins t.m o.xnew Y t.set.Y ind t.set.ind) ∧
      (¬ (s.cur < e.pfinal ∨ e.regression = true ∧ s.cur < e.pfinal + e.pfinal) → t.cur = s.cur ∧
        (t.ixbest = t.m → ∃ pos, TakesPlace pos t.m o.xnew Y t.set.Y ind t.set.ind ∧
          (Chosen (fun _ => True) (1 / 10 ^ 10) o.lval1 (D o.xnew) s.cur pos ∨
            (∀ j, j < s.cur → 1 / 10 ^ 10 < |o.lval1 j| → D o.xnew j ≤ 0) ∧ (pm = false ∨ d ≤ eps) ∧
              FarOrClose (fun _ => True) ((1 + 1 / 10 ^ 4) * d) (1 / 10 ^ 15) (D o.xnew) o.lval2
                (fun j => D o.xnew j ^ 2 * |o.lval2 j|) o.lval3 s.cur pos)) ∧
        (t.ixbest ≠ t.m → t.m ∈ t.set.ind → (pm = false ∨ d ≤ eps) ∧ ∃ pos,
          t.set.Y = Y.set pos o.xnew ∧ t.set.ind = ind.set pos t.m ∧
          FarOrClose (fun j => 0 < j) ((1 + 1 / 10 ^ 4) * d) (6 / 5) (D z) o.lval2 (D z) o.lval3
            s.cur pos) ∧
        (t.m ∉ t.set.ind → t.set.Y = Y ∧ t.set.ind = ind ∧ (pm = false ∨ d ≤ eps →
          NothingToReplace (fun _ => True) ((1 + 1 / 10 ^ 4) * d) (1 / 10 ^ 15) (D o.xnew) o.lval2
              o.lval3 s.cur ∨
            NothingToReplace (fun j => 0 < j) ((1 + 1 / 10 ^ 4) * d) (6 / 5) (D z) o.lval2 o.lval3
              s.cur))) := by
  obtain ⟨v, u, w, vi, vsl, vcur, vn, b, wx, wsl, hd, hix, hind, hm, hfr, himp⟩ := pass_stages H h ht
  obtain ⟨f, hf, hc⟩ := decideStep_detail b.inv hd hp
  have hcur : u.cur = s.cur := b.cur.trans vcur
  refine ⟨u.set.Y, u.set.ind, u.delta, u.epsCur, u.poisedModel, u.x, setDist e u, fun hn => ?_,
    fun hi => ?_, b.inv.Y0, fun y j p hj => ?_, fun hg => ?_, fun hg => ?_⟩
  · obtain ⟨n1, n2, n3, n4, n5, -⟩ := vn hn
    exact ⟨by rw [b.set, n2], by rw [b.set, n2], by rw [b.delta, n1], by rw [b.epsCur, n5],
      by rw [b.poisedModel, n4], by rw [b.x, n3]⟩
  · have hI := himp hi
    refine ⟨by rw [b.epsCur]; exact hI.eps, by rw [b.epsCur, b.delta]; exact hI.delta, ?_, by rw [b.inv.indlen, hcur],
      by rw [b.inv.Ylen, hcur], fun j i hj => ⟨?_, ?_⟩⟩
    · rw [b.poisedModel, hI.flag, hm, b.m]; omega
    · have hlt : j < u.cur := by rw [← b.inv.indlen]; exact (List.getElem?_eq_some_iff.1 hj).1
      obtain ⟨i', y, g, b1, b2, -, b4, -⟩ := b.inv.link j hlt (by simp)
      rw [hj] at b1
      cases b1
      rw [b2, hfr.X]
      exact b4
    · have hmem := List.mem_of_getElem? hj
      have := hind i (by rw [← b.set]; exact hmem)
      rw [b.set] at hmem
      rcases hI.ind i hmem with h0 | h0
      · exact Or.inl h0
      · exact Or.inr ⟨h0, by omega⟩
  · unfold setDist Env.dist
    rw [List.getD_eq_getElem?_getD, hj]; rfl
  · have hg' : growable e u.cur := by rw [hcur]; exact hg
    rw [hm, ← hcur]
    rcases hc with ⟨a, g | g⟩ | ⟨k, -, g | g⟩ | ⟨k, g, -⟩
    · exact g.2
    · exact absurd hg' g.1
    · exact g.2
    · exact absurd hg' g.1
    · exact absurd hg' g
  · have hg' : ¬ growable e u.cur := by rw [hcur]; exact hg
    have keep : Keeps u t → t.ixbest ≠ u.m := by
      intro k h0
      rw [k.ixbest, b.ixbest] at h0; omega
    rw [hm, ← hcur]
    rcases hc with ⟨a, g | g⟩ | ⟨k, -, g | g⟩ | ⟨k, g, kc, ks, -, kn⟩
    · exact absurd g.1 hg'
    · obtain ⟨-, gc, pos, g3, g4⟩ := g
      refine ⟨gc, fun _ => ⟨pos, g3, g4⟩, fun h0 => absurd a.ixbest h0, fun h0 => ?_⟩
      exact absurd g3.new.2 h0
    · exact absurd g.1 hg'
    · obtain ⟨-, gc, gg, pos, g1, g2, g3⟩ := g
      have hlt : pos < u.cur := by
        rcases g3 with g3 | g3
        · exact g3.lt
        · exact g3.2.lt
      refine ⟨gc, fun h0 => absurd h0 (keep k), fun _ _ => ⟨gg, pos, g1, g2, g3⟩, fun h0 => ?_⟩
      rw [g2] at h0
      exact absurd (List.mem_set (by rw [b.inv.indlen]; exact hlt) _) h0
    · refine ⟨kc, fun h0 => absurd h0 (keep k), fun _ h0 => ?_, fun _ => ⟨by rw [ks], by rw [ks],
        fun h0 => ?_⟩⟩
      · rw [ks, b.set] at h0
        exact absurd (hind _ h0) (lt_irrefl _)
      · obtain ⟨good, n | n⟩ := kn h0
        · exact Or.inl n.2
        · exact Or.inr n.2

/-! ### Concrete cases -/

open Ex

/-- One variable, one inequality `c(x) = 4 ≥ 0`, hence one slack. -/
def Ex.slackEnv : Env ℚ Unit :=
  { env ⟨fun _ x => .num (.fin (-x.sum)), some fun _ _ => .nums [.fin 4]⟩ (.fin 10) (.fin 100) with
    me := 1, ns := 1, sqrt := fun c => if c = 4 then 2 else 0 }

/-- Run with one slack, started at zero. -/
def Ex.slackLook (o : Orc ℚ Unit) (p : MSt ℚ Unit → MSt ℚ Unit → Bool) : Bool :=
  match startState slackEnv [0] 1 1 [0] with
  | none => false
  | some s => match pass slackEnv o s with
    | .cont t => p s t
    | _ => false

theorem Ex.slackLook_spec {o : Orc ℚ Unit} {p : MSt ℚ Unit → MSt ℚ Unit → Bool} (h : slackLook o p = true) :
    ∃ s, Starts slackEnv [0] 1 1 [0] s ∧ mainLoop slackEnv [] s = .running s ∧
      ∃ t, pass slackEnv o s = .cont t ∧ p s t = true := by
  unfold slackLook at h
  split at h
  · cases h
  · rename_i s hs
    split at h
    · rename_i t ht
      refine ⟨s, ⟨⟨nrm1_nonneg, descOrder_sorted⟩, ⟨fun h => (by cases h), fun c hc w y vs hv => ?_⟩, rfl,
        one_pos, hs⟩, rfl, t, ht, h⟩
      have : c = fun _ _ => .nums [.fin 4] := by
        have := Option.some.inj hc
        exact this.symm
      subst this
      cases hv
      rfl
    · cases h

/-- C82: the trial slack is zero, the inequality has the value 4: the slack becomes 2 and the residual
zero. -/
example : ∃ s, Starts slackEnv [0] 1 1 [0] s ∧ mainLoop slackEnv [] s = .running s ∧
    ∃ t, pass slackEnv { orc [3] 1 with slplus := [0] } s = .cont t ∧ t.ixbest = t.m ∧
      t.sl = [2] ∧ t.infoCe = [4] ∧
      (∀ c ∈ t.infoCe, 1 / 100 < c → slackEnv.sqrt c ^ 2 = c) ∧
      Residual 1 t.infoCe [0] [4] ∧ Residual 1 t.infoCe t.sl [0] := by
  obtain ⟨s, h1, h2, t, ht, h⟩ := slackLook_spec (o := { orc [3] 1 with slplus := [0] })
    (p := fun _ t => decide (t.ixbest = t.m ∧ t.sl = [2] ∧ t.infoCe = [4])) (by decide +kernel)
  simp only [decide_eq_true_eq] at h
  obtain ⟨a, b, c⟩ := h
  refine ⟨s, h1, h2, t, ht, a, b, c, ?_, ?_, ?_⟩
  · rw [c]
    intro c hc _
    simp only [List.mem_singleton] at hc
    subst hc
    norm_num [slackEnv]
  · rw [c]
    refine ⟨rfl, fun _ => ⟨rfl, le_refl _⟩, fun i h => ?_, fun i c s hc hs => ?_⟩
    · simp only [List.length_singleton] at h; omega
    · cases i with
      | zero => simp at hc hs; subst hc; subst hs; norm_num
      | succ i => simp at hc
  · rw [c, b]
    refine ⟨rfl, fun _ => ⟨rfl, le_refl _⟩, fun i h => ?_, fun i c s hc hs => ?_⟩
    · simp only [List.length_singleton] at h; omega
    · cases i with
      | zero => simp at hc hs; subst hc; subst hs; norm_num
      | succ i => simp at hc

/-- C82: a rejected step keeps the slack. -/
example : ∃ s, Starts slackEnv [0] 1 1 [0] s ∧ mainLoop slackEnv [] s = .running s ∧
    ∃ t, pass slackEnv { orc [-1] 1 with slplus := [1] } s = .cont t ∧ t.ixbest ≠ t.m ∧
      t.sl = [0] := by
  obtain ⟨s, h1, h2, t, ht, h⟩ := slackLook_spec (o := { orc [-1] 1 with slplus := [1] })
    (p := fun _ t => decide (t.ixbest ≠ t.m ∧ t.sl = [0])) (by decide +kernel)
  exact ⟨s, h1, h2, t, ht, by simpa using h⟩

/-- C83: slope -1, predicted reduction 1, the function value increases by 1: the factor is 1/20. -/
example : ∃ s0, Starts (env down (.fin 10) (.fin 100)) [0] 1 1 [] s0 ∧
    ∃ s, mainLoop (env down (.fin 10) (.fin 100)) [] s0 = .running s ∧
      ∃ t, pass (env down (.fin 10) (.fin 100)) (orc [-1] 1) s = .cont t ∧
        t.pred ≠ -1 ∧ t.m ∉ t.set.ind ∧ t.delta = 1 / 20 * min s.delta 1 ∧
        ∀ g, Interpolates t.fx 1 (-1) t.pred g ↔ g = 1 / 20 := by
  obtain ⟨s0, h0, s, hs, t, ht, h⟩ := look_running (env down (.fin 10) (.fin 100)) [0]
    [] (orc [-1] 1)
    (fun s t => decide (t.pred ≠ -1 ∧ t.m ∉ t.set.ind ∧ t.delta = 1 / 20 * min s.delta 1 ∧ t.fx = 0 ∧
      t.pred = 1)) (by decide +kernel)
  simp only [decide_eq_true_eq] at h
  obtain ⟨a, b, c, d, f⟩ := h
  refine ⟨s0, Ex.starts rfl h0, s, hs, t, ht, a, b, c, fun g => ?_⟩
  rw [d, f]
  unfold Interpolates
  constructor <;> intro h <;> linarith

/-- C83, C84: an accepted step: the radius becomes twice the length of the step, and the trial point
replaces the other point of the full set. -/
example : ∃ s0, Starts (env down (.fin 10) (.fin 100)) [0] 1 1 [] s0 ∧
    ∃ s, mainLoop (env down (.fin 10) (.fin 100)) [] s0 = .running s ∧
      ∃ t, pass (env down (.fin 10) (.fin 100)) (orc [3] 1) s = .cont t ∧
        t.pred ≠ -1 ∧ t.ixbest = t.m ∧ s.delta < t.delta ∧ t.delta = 6 ∧ t.cur = 2 ∧
        s.set.Y = [[0], [-1]] ∧ t.set.Y = [[3], [0]] := by
  obtain ⟨s0, h0, s, hs, t, ht, h⟩ := look_running (env down (.fin 10) (.fin 100)) [0]
    [] (orc [3] 1)
    (fun s t => decide (t.pred ≠ -1 ∧ t.ixbest = t.m ∧ s.delta < t.delta ∧ t.delta = 6 ∧ t.cur = 2 ∧
        s.set.Y = [[0], [-1]] ∧ t.set.Y = [[3], [0]])) (by decide +kernel)
  exact ⟨s0, Ex.starts rfl h0, s, hs, t, ht, by simpa using h⟩

#print axioms C82_slacks
#print axioms C82_residual
#print axioms C83_radius
#print axioms C84_set

end Sqpdfo
