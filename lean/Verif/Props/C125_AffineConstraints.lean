import Verif.Lemmas.MainCe
import Verif.Props.C114_Merit
import Verif.Props.C115_Forward

/-! # C125: affine objective and affine constraints -/

set_option linter.unusedSectionVars false

namespace Sqpdfo
open Spec Matrix
variable {K F : Type} [Field K] [LinearOrder K] [IsStrictOrderedRing K]

/-- The values of `m` affine functions. -/
def Spec.affines {n m : ℕ} (b : Fin m → K) (A : Fin m → Fin n → K) (y : List K) : List K := List.ofFn fun j => affine (b j) (A j) y

/-- The models find the gradients of affine constraints from their values at points that determine them. -/
def Spec.ExactJacobian (e : Env K F) : Prop :=
  ∀ (Y : List (List K)) (x fY : List K) (ceY : List (List K)) (b : Fin e.me → K) (A : Fin e.me → Fin e.n → K), Fixes e.n Y → Y.length = e.n + 1 →
    Y[0]? = some x → (∀ (j : ℕ) (y : List K), Y[j]? = some y → ceY[j]? = some (affines b A y)) →
    ∀ (j : Fin e.me) (i : Fin e.n), ((e.model (e.build Y) x fY ceY).a.getD j []).getD i 0 = A j i

/-- The constraint values that the models of the state `v` promise at `y`. -/
def Spec.linearised (e : Env K F) (v : MSt K F) (y : List K) : List K :=
  List.ofFn fun j : Fin e.me => v.infoCe.getD j 0 + along e.n (v.infoG.a.getD j []) v.x y

theorem affines_linearised {e : Env K F} {v : MSt K F} {b : Fin e.me → K} {A : Fin e.me → Fin e.n → K} (hc : v.infoCe = affines b A v.x)
    (ha : ∀ (j : Fin e.me) (i : Fin e.n), (v.infoG.a.getD j []).getD i 0 = A j i) (y : List K) : linearised e v y = affines b A y := by
  unfold linearised affines
  refine congrArg List.ofFn (funext fun j => ?_)
  rw [affine_along (b j) (A j) _ v.x y (ha j), hc]
  congr 1
  simp [affines, List.getD_eq_getElem?_getD]

theorem beforeStep_ce {e : Env K F} (he : e.Ok) (hC : e.Constr) (hT : e.Tame) {o : Orc K F} {s v : MSt K F} (hI : Inv e [] s) (h : Ce e [] s)
    (hv : beforeStep e o s = .cont v) : Ce e [] v := by
  unfold beforeStep at hv
  split at hv
  · cases hv
  split at hv
  · cases hv
  split at hv
  · cases hv
  dsimp only at hv
  have hI' : Inv e [] ({ s.measure o.k1 with ev := { s.ev with flag := Status.success } } : MSt K F) :=
    { hI with link := fun j hj hp => hI.link j hj hp, flag := rfl }
  have h' : Ce e [] ({ s.measure o.k1 with ev := { s.ev with flag := Status.success } } : MSt K F) := { h with flag := rfl }
  split at hv
  · have := improve_ce he hC hT o _ h' hI'
    rw [hv] at this
    exact this
  · simp only [PassRes.cont.injEq] at hv
    subst hv
    exact h'

/-- The constraint data are the values of the affine functions. -/
theorem affines_values {e : Env K F} {b : Fin e.me → K} {A : Fin e.me → Fin e.n → K}
    (hcon : ∀ cf, e.U.c = some cf → ∀ w y (c : List K), cf w y = .nums (c.map Fl.fin) → c = affines b A y) {s : MSt K F} (h : Core e [] s)
    (hc : CeCore e [] s) :
    (∀ (j : ℕ) (y : List K), s.set.Y[j]? = some y → s.set.ceY[j]? = some (affines b A y)) ∧ s.infoCe = affines b A s.x ∧
      ∀ (i : ℕ) (y : List K) (c : List K), s.ev.X[i]? = some y → s.ev.ceX[i]? = some (c.map Fl.fin) → c = affines b A y := by
  have key : ∀ (i : ℕ) (y : List K) (c : List K), s.ev.X[i]? = some y → s.ev.ceX[i]? = some (c.map Fl.fin) → c = affines b A y := by
    intro i y c h1 h2
    obtain ⟨y', w, c1, -, c3⟩ := hc.hist i _ h2
    rw [h1] at c1
    cases c1
    unfold answerC at c3
    cases hcf : e.U.c with
    | none => rw [hcf] at c3; cases c3
    | some cf =>
      rw [hcf] at c3
      simp only [Option.map_some, Option.some.injEq] at c3
      exact hcon cf hcf _ _ _ c3
  have all : ∀ (j : ℕ) (y : List K), s.set.Y[j]? = some y → s.set.ceY[j]? = some (affines b A y) := by
    intro j y hy
    have hj : j < s.cur := by rw [← h.Ylen]; exact (List.getElem?_eq_some_iff.1 hy).1
    obtain ⟨i, y', f, b1, b2, b3, b4, b5⟩ := h.link j hj (by simp)
    rw [hy] at b2
    cases b2
    obtain ⟨c, c1, c2⟩ := hc.pair.2 j (by simp) i b1
    rw [c2, key i y c b4 c1]
  refine ⟨all, ?_, key⟩
  have := all 0 _ h.Y0
  rw [hc.info] at this
  exact Option.some.inj this

theorem run_ce {e : Env K F} {x0 : List K} {fuel : ℕ} {Δ : K} {sl : List K} {s0 : MSt K F} (H : Starts e x0 fuel Δ sl s0) (hT : e.Tame)
    (os : List (Orc K F)) (s : MSt K F) (h : mainLoop e os s0 = .running s) : Inv e [] s ∧ Ce e [] s := by
  have hp : ∀ o s, (Inv e [] s ∧ Ce e [] s) → (pass e o s).Sat (fun s => Inv e [] s ∧ Ce e [] s) (fun _ => True) (fun _ => True) := by
    rintro o s ⟨hI, hc⟩
    exact ((pass_sat e H.ok o s hI).and (pass_ce H.ok H.constr hT o s hc hI)).mono
      (fun _ h => ⟨h.1.1, h.2⟩) (fun _ _ => trivial) (fun _ _ => trivial)
  have key := mainLoop_induct e _ _ _ hp os s0 ⟨H.started.1, startState_ce H.constr hT x0 fuel Δ sl s0 H.state⟩
  rw [h] at key
  exact key

/-- **C125.** Affine objective, affine equality constraints (values of size below `1e25`), linear models: if the predicted change of the objective is
at least that of the linear model (positive semidefinite matrices) and the predicted reduction of the constraint norm is at most that of the
linearised constraints, then the models have the true gradients in every pass, the linearised constraints are the constraints, no step is rejected,
every step with a positive predicted decrease of the merit function is taken, and the merit function falls by at least this amount. -/
theorem C125_affine {e : Env K F} {x0 : List K} {fuel : ℕ} {Δ : K} {sl : List K} {s0 : MSt K F} (H : Starts e x0 fuel Δ sl s0)
    (hT : e.Tame) (hns : e.ns = 0) (hlin : e.finalDeg = .linear) (hreg : e.regression = false) (hn : (e.n : K) + 1 < 10 ^ 10)
    (hzero : ∀ l : List K, (∀ q ∈ l, q = 0) → e.nrm l = 0) (c : K) (g : Fin e.n → K) (hobj : ∀ w y q, e.U.f w y = .num (.fin q) → q = affine c g y ∧ q < 10 ^ 25)
    (b : Fin e.me → K) (A : Fin e.me → Fin e.n → K)
    (hcon : ∀ cf, e.U.c = some cf → ∀ w y (c : List K), cf w y = .nums (c.map Fl.fin) → c = affines b A y)
    (hmod : ExactLinear e) (hjac : ExactJacobian e) (os : List (Orc K F))
    (hS : ∀ pre o post u, os = pre ++ o :: post → mainLoop e pre s0 = .running u →
      TrueLagrange e o u ∧ ∀ v, beforeStep e o u = .cont v → (∀ y ∈ v.set.Y, 0 < e.dist y o.xnew) ∧
        along e.n v.infoG.g v.x o.xnew ≤ o.qcost ∧ (0 ≤ o.rpred → o.rpred ≤ e.nrm v.infoCe - e.nrm (linearised e v o.xnew)))
    (t : MSt K F) (h : mainLoop e os s0 = .running t) :
    t.rejected = false ∧ ∀ pre o post s v u, os = pre ++ o :: post → mainLoop e pre s0 = .running s →
      beforeStep e o s = .cont v → pass e o s = .cont u →
      (∀ i : Fin e.n, v.infoG.g.getD i 0 = g i) ∧ (∀ (j : Fin e.me) (i : Fin e.n), (v.infoG.a.getD j []).getD i 0 = A j i) ∧
      (∀ y, linearised e v y = affines b A y) ∧
      (0 ≤ o.rpred → 0 < -o.qcost + u.sigma * o.rpred → u.x = o.xnew ∧ min v.delta (10 ^ 5) ≤ u.delta ∧ u.pred = -o.qcost + u.sigma * o.rpred ∧
        affine c g o.xnew + u.sigma * e.nrm (affines b A o.xnew) + (-o.qcost + u.sigma * o.rpred) ≤
          affine c g v.x + u.sigma * e.nrm (affines b A v.x)) ∧
      (¬ (0 ≤ o.rpred ∧ 0 < -o.qcost + u.sigma * o.rpred) → u.pred = -1 ∧ u.x = v.x ∧ u.set = v.set ∧ u.delta = v.delta) := by
  have hobj' : ∀ w y q, e.U.f w y = .num (.fin q) → q = affine c g y ∧ q ≤ 10 ^ 25 := fun w y q hq => ⟨(hobj w y q hq).1, (hobj w y q hq).2.le⟩
  have det : ∀ pre o post s v, os = pre ++ o :: post → mainLoop e pre s0 = .running s → beforeStep e o s = .cont v → Det e v := by
    intro pre o post s v h1 h2 h3
    have hDu : Det e s := mainLoop_det e hlin hreg pre s0 (fun pre' o' post' u' h3 h4 =>
      (hS pre' o' (post' ++ o :: post) u' (by rw [h1, h3]; simp) h4).1) (start_det H) s (Or.inl h2)
    have := beforeStep_det e o s (hS pre o post s h1 h2).1.proposals hDu
    rw [h3] at this; exact this
  have inv : ∀ pre o s v, mainLoop e pre s0 = .running s → beforeStep e o s = .cont v → Inv e [] v ∧ Ce e [] v := by
    intro pre o s v h2 h3
    obtain ⟨i1, i2⟩ := run_ce H hT pre s h2
    exact ⟨(beforeStep_keeps H.ok i1 h3).1, beforeStep_ce H.ok H.constr hT i1 i2 h3⟩
  have grads : ∀ pre o post s v, os = pre ++ o :: post → mainLoop e pre s0 = .running s → beforeStep e o s = .cont v →
      (∀ i : Fin e.n, v.infoG.g.getD i 0 = g i) ∧ ∀ (j : Fin e.me) (i : Fin e.n), (v.infoG.a.getD j []).getD i 0 = A j i := by
    intro pre o post s v h1 h2 h3
    have hf := mainLoop_fresh e pre s0 (startState_fresh e x0 fuel Δ sl s0 H.state) s (Or.inl h2)
    have hfv := beforeStep_fresh e o s hf
    rw [h3] at hfv
    have hfv : Fresh e v := hfv
    obtain ⟨hI, hc⟩ := inv pre o s v h2 h3
    have hD := det pre o post s v h1 h2 h3
    rw [hfv.info, hfv.gx, hfv.fac]
    exact ⟨hmod _ _ _ _ c g hD.fixes hD.len hI.Y0 (affine_values hobj' hI.toCore).1,
      hjac _ _ _ _ b A hD.fixes hD.len hI.Y0 (affines_values hcon hI.toCore hc.toCeCore).1⟩
  have lined : ∀ pre o post s v, os = pre ++ o :: post → mainLoop e pre s0 = .running s → beforeStep e o s = .cont v →
      ∀ y, linearised e v y = affines b A y := by
    intro pre o post s v h1 h2 h3
    obtain ⟨hI, hc⟩ := inv pre o s v h2 h3
    exact affines_linearised (affines_values hcon hI.toCore hc.toCeCore).2.1 (grads pre o post s v h1 h2 h3).2
  -- the values at the trial point
  have plus : ∀ pre o s v u, mainLoop e pre s0 = .running s → beforeStep e o s = .cont v → pass e o s = .cont u →
      u.ev.X[u.m]? = some o.xnew ∧ Inv e [] u ∧
        e.nrm u.ceplus = e.nrm (affines b A o.xnew) := by
    intro pre o s v u h2 hv hu
    obtain ⟨hI, hc⟩ := inv pre o s v h2 hv
    have hrun : mainLoop e (pre ++ [o]) s0 = .running u := by
      rw [mainLoop_append _ _ _ _ _ h2]; simp only [mainLoop, hu]
    obtain ⟨uI, uC⟩ := run_ce H hT _ u hrun
    rw [pass_eq, hv] at hu
    obtain ⟨w, w', B, -, -, hd⟩ := stepStage_before e o v u hI hu
    have fr := (decideStep_outcome e o _ w u B.inv hd).1
    have hx : u.ev.X[u.m]? = some o.xnew := by rw [fr.X, fr.m]; exact B.X
    refine ⟨hx, uI, ?_⟩
    have hval := (affines_values hcon uI.toCore uC.toCeCore).2.2
    have hcp : u.ceplus = w.ceplus := fr.ceplus
    have hcX : u.ev.ceX = w.ev.ceX := fr.ceX
    have hm : u.m = w.m := fr.m
    rcases B.plus with hp | ⟨-, hz⟩
    · rw [← hcX, ← hcp, ← hm] at hp
      rw [hval _ _ _ hx hp]
    · rw [← hcX] at hz
      have hlt : u.m < u.ev.ceX.length := by rw [uC.len]; exact Nat.lt_succ_self _
      obtain ⟨c', g1, -, -⟩ := uC.cols _ (List.getElem_mem hlt)
      have hcol : u.ev.ceX[u.m]? = some (c'.map Fl.fin) := by rw [List.getElem?_eq_getElem hlt, g1]
      have h0 : ∀ q ∈ c', q = 0 := fun q hq => hz _ (List.mem_of_getElem? hcol) q (List.mem_map_of_mem hq)
      have hnil : u.ceplus = [] := by
        rcases uC.zero with hn | hn
        · exact hn
        · exfalso
          unfold SomeNonzero finVals at hn
          obtain ⟨q, q1, q2⟩ := List.any_eq_true.1 hn
          obtain ⟨a, a1, a2⟩ := List.mem_filterMap.1 q1
          obtain ⟨l, l1, l2⟩ := List.mem_flatten.1 a1
          cases a with
          | fin r =>
            simp only [Option.some.injEq] at a2
            subst a2
            exact of_decide_eq_true q2 (hz l l1 _ l2)
          | nan => cases a2
          | pinf => cases a2
          | ninf => cases a2
      rw [← hval _ _ _ hx hcol, hnil, hzero _ h0, hzero [] (by simp)]
  have honest : ∀ pre o post s, os = pre ++ o :: post → mainLoop e pre s0 = .running s →
      Honest e o s ∧ ∀ v, beforeStep e o s = .cont v → Enters e o v := by
    intro pre o post s h1 h2
    refine ⟨fun v u hv hu f c0 c' hf hc0 hc' => ?_, fun v hv => ?_⟩
    · obtain ⟨-, hq, hr⟩ := (hS pre o post s h1 h2).2 v hv
      obtain ⟨hI, hc⟩ := inv pre o s v h2 hv
      obtain ⟨hx, uI, hn'⟩ := plus pre o s v u h2 hv hu
      have h3 := (affine_values hobj' uI.toCore).2.2 _ _ _ hx hf
      rw [h3, (affine_values hobj' hI.toCore).2.1, affine_along c g v.infoG.g v.x o.xnew (grads pre o post s v h1 h2 hv).1]
      refine ⟨by linarith, fun h0 => ?_⟩
      have := hr h0
      rw [lined pre o post s v h1 h2 hv] at this
      rw [resNorm_some hns] at hc0 hc'
      simp only [Option.some.injEq] at hc0 hc'
      rw [← hc0, ← hc', hn']
      linarith
    · have hD := det pre o post s v h1 h2 hv
      exact enters_of_lagrange hn hD ((hS pre o post s h1 h2).1.values v hv hD.fixes hD.len) ((hS pre o post s h1 h2).2 v hv).1
  have small : ∀ q, .fin q ∈ t.ev.fX → q < 10 ^ 25 := by
    intro q hq
    obtain ⟨i, hi⟩ := List.mem_iff_getElem?.1 hq
    obtain ⟨y', w, q', r, -, -, c3, c4, c5⟩ := (run_ce H hT os t h).1.hist i _ hi
    cases c4
    have h1 := (hobj _ _ _ c3).2
    have h2 : q = q' := c5.1 h1.le
    rw [h2]; exact h1
  obtain ⟨r1, -, r3⟩ := C115_forward H os t h (Or.inl small) honest
  refine ⟨r1, fun pre o post s v u h1 h2 h3 h4 => ⟨(grads pre o post s v h1 h2 h3).1, (grads pre o post s v h1 h2 h3).2,
    lined pre o post s v h1 h2 h3, fun k1 k2 => ?_, fun k => ?_⟩⟩
  · obtain ⟨a1, a2, a3, c0, c1, a4, a5, a6⟩ := (r3 pre o post s v u h1 h2 h3 h4).moved k1 k2
    obtain ⟨hI, hc⟩ := inv pre o s v h2 h3
    obtain ⟨-, uI, hn'⟩ := plus pre o s v u h2 h3 h4
    refine ⟨a1, a2, a3, ?_⟩
    rw [resNorm_some hns] at a4 a5
    simp only [Option.some.injEq] at a4 a5
    rw [(affine_values hobj' uI.toCore).2.1, a1, ← a5, hn', (affine_values hobj' hI.toCore).2.1, ← a4,
      (affines_values hcon hI.toCore hc.toCeCore).2.1, a3] at a6
    exact a6
  · obtain ⟨a1, a2, -, a4, a5⟩ := (r3 pre o post s v u h1 h2 h3 h4).none k
    exact ⟨a1, a2, a4, a5⟩


theorem beforeStep_plain {e : Env K F} {o : Orc K F} {s v : MSt K F} (hn : ¬ Improves e o s) (h : beforeStep e o s = .cont v) :
    v.x = s.x ∧ v.sigma = s.sigma := by
  unfold beforeStep at h
  split at h
  · cases h
  split at h
  · cases h
  split at h
  · cases h
  dsimp only at h
  rw [if_neg (by exact hn)] at h
  simp only [PassRes.cont.injEq] at h
  subst h
  exact ⟨rfl, rfl⟩

/-- **C125** (number of passes). If in addition no pass improves the set and all predicted decreases are at least `ε`, the number of passes of the
run is at most `sigma (f(x0) - low + |c(x0)|) / ε`, where `low` bounds the recorded values from below and `sigma` is the penalty parameter at the
end (the factor of C114 is `4·10^4` instead of 1). -/
theorem C125_passes {e : Env K F} {x0 : List K} {fuel : ℕ} {Δ : K} {sl : List K} {s0 : MSt K F} (H : Starts e x0 fuel Δ sl s0)
    (hT : e.Tame) (hns : e.ns = 0) (hlin : e.finalDeg = .linear) (hreg : e.regression = false) (hn : (e.n : K) + 1 < 10 ^ 10)
    (hzero : ∀ l : List K, (∀ q ∈ l, q = 0) → e.nrm l = 0) (c : K) (g : Fin e.n → K)
    (hobj : ∀ w y q, e.U.f w y = .num (.fin q) → q = affine c g y ∧ q < 10 ^ 25)
    (b : Fin e.me → K) (A : Fin e.me → Fin e.n → K)
    (hcon : ∀ cf, e.U.c = some cf → ∀ w y (c : List K), cf w y = .nums (c.map Fl.fin) → c = affines b A y)
    (hmod : ExactLinear e) (hjac : ExactJacobian e) (ε low : K) (hε : 0 < ε) (os : List (Orc K F)) :
    (∀ pre o post u, os = pre ++ o :: post → mainLoop e pre s0 = .running u →
      TrueLagrange e o u ∧ ∀ v, beforeStep e o u = .cont v → (∀ y ∈ v.set.Y, 0 < e.dist y o.xnew) ∧
        along e.n v.infoG.g v.x o.xnew ≤ o.qcost ∧ (0 ≤ o.rpred → o.rpred ≤ e.nrm v.infoCe - e.nrm (linearised e v o.xnew))) →
    NoImprove e os s0 →
    (∀ pre o post s u, os = pre ++ o :: post → mainLoop e pre s0 = .running s → pass e o s = .cont u →
      0 ≤ o.rpred ∧ ε ≤ -o.qcost + u.sigma * o.rpred) →
    ∀ t, mainLoop e os s0 = .running t → (∀ q, .fin q ∈ t.ev.fX → low ≤ q) →
    1 ≤ t.sigma ∧ (os.length * ε + (affine c g t.x - low)) / t.sigma + e.nrm (affines b A t.x) ≤
      affine c g x0 - low + e.nrm (affines b A x0) := by
  have hobj' : ∀ w y q, e.U.f w y = .num (.fin q) → q = affine c g y ∧ q ≤ 10 ^ 25 := fun w y q hq => ⟨(hobj w y q hq).1, (hobj w y q hq).2.le⟩
  induction os using List.reverseRecOn with
  | nil =>
    intro _ _ _ t h _
    simp only [mainLoop, MainRes.running.injEq] at h
    subst h
    obtain ⟨hI, -⟩ := run_ce H hT [] s0 rfl
    have hM := start_merit H s0.fx _ (resNorm_some hns s0.infoCe s0.sl) le_rfl
    have hx : s0.x = x0 := by
      have hi0 : s0.ixbest = 0 := by
        have hs := H.state
        unfold startState at hs
        split at hs
        · unfold mainInit at hs
          split at hs
          · split at hs
            · cases hs
            · simp only [Option.some.injEq] at hs
              subst hs
              rfl
          · cases hs
        · cases hs
      obtain ⟨i, y, f, c1, c2, c3, c4, c5⟩ := hI.link 0 (by have := hI.lo; omega) (by simp)
      rw [hI.ind0, hi0] at c1
      cases c1
      rw [hI.Y0] at c2
      cases c2
      rw [hM.2.2.1] at c4
      exact (Option.some.inj c4).symm
    rw [hM.2.1, hx]
    simp
  | append_singleton os o ih =>
    intro hS hI hp t h hlow
    obtain ⟨s, h1, h2⟩ := running_snoc h
    obtain ⟨v, hv⟩ : ∃ v, beforeStep e o s = .cont v := by
      have h3 := h2
      rw [pass_eq] at h3
      obtain ⟨v, hv, -⟩ := bind_cont h3
      exact ⟨v, hv⟩
    obtain ⟨sI, -⟩ := run_ce H hT os s h1
    have hlow' : ∀ q, .fin q ∈ s.ev.fX → low ≤ q := fun q hm => by
      obtain ⟨d, hd⟩ := mainLoop_added e [o] s t sI.hlen (Or.inl (by simp only [mainLoop, h2]))
      obtain ⟨l, hl⟩ := hd.fX
      exact hlow q (by rw [← hl]; exact List.mem_append_left _ hm)
    obtain ⟨i1, i2⟩ := ih (fun pre o' post u h3 h4 => hS pre o' (post ++ [o]) u (by rw [h3]; simp) h4) (noImprove_init hI)
      (fun pre o' post s' u h3 h4 => hp pre o' (post ++ [o]) s' u (by rw [h3]; simp) h4) s h1 hlow'
    obtain ⟨p1, p2⟩ := hp os o [] s t rfl h1 h2
    obtain ⟨-, -, -, a1, -⟩ := (C125_affine H hT hns hlin hreg hn hzero c g hobj b A hcon hmod hjac (os ++ [o]) hS t h).2 os o [] s v t rfl h1 hv h2
    obtain ⟨b1, -, -, b2⟩ := a1 p1 (lt_of_lt_of_le hε p2)
    obtain ⟨hx, hsg⟩ := beforeStep_plain (hI os o [] s rfl h1) hv
    have hst : s.sigma ≤ t.sigma := by
      have h3 := h2
      rw [pass_eq, hv] at h3
      have vI := (beforeStep_keeps H.ok sI hv).1
      obtain ⟨w, w', B, -, -, hd⟩ := stepStage_before e o v t vI h3
      have fr := (decideStep_outcome e o _ w t B.inv hd).1
      rw [fr.sigma, ← hsg]
      exact B.sigma
    rw [hx] at b2
    rw [b1]
    have hs0 : low ≤ affine c g s.x := by
      rw [← (affine_values hobj' sI.toCore).2.1]
      obtain ⟨i, y, f, c1, c2, c3, c4, c5⟩ := sI.link 0 (by have := sI.lo; omega) (by simp)
      rw [sI.f0] at c3
      cases c3
      exact hlow' _ (List.mem_of_getElem? c5)
    have ht1 : 1 ≤ t.sigma := i1.trans hst
    refine ⟨ht1, le_trans ?_ i2⟩
    have hk : (0 : K) ≤ os.length * ε + (affine c g s.x - low) := by
      have := mul_nonneg (Nat.cast_nonneg (α := K) os.length) hε.le
      linarith
    have h5 := div_le_div_of_nonneg_left hk (lt_of_lt_of_le one_pos i1) hst
    refine le_trans ?_ (add_le_add_left h5 _)
    have h6 : (0 : K) < t.sigma := lt_of_lt_of_le one_pos ht1
    rw [← sub_nonneg]
    have : (os.length * ε + (affine c g s.x - low)) / t.sigma + e.nrm (affines b A s.x) -
        (((os ++ [o]).length : K) * ε + (affine c g o.xnew - low)) / t.sigma - e.nrm (affines b A o.xnew) =
        (affine c g s.x + t.sigma * e.nrm (affines b A s.x) - (affine c g o.xnew + t.sigma * e.nrm (affines b A o.xnew) + ε)) / t.sigma := by
      rw [List.length_append, List.length_singleton, Nat.cast_add, Nat.cast_one]
      field_simp
      ring
    rw [← sub_sub, this]
    exact div_nonneg (by linarith) h6.le

/-- The condition on the predicted reduction for a step made of a normal step `r`, for which the code computes the reduction
(`sqpdfo_solve_TR_bc.py` L253-L255), and a tangential step `t` that keeps the linearised constraints: it holds with equality. -/
theorem C125_split {e : Env K F} {v : MSt K F} {y : List K} (r t : Fin e.n → K) (hy : ∀ i : Fin e.n, y.getD i 0 = v.x.getD i 0 + r i + t i)
    (ht : ∀ j : Fin e.me, ∑ i : Fin e.n, (v.infoG.a.getD j []).getD i 0 * t i = 0) (p : K)
    (hp : p = e.nrm v.infoCe - e.nrm (List.ofFn fun j : Fin e.me => v.infoCe.getD j 0 + ∑ i : Fin e.n, (v.infoG.a.getD j []).getD i 0 * r i)) :
    p = e.nrm v.infoCe - e.nrm (linearised e v y) := by
  rw [hp]
  unfold linearised
  refine congrArg (fun l => e.nrm v.infoCe - e.nrm (List.ofFn l)) (funext fun j => ?_)
  refine congrArg (v.infoCe.getD j 0 + ·) ?_
  have h := ht j
  have : along e.n (v.infoG.a.getD j []) v.x y =
      ∑ i : Fin e.n, (v.infoG.a.getD j []).getD i 0 * r i + ∑ i : Fin e.n, (v.infoG.a.getD j []).getD i 0 * t i := by
    unfold along
    rw [← Finset.sum_add_distrib]
    refine Finset.sum_congr rfl fun i _ => ?_
    rw [hy i]
    ring
  rw [this, h, add_zero]

/-! ### The models of the code -/

/-- The models of the code meet the conditions of `C125_affine` (the number of constraints does not matter). -/
theorem C125_models {e : Env ℝ (List (List ℝ))} {k : Kern e.n} (hk : UsesKern e k) (hq : GoodQR k) (hms : LinKer k.ms) (hn : 1 ≤ e.n) :
    ExactLinear e ∧ ExactJacobian e := by
  refine ⟨kern_exact hk hq hms hn, fun Y x fY ceY b A hF hl hx hv j i => ?_⟩
  have key := kern_exact hk hq hms hn Y x (ceY.map fun c => c.getD j 0) [] (b j) (A j) hF hl hx (fun r y hy => by
    rw [List.getElem?_map, hv r y hy, Option.map_some]
    simp [affines, List.getD_eq_getElem?_getD]) i
  rw [hk.build, hk.model] at key ⊢
  have hj : ((modelOf k e.me (id Y) x fY ceY).a.getD j []) = gradOf k (Y.length - 1) Y x (ceY.map fun c => c.getD j 0) := by
    simp [modelOf, List.getD_eq_getElem?_getD]
  rw [hj]
  exact key

/-- An environment with two constraints. -/
example : ExactJacobian { Ex.lineEnv with me := 2, model := modelOf Ex.kern 2 } :=
  (C125_models (e := { Ex.lineEnv with me := 2, model := modelOf Ex.kern 2 }) (k := Ex.kern) ⟨rfl, rfl⟩ Ex.kern_qr Ex.realKer_lin le_rfl).2

/-! ### A concrete run -/

namespace Ex

/-- Objective `2 x` and constraint `x + 1 = 0`, linear models. -/
def conEnv : Env ℚ (List (List ℚ)) :=
  { downEnv with
    me := 1
    U := ⟨fun _ y => if 2 * y.getD 0 0 < 10 ^ 25 then .num (.fin (2 * y.getD 0 0)) else .raised,
      some fun _ y => if |y.getD 0 0 + 1| < 10 ^ 25 then .nums [.fin (y.getD 0 0 + 1)] else .raised⟩
    model := fun Y _ fY ceY => ⟨[(fY.getD 1 0 - fY.getD 0 0) / ((Y.getD 1 []).getD 0 0 - (Y.getD 0 []).getD 0 0)],
      [[((ceY.getD 1 []).getD 0 0 - (ceY.getD 0 []).getD 0 0) / ((Y.getD 1 []).getD 0 0 - (Y.getD 0 []).getD 0 0)]]⟩ }

theorem con_obj : ∀ w y q, conEnv.U.f w y = .num (.fin q) → q = affine (n := 1) 0 (fun _ => 2) y ∧ q < 10 ^ 25 := by
  intro w y q h
  simp only [conEnv] at h
  split at h
  · cases h; exact ⟨by rw [line_affine, zero_add], by assumption⟩
  · cases h

theorem con_con : ∀ cf, conEnv.U.c = some cf → ∀ w y (c : List ℚ), cf w y = .nums (c.map Fl.fin) →
    c = affines (n := 1) (m := 1) (fun _ => 1) (fun _ _ => 1) y := by
  intro cf hcf w y c h
  simp only [conEnv, Option.some.injEq] at hcf
  subst hcf
  simp only at h
  split at h
  · match c, h with
    | [a], h =>
      injection h with h
      simp only [List.map_cons, List.map_nil, List.cons.injEq, Fl.fin.injEq, and_true] at h
      simp only [affines, List.ofFn_succ, List.ofFn_zero, line_affine]
      rw [← h, add_comm, one_mul]
  · cases h

theorem line_slope {c : ℚ} {g : Fin 1 → ℚ} {y z : List ℚ} (hF : Fixes 1 [y, z]) :
    (affine c g z - affine c g y) / (z.getD 0 0 - y.getD 0 0) = g 0 := by
  have hne : z.getD 0 0 - y.getD 0 0 ≠ 0 := by
    intro hz
    have := hF (-(y.getD 0 0)) (fun _ => 1) (fun u hu => by
      refine (line_affine _ _ u).trans ?_
      rcases List.mem_cons.1 hu with rfl | hu
      · ring
      · rcases List.mem_cons.1 hu with rfl | hu
        · linarith
        · cases hu)
    exact one_ne_zero (congrFun this.2 (0 : Fin 1))
  rw [div_eq_iff hne, line_affine, line_affine]
  ring

theorem con_exact : ExactLinear conEnv := by
  intro Y x fY ceY c g hF hl hx hv i
  have hl : Y.length = 2 := hl
  match Y, hl with
  | [y, z], _ =>
    change Fin 1 → ℚ at g
    change Fin 1 at i
    have h0 := hv 0 y rfl
    have h1 := hv 1 z rfl
    obtain rfl : i = 0 := Subsingleton.elim _ _
    show (fY.getD 1 0 - fY.getD 0 0) / (z.getD 0 0 - y.getD 0 0) = g 0
    rw [List.getD_eq_getElem?_getD, List.getD_eq_getElem?_getD, h0, h1, Option.getD_some, Option.getD_some]
    exact line_slope hF

theorem con_jac : ExactJacobian conEnv := by
  intro Y x fY ceY b A hF hl hx hv j i
  have hl : Y.length = 2 := hl
  match Y, hl with
  | [y, z], _ =>
    change Fin 1 → Fin 1 → ℚ at A
    change Fin 1 → ℚ at b
    change Fin 1 at i
    change Fin 1 at j
    have h0 : ceY[0]? = some [affine (b 0) (A 0) y] := hv 0 y rfl
    have h1 : ceY[1]? = some [affine (b 0) (A 0) z] := hv 1 z rfl
    obtain rfl : i = 0 := Subsingleton.elim _ _
    obtain rfl : j = 0 := Subsingleton.elim _ _
    show ((ceY.getD 1 []).getD 0 0 - (ceY.getD 0 []).getD 0 0) / (z.getD 0 0 - y.getD 0 0) = A 0 0
    rw [List.getD_eq_getElem?_getD (l := ceY), List.getD_eq_getElem?_getD (l := ceY), h0, h1, Option.getD_some, Option.getD_some]
    exact line_slope hF

theorem con_starts {s0 : MSt ℚ (List (List ℚ))} (h : startState conEnv [3] 1 1 [] = some s0) : Starts conEnv [3] 1 1 [] s0 := by
  refine ⟨⟨nrm1_nonneg, descOrder_sorted⟩, ⟨fun h => ?_, fun cf hcf w y vs hv => ?_⟩, rfl, by norm_num, h⟩
  · cases h
  · simp only [conEnv, Option.some.injEq] at hcf
    subst hcf
    simp only at hv
    split at hv
    · injection hv with hv; subst hv; rfl
    · cases hv

theorem con_tame : conEnv.Tame := by
  refine ⟨Nat.one_pos, fun cf hcf w y vs hv v hm => ?_⟩
  simp only [conEnv, Option.some.injEq] at hcf
  subst hcf
  simp only at hv
  split at hv
  · injection hv with hv
    subst hv
    rw [List.mem_singleton] at hm
    exact Or.inr ⟨_, hm, by assumption⟩
  · cases hv

theorem con_zero : ∀ l : List ℚ, (∀ q ∈ l, q = 0) → conEnv.nrm l = 0 := by
  intro l h
  show nrm1 l = 0
  induction l with
  | nil => rfl
  | cons a l ih =>
    have h1 := h a (by simp)
    have h2 := ih fun q hq => h q (List.mem_cons_of_mem _ hq)
    subst h1
    simpa [nrm1] using h2

/-- Data as in `downData` and the predicted reduction of the norm of the constraints. -/
def conData : List ((ℚ × ℚ × ℚ × ℚ) × ℚ) :=
  [((5 / 2, 7 / 8, 3, 2), 1 / 2), ((1 / 2, 4, 5 / 2, 2), 2), ((0, -1, 1 / 2, 2), 0), ((-1, 3, 1 / 2, 1 / 2 + 1 / 10 ^ 5), 3 / 2)]

def conOrc (d : (ℚ × ℚ × ℚ × ℚ) × ℚ) : Orc ℚ (List (List ℚ)) := { downOrc d.1 with rpred := d.2 }

def conCheck (ds : List ((ℚ × ℚ × ℚ × ℚ) × ℚ)) (s0 : MSt ℚ (List (List ℚ))) (k : ℕ) : Bool :=
  match mainLoop conEnv ((ds.map conOrc).take k) s0, ds[k]? with
  | .running s, some d =>
    match beforeStep conEnv (conOrc d) s with
    | .cont v => decide (v.set.Y = [[d.1.2.2.1], [d.1.2.2.2]]) && decide (d.1.2.2.1 ≠ d.1.2.2.2) &&
        (v.set.Y.all fun y => decide (0 < conEnv.dist y [d.1.1])) && decide (along 1 v.infoG.g v.x [d.1.1] ≤ -d.1.2.1) &&
        decide (d.2 ≤ conEnv.nrm v.infoCe - conEnv.nrm (linearised conEnv v [d.1.1]))
    | _ => true
  | _, _ => true

theorem conCheck_sound {ds : List ((ℚ × ℚ × ℚ × ℚ) × ℚ)} {s0 : MSt ℚ (List (List ℚ))} (h : ∀ k, k < ds.length → conCheck ds s0 k = true) :
    ∀ pre o post u, ds.map conOrc = pre ++ o :: post → mainLoop conEnv pre s0 = .running u →
      TrueLagrange conEnv o u ∧ ∀ v, beforeStep conEnv o u = .cont v → (∀ y ∈ v.set.Y, 0 < conEnv.dist y o.xnew) ∧
        along conEnv.n v.infoG.g v.x o.xnew ≤ o.qcost ∧ (0 ≤ o.rpred → o.rpred ≤ conEnv.nrm v.infoCe - conEnv.nrm (linearised conEnv v o.xnew)) := by
  intro pre o post u h1 h2
  have hk : pre.length < ds.length := by
    have := congrArg List.length h1
    simp only [List.length_map, List.length_append, List.length_cons] at this
    omega
  have ho : (ds.map conOrc)[pre.length]? = some o := by rw [h1]; simp
  have ht : mainLoop conEnv ((ds.map conOrc).take pre.length) s0 = .running u := by rw [h1]; simpa using h2
  rw [List.getElem?_map, List.getElem?_eq_getElem hk, Option.map_some, Option.some.injEq] at ho
  have hc := h _ hk
  unfold conCheck at hc
  rw [ht, List.getElem?_eq_getElem hk] at hc
  generalize ds[pre.length] = d at ho hc
  subst ho
  refine ⟨⟨fun _ => ?_, fun v hv _ _ => ?_⟩, fun v hv => ?_⟩
  · exact lOrc_proposals 2 d.1.1 d.1.2.1 d.1.2.2.1 d.1.2.2.2
  · simp only [hv, Bool.and_eq_true, decide_eq_true_eq] at hc
    rw [hc.1.1.1.1]
    exact lOrc_values 2 d.1.1 d.1.2.1 _ _ hc.1.1.1.2
  · simp only [hv, Bool.and_eq_true, decide_eq_true_eq, List.all_eq_true] at hc
    exact ⟨hc.1.1.2, hc.1.2, fun _ => hc.2⟩

end Ex

/-- A run of four passes from 3 to the solution -1 meets the hypotheses; the third pass has no predicted decrease. -/
example : ∃ s0 t, Starts Ex.conEnv [3] 1 1 [] s0 ∧ mainLoop Ex.conEnv (Ex.conData.map Ex.conOrc) s0 = .running t ∧ t.x = [-1] ∧
    t.infoCe = [0] ∧ t.rejected = false := by
  have h : (match startState Ex.conEnv [3] 1 1 [] with
      | none => false
      | some s => match mainLoop Ex.conEnv (Ex.conData.map Ex.conOrc) s with
        | .running t => decide (t.x = [-1]) && decide (t.infoCe = [0]) && ((List.range 4).all fun k => Ex.conCheck Ex.conData s k)
        | _ => false) = true := by decide +kernel
  split at h
  · cases h
  · rename_i s0 hs
    split at h
    · rename_i t hm
      simp only [Bool.and_eq_true, decide_eq_true_eq, List.all_eq_true, List.mem_range] at h
      obtain ⟨⟨h1, h2⟩, h3⟩ := h
      have H := Ex.con_starts hs
      have hT := Ex.conCheck_sound (ds := Ex.conData) (s0 := s0) fun k hk => h3 k hk
      exact ⟨s0, t, H, hm, h1, h2, (C125_affine H Ex.con_tame rfl rfl rfl (by norm_num [Ex.conEnv, Ex.downEnv, Ex.gEnv]) Ex.con_zero 0 (fun _ => 2)
        Ex.con_obj (fun _ => 1) (fun _ _ => 1) Ex.con_con Ex.con_exact Ex.con_jac _ hT t hm).1⟩
    · cases h

/-- The first two passes meet the hypotheses of `C125_passes` with `ε = 11/8` and `low = 1`. -/
example : ∃ s0 t, Starts Ex.conEnv [3] 1 1 [] s0 ∧ mainLoop Ex.conEnv ((Ex.conData.take 2).map Ex.conOrc) s0 = .running t ∧
    1 ≤ t.sigma ∧ (2 * (11 / 8) + (affine (n := 1) 0 (fun _ => 2) t.x - 1)) / t.sigma + Ex.nrm1 (affines (n := 1) (m := 1) (fun _ => 1) (fun _ _ => 1) t.x) ≤
      affine (n := 1) (0 : ℚ) (fun _ => 2) [3] - 1 + Ex.nrm1 (affines (n := 1) (m := 1) (fun _ => 1) (fun _ _ => 1) [3]) := by
  have h : (match startState Ex.conEnv [3] 1 1 [] with
      | none => false
      | some s => match mainLoop Ex.conEnv ((Ex.conData.take 2).map Ex.conOrc) s with
        | .running t => (t.ev.fX.all fun q => match q with | .fin q => decide (1 ≤ q) | _ => true) &&
          ((List.range 2).all fun k => Ex.conCheck (Ex.conData.take 2) s k) &&
          match pass Ex.conEnv (Ex.conOrc ((5 / 2, 7 / 8, 3, 2), 1 / 2)) s with
          | .cont u => decide (1 ≤ u.sigma) && decide (1 / 10 ^ 10 ≤ s.delta) && decide (s.pred ≠ -1) && decide (1 / 10 ^ 10 ≤ u.delta) &&
            decide (u.pred ≠ -1) && decide (1 ≤ t.sigma)
          | _ => false
        | _ => false) = true := by decide +kernel
  split at h
  · cases h
  · rename_i s0 hs
    split at h
    · rename_i t hm
      split at h
      · rename_i u hu
        simp only [Bool.and_eq_true, decide_eq_true_eq, List.all_eq_true, List.mem_range] at h
        obtain ⟨⟨h1, h2⟩, ⟨⟨⟨⟨h3, h4⟩, h5⟩, h6⟩, h7⟩, h8⟩ := h
        have H := Ex.con_starts hs
        have hT := Ex.conCheck_sound (ds := Ex.conData.take 2) (s0 := s0) fun k hk => h2 k hk
        have hm1 : mainLoop Ex.conEnv [Ex.conOrc ((5 / 2, 7 / 8, 3, 2), 1 / 2)] s0 = .running u := by simp only [mainLoop, hu]
        have hu' : pass Ex.conEnv (Ex.conOrc ((1 / 2, 4, 5 / 2, 2), 2)) u = .cont t := by
          obtain ⟨r, r1, r2⟩ := running_snoc (os := [Ex.conOrc ((5 / 2, 7 / 8, 3, 2), 1 / 2)]) (o := Ex.conOrc ((1 / 2, 4, 5 / 2, 2), 2)) hm
          rw [hm1] at r1
          cases r1
          exact r2
        have two : ∀ (P : List (Orc ℚ (List (List ℚ))) → Orc ℚ (List (List ℚ)) → Prop), P [] (Ex.conOrc ((5 / 2, 7 / 8, 3, 2), 1 / 2)) →
            P [Ex.conOrc ((5 / 2, 7 / 8, 3, 2), 1 / 2)] (Ex.conOrc ((1 / 2, 4, 5 / 2, 2), 2)) →
            ∀ pre o post, (Ex.conData.take 2).map Ex.conOrc = pre ++ o :: post → P pre o := by
          intro P hA hB pre o post he
          change [Ex.conOrc ((5 / 2, 7 / 8, 3, 2), 1 / 2), Ex.conOrc ((1 / 2, 4, 5 / 2, 2), 2)] = pre ++ o :: post at he
          match pre, he with
          | [], he => injection he with a1 a2; rw [← a1]; exact hA
          | [a], he => injection he with a1 a2; injection a2 with a2 a3; rw [← a1, ← a2]; exact hB
          | a :: b :: l, he => injection he with a1 a2; injection a2 with a2 a3; simp at a3
        have hN : NoImprove Ex.conEnv ((Ex.conData.take 2).map Ex.conOrc) s0 := by
          intro pre o post s e1 e2
          revert s
          refine two (fun pre o => ∀ s, mainLoop Ex.conEnv pre s0 = .running s → ¬ Improves Ex.conEnv o s) ?_ ?_ pre o post e1
          · intro s e2
            cases e2
            rintro (⟨k, -⟩ | k | k)
            · exact absurd k (by decide +kernel)
            · exact absurd k (not_lt.2 h4)
            · exact h5 k
          · intro s e2
            rw [hm1] at e2
            cases e2
            rintro (⟨k, -⟩ | k | k)
            · exact absurd k (by decide +kernel)
            · exact absurd k (not_lt.2 h6)
            · exact h7 k
        have hP : ∀ pre o post s w, (Ex.conData.take 2).map Ex.conOrc = pre ++ o :: post → mainLoop Ex.conEnv pre s0 = .running s →
            pass Ex.conEnv o s = .cont w → 0 ≤ o.rpred ∧ 11 / 8 ≤ -o.qcost + w.sigma * o.rpred := by
          intro pre o post s w e1
          revert s w
          refine two (fun pre o => ∀ s w, mainLoop Ex.conEnv pre s0 = .running s → pass Ex.conEnv o s = .cont w →
            0 ≤ o.rpred ∧ 11 / 8 ≤ -o.qcost + w.sigma * o.rpred) ?_ ?_ pre o post e1
          · intro s w e2 e3
            cases e2
            rw [hu] at e3
            cases e3
            show (0 : ℚ) ≤ 1 / 2 ∧ 11 / 8 ≤ -(-(7 / 8)) + u.sigma * (1 / 2)
            constructor <;> linarith
          · intro s w e2 e3
            rw [hm1] at e2
            cases e2
            rw [hu'] at e3
            cases e3
            show (0 : ℚ) ≤ 2 ∧ 11 / 8 ≤ -(-4) + t.sigma * 2
            constructor <;> linarith
        have := C125_passes H Ex.con_tame rfl rfl rfl (by norm_num [Ex.conEnv, Ex.downEnv, Ex.gEnv]) Ex.con_zero 0 (fun _ => 2)
          Ex.con_obj (fun _ => 1) (fun _ _ => 1) Ex.con_con Ex.con_exact Ex.con_jac (11 / 8) 1 (by norm_num) _ hT hN hP t hm
          (fun q hq => of_decide_eq_true (h1 _ hq))
        exact ⟨s0, t, H, hm, this⟩
      · simp at h
    · cases h

/-- Two variables, the constraint `x + y - 4 = 0` at `(1, 1)`: the normal step `(1, 1)`, the tangential step `(1, -1)`. -/
example (v : MSt ℚ (List (List ℚ))) (hx : v.x = [1, 1]) (hc : v.infoCe = [-2]) (ha : v.infoG.a = [[1, 1]]) :
    2 = Ex.nrm1 v.infoCe - Ex.nrm1 (linearised { Ex.conEnv with n := 2 } v [3, 1]) := by
  refine C125_split (e := { Ex.conEnv with n := 2 }) (v := v) ![1, 1] ![1, -1] (fun i => ?_) (fun j => ?_) 2 ?_
  · rw [hx]
    revert i
    show ∀ i : Fin 2, ([3, 1] : List ℚ).getD i 0 = ([1, 1] : List ℚ).getD i 0 + (![1, 1] : Fin 2 → ℚ) i + (![1, -1] : Fin 2 → ℚ) i
    decide +kernel
  · rw [ha]
    revert j
    show ∀ j : Fin 1, ∑ i : Fin 2, (([[1, 1]] : List (List ℚ)).getD j []).getD i 0 * (![1, -1] : Fin 2 → ℚ) i = 0
    decide +kernel
  · rw [ha, hc]
    show (2 : ℚ) = Ex.nrm1 [-2] - Ex.nrm1 (List.ofFn fun j : Fin 1 => ([-2] : List ℚ).getD j 0 +
      ∑ i : Fin 2, (([[1, 1]] : List (List ℚ)).getD j []).getD i 0 * (![1, 1] : Fin 2 → ℚ) i)
    decide +kernel

/-- The condition on the predicted reduction is needed: with a reduction larger than that of the linearised constraints a step that decreases
the objective and the constraint violation is rejected, although the models are exact. -/
theorem C125_overestimated : ∃ (o : Orc ℚ (List (List ℚ))) (s0 t : MSt ℚ (List (List ℚ))), Starts Ex.conEnv [3] 1 1 [] s0 ∧
    TrueLagrange Ex.conEnv o s0 ∧ mainLoop Ex.conEnv [o] s0 = .running t ∧ s0.x = [3] ∧ o.xnew = [5 / 2] ∧
    o.qcost = along 1 s0.infoG.g s0.x o.xnew ∧ Ex.conEnv.nrm s0.infoCe - Ex.conEnv.nrm (linearised Ex.conEnv s0 o.xnew) < o.rpred ∧
    t.ev.fX = [.fin 6, .fin 4, .fin 5] ∧ t.ev.ceX = [[.fin 4], [.fin 3], [.fin (7 / 2)]] ∧ t.rejected = true ∧ t.x = [3] ∧ t.delta < s0.delta := by
  have h : (match startState Ex.conEnv [3] 1 1 [] with
      | none => false
      | some s => match mainLoop Ex.conEnv [Ex.conOrc ((5 / 2, 1, 3, 2), 20000)] s, beforeStep Ex.conEnv (Ex.conOrc ((5 / 2, 1, 3, 2), 20000)) s with
        | .running t, .cont v => decide (s.x = [3]) && decide (t.rejected = true) && decide (t.x = [3]) && decide (t.delta < s.delta) &&
          decide (t.ev.fX = [Fl.fin 6, .fin 4, .fin 5]) && decide (t.ev.ceX = [[Fl.fin 4], [.fin 3], [.fin (7 / 2)]]) &&
          decide (-1 = along 1 s.infoG.g s.x [5 / 2]) &&
          decide (Ex.conEnv.nrm s.infoCe - Ex.conEnv.nrm (linearised Ex.conEnv s [5 / 2]) < 20000) && decide (v.set.Y = [[3], [2]])
        | _, _ => false) = true := by decide +kernel
  split at h
  · cases h
  · rename_i s0 hs
    split at h
    · rename_i t v hm hv
      simp only [Bool.and_eq_true, decide_eq_true_eq] at h
      obtain ⟨⟨⟨⟨⟨⟨⟨⟨h1, h2⟩, h3⟩, h4⟩, h5⟩, h6⟩, h7⟩, h8⟩, h9⟩ := h
      have hL : TrueLagrange Ex.conEnv (Ex.conOrc ((5 / 2, 1, 3, 2), 20000)) s0 := by
        refine ⟨fun _ => ?_, fun v' hv' _ _ => ?_⟩
        · exact Ex.lOrc_proposals 2 (5 / 2) 1 3 2
        · rw [hv] at hv'
          injection hv' with hv'
          rw [← hv', h9]
          exact Ex.lOrc_values 2 (5 / 2) 1 3 2 (by norm_num)
      exact ⟨Ex.conOrc ((5 / 2, 1, 3, 2), 20000), s0, t, Ex.con_starts hs, hL, hm, h1, rfl, h7, h8, h5, h6, h2, h3, h4⟩
    · cases h

#print axioms C125_affine
#print axioms C125_passes
#print axioms C125_split
#print axioms C125_models
#print axioms C125_overestimated

end Sqpdfo
