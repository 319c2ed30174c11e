import Verif.Props.C09_C11_Budget

/-! # C12-C16, C49, C51: what a run reports, and the interpolation data -/

set_option linter.unusedSectionVars false

namespace Sqpdfo
open Spec
variable {K F : Type} [Field K] [LinearOrder K] [IsStrictOrderedRing K]

/-- All states between passes satisfy the invariant, all returned states satisfy `Ret`. -/
theorem mainLoop_sat {e : Env K F} {x0 : List K} {fuel : ℕ} {Δ : K} {sl : List K}
    {s0 : MSt K F} (H : Starts e x0 fuel Δ sl s0) (os : List (Orc K F)) :
    (mainLoop e os s0).Sat (Ret e) (Inv e []) Outside :=
  mainLoop_induct e (Inv e []) (Ret e) Outside
    (fun o s hI => (pass_sat e H.ok o s hI).mono (fun _ h => h.1) (fun _ h => h.1) (fun _ h => h))
    os s0 H.started.inv

theorem mainLoop_snoc (e : Env K F) : ∀ (os : List (Orc K F)) (o : Orc K F) (s t : MSt K F),
    mainLoop e os s = .running t → mainLoop e (os ++ [o]) s = mainLoop e [o] t := by
  intro os
  induction os with
  | nil => intro o s t h; simp only [mainLoop, MainRes.running.injEq] at h; rw [h]; rfl
  | cons a os ih =>
    intro o s t h
    simp only [List.cons_append, mainLoop] at h ⊢
    cases hp : pass e a s with
    | cont v => rw [hp] at h; exact ih o v t h
    | ret v => rw [hp] at h; cases h
    | crash c => rw [hp] at h; cases h

/-- **C12.** The full statement (*status 0: the reported norms are at most the tolerances*) is false
(`C12_tolerance_exceeded`).  Proved: with status 0 either they are, or they are at most 100 times
the tolerances and `info.f` is the value of the returned point; in both cases the product of
poisedness and radius of the interpolation set is at most `1e-3`. -/
theorem C12_status_zero_partial {e : Env K F} {x0 : List K} {fuel : ℕ} {Δ : K} {sl : List K}
    {s0 : MSt K F} (H : Starts e x0 fuel Δ sl s0) (os : List (Orc K F)) (t : MSt K F)
    (h : mainLoop e os s0 = .done t) (h0 : t.ev.flag = 0) :
    t.poised * t.yradius ≤ 1 / 10 ^ 3 ∧
      ((t.glagn ≤ e.tolGrad ∧ t.feasn ≤ e.tolFeas ∧ t.compl ≤ e.tolBnds) ∨
        (t.glagn ≤ 100 * e.tolGrad ∧ t.feasn ≤ 100 * e.tolFeas ∧ t.compl ≤ 100 * e.tolBnds ∧
          t.ev.infoF = .fin t.fx)) := by
  have key := mainLoop_sat H os
  rw [h] at key
  obtain ⟨h1, h2⟩ := key.conv h0
  rw [div_le_iff₀ (by norm_num)] at h1
  refine ⟨by norm_num at h1 ⊢; linarith, ?_⟩
  rcases h2 with h2 | ⟨h2, h3, h4, h5⟩
  · exact Or.inl h2
  · rw [div_le_iff₀ (by norm_num)] at h2 h3 h4
    exact Or.inr ⟨by linarith, by linarith, by linarith, h5⟩

/-- **C12**, the guaranteed bounds for nonnegative tolerances. -/
theorem C12_hundredfold_partial {e : Env K F} {x0 : List K} {fuel : ℕ} {Δ : K} {sl : List K}
    {s0 : MSt K F} (H : Starts e x0 fuel Δ sl s0) (h1 : 0 ≤ e.tolGrad) (h2 : 0 ≤ e.tolFeas)
    (os : List (Orc K F)) (t : MSt K F)
    (h : mainLoop e os s0 = .done t) (h0 : t.ev.flag = 0) :
    t.glagn ≤ 100 * e.tolGrad ∧ t.feasn ≤ 100 * e.tolFeas := by
  rcases (C12_status_zero_partial H os t h h0).2 with ⟨a, b, -⟩ | ⟨a, b, -⟩
  · exact ⟨by linarith, by linarith⟩
  · exact ⟨a, b⟩

/-- **C13.** Status 15: the trust-region radius or the radius of the improvement step (the
smaller or larger one of the trust-region radius and the current improvement threshold, or the
smaller one of the trust-region radius and `1e-5`) is below `1e-10` or below `10 eps ‖x‖`. -/
theorem C13_status_fifteen {e : Env K F} {x0 : List K} {fuel : ℕ} {Δ : K} {sl : List K}
    {s0 : MSt K F} (H : Starts e x0 fuel Δ sl s0) (os : List (Orc K F)) (t : MSt K F)
    (h : mainLoop e os s0 = .done t) (h15 : t.ev.flag = 15) :
    ∃ r : K, (r = t.delta ∨ r = min t.delta t.epsCur ∨ r = min t.delta (1 / 10 ^ 5) ∨
        r = max t.delta t.epsCur) ∧
      (r < 1 / 10 ^ 10 ∨ r < 10 * (2220446049250313 / 10 ^ 31) * e.nrm t.x) := by
  have key := mainLoop_sat H os
  rw [h] at key
  have small : ∀ r, tooSmall e t r →
      (r < 1 / 10 ^ 10 ∨ r < 10 * (2220446049250313 / 10 ^ 31) * e.nrm t.x) := by
    rintro r (hr | hr)
    · exact Or.inr hr
    · left; unfold cEps at hr; norm_num at hr ⊢; exact hr
  rcases key.small h15 with hr | hr
  · exact ⟨_, Or.inl rfl, small _ hr⟩
  · refine ⟨_, Or.inr ?_, small _ hr⟩
    unfold repRadius
    split
    · exact Or.inl rfl
    · split
      · exact Or.inr (Or.inl rfl)
      · exact Or.inr (Or.inr rfl)

/-- **C14.** Between any two passes and on return: for each column of the interpolation set the
stored index refers to an evaluated point, which is the column, and the stored value is the
recorded value; column 0 is the current iterate with its index and value. -/
theorem C14_interpolation_data {e : Env K F} {x0 : List K} {fuel : ℕ} {Δ : K} {sl : List K}
    {s0 : MSt K F} (H : Starts e x0 fuel Δ sl s0) (os : List (Orc K F)) (t : MSt K F)
    (h : mainLoop e os s0 = .running t ∨ mainLoop e os s0 = .done t) :
    t.set.ind.length = t.set.Y.length ∧ t.set.fY.length = t.set.Y.length ∧
      (∀ j, j < t.set.Y.length → ∃ (i : ℕ) (y : List K) (f : K), t.set.ind[j]? = some i ∧
        t.set.Y[j]? = some y ∧ t.set.fY[j]? = some f ∧ t.ev.X[i]? = some y ∧
        t.ev.fX[i]? = some (.fin f)) ∧
      t.set.Y[0]? = some t.x ∧ t.set.fY[0]? = some t.fx ∧ t.set.ind[0]? = some t.ixbest ∧
      Recorded e.U t.ev.w t.ev.X t.ev.fX := by
  have key := mainLoop_sat H os
  have hc : Core e [] t := by
    rcases h with h | h
    · rw [h] at key; exact key.toCore
    · rw [h] at key; exact key.core
  refine ⟨by rw [hc.indlen, hc.Ylen], by rw [hc.flen, hc.Ylen], fun j hj => ?_, hc.Y0, hc.f0, hc.ind0,
    hc.hist⟩
  exact hc.link j (by rw [← hc.Ylen]; exact hj) (by simp)

/-- **C15.** The point returned by `sqpdfo_` (`X[:,i_xbest]`) is a point at which the objective was
called and returned a finite number, and the value printed in the summary (`fx`) is that number,
cut at `1e25`. -/
theorem C15_returned_point {e : Env K F} {x0 : List K} {fuel : ℕ} {Δ : K} {sl : List K}
    {s0 : MSt K F} (H : Starts e x0 fuel Δ sl s0) (os : List (Orc K F)) (t : MSt K F)
    (h : mainLoop e os s0 = .done t) :
    ∃ (y : List K) (w : World (List K)) (q : K), t.ev.X[t.ixbest]? = some y ∧ t.x = y ∧
      w.logF ++ [y] <+: t.ev.w.logF ∧ e.U.f w y = .num (.fin q) ∧
      t.fx = if q ≤ 10 ^ 25 then q else 10 ^ 25 := by
  have key := mainLoop_sat H os
  rw [h] at key
  have hc := key.core
  obtain ⟨i, y, f, b1, b2, b3, b4, b5⟩ := hc.link 0 (by have := hc.lo; omega) (by simp)
  have e1 := hc.ind0
  have e2 := hc.Y0
  have e3 := hc.f0
  rw [b1] at e1; rw [b2] at e2; rw [b3] at e3
  simp only [Option.some.injEq] at e1 e2 e3
  subst e1 e2 e3
  obtain ⟨z, w, q, r, c1, c2, c3, c4, c5⟩ := hc.hist _ _ b5
  rw [b4] at c1
  simp only [Option.some.injEq] at c1
  subst c1
  refine ⟨t.x, w, q, b4, rfl, c2, c3, ?_⟩
  simp only [Fl.fin.injEq] at c4
  rw [c4]
  split
  · rename_i hq; exact c5.1 hq
  · rename_i hq; exact c5.2 (not_le.1 hq)

/-- **C49.** The number of interpolation points is at least `n+1`, at most the size `p` of the
requested model (twice that for regression), and the branch with random points is not
reached. -/
theorem C49_set_size {e : Env K F} {x0 : List K} {fuel : ℕ} {Δ : K} {sl : List K}
    {s0 : MSt K F} (H : Starts e x0 fuel Δ sl s0)
    (p : ℕ) (hp : p = (if e.regression then 2 else 1) * (match e.finalDeg with
      | .linear => e.n + 1
      | .diagonal => 2 * e.n + 1
      | .quadratic => (e.n + 1) * (e.n + 2) / 2))
    (os : List (Orc K F)) :
    s0.set.Y.length = e.n + 1 ∧
    match mainLoop e os s0 with
    | .running t => e.n + 1 ≤ t.set.Y.length ∧ t.set.Y.length ≤ p
    | .done t => e.n + 1 ≤ t.set.Y.length ∧ t.set.Y.length ≤ p
    | .crash c => c ≠ .randomBranch := by
  have hcap : e.cap = p := by
    rw [hp]; unfold Env.cap Env.pfinal; split <;> cases e.finalDeg <;> simp [two_mul]
  have hs := H.started
  refine ⟨by rw [hs.inv.Ylen, hs.cur], ?_⟩
  have key := mainLoop_sat H os
  cases hr : mainLoop e os s0 with
  | running t => rw [hr] at key; exact ⟨by rw [key.Ylen]; exact key.lo, by rw [key.Ylen, ← hcap]; exact key.hi⟩
  | done t =>
    rw [hr] at key
    have key := key.core
    exact ⟨by rw [key.Ylen]; exact key.lo, by rw [key.Ylen, ← hcap]; exact key.hi⟩
  | crash c => rw [hr] at key; rcases key with rfl | rfl | rfl <;> simp

/-- **C49**, growth: from one pass to the next the set never shrinks and gains at most one
point. -/
theorem C49_growth {e : Env K F} {x0 : List K} {fuel : ℕ} {Δ : K} {sl : List K}
    {s0 : MSt K F} (H : Starts e x0 fuel Δ sl s0) (os : List (Orc K F)) (o : Orc K F)
    (t u : MSt K F) (h : mainLoop e os s0 = .running t) (h' : mainLoop e (os ++ [o]) s0 = .running u) :
    t.set.Y.length ≤ u.set.Y.length ∧ u.set.Y.length ≤ t.set.Y.length + 1 := by
  have key := mainLoop_sat H os
  have key' := mainLoop_sat H (os ++ [o])
  rw [h] at key
  rw [h'] at key'
  have hstep := mainLoop_snoc e os o s0 t h
  rw [hstep] at h'
  simp only [mainLoop] at h'
  have hsat := pass_sat e H.ok o t key
  cases hp : pass e o t with
  | cont v =>
    rw [hp] at h' hsat
    simp only [MainRes.running.injEq] at h'
    subst h'
    rw [key.Ylen, key'.Ylen]
    exact ⟨hsat.2.1.cur0, hsat.2.1.cur1⟩
  | ret v => rw [hp] at h'; cases h'
  | crash c => rw [hp] at h'; cases h'

/-! ### Counterexamples and concrete cases -/

open Ex

theorem Ex.look_done (e : Env ℚ Unit) (x0 : List ℚ) (os : List (Orc ℚ Unit))
    (p : MSt ℚ Unit → Bool)
    (h : look e x0 os false p (fun _ => false) (fun _ => false) = true) :
    ∃ s, start e x0 = some s ∧ ∃ t, mainLoop e os s = .done t ∧ p t = true :=
  look2_done e x0 1 os p (by
    unfold look start at h
    split at h
    · cases h
    · rename_i s hs
      rw [hs]
      simp only
      cases hm : mainLoop e os s with
      | done t => rw [hm] at h; exact h
      | running t => rw [hm] at h; cases h
      | crash c => rw [hm] at h; cases h)

/-- Kernel results for a pass in which the set is improved: the tolerances are met at the top, the
set is not good enough, the far point is replaced by `1e-5`, afterwards the gradient norm is `g`. -/
def Ex.improving (g : ℚ) : Orc ℚ Unit :=
  { orc [1] 1 with
    k1 := ⟨false, 0, 0, 0⟩
    propose := fun _ _ _ => ([1 / 10 ^ 5], 2)
    k2 := ⟨false, g, 0, 0⟩ }

/-- Negation of C12: status 0 is returned with a gradient norm 50 times the tolerance. -/
theorem C12_tolerance_exceeded :
    ∃ s0, Starts (env down (.fin 10) (.fin 100)) [0] 1 1 [] s0 ∧
      ∃ t, mainLoop (env down (.fin 10) (.fin 100)) [improving (50 / 10 ^ 5)] s0 = .done t ∧
        t.ev.flag = 0 ∧ t.glagn = 50 * (env down (.fin 10) (.fin 100)).tolGrad := by
  obtain ⟨s, hs, t, ht, h⟩ := look_done (env down (.fin 10) (.fin 100)) [0]
    [improving (50 / 10 ^ 5)]
    (fun t => decide (t.ev.flag = 0 ∧ t.glagn = 50 * (env down (.fin 10) (.fin 100)).tolGrad))
    (by decide +kernel)
  exact ⟨s, Ex.starts rfl hs, t, ht, by simpa using h⟩

/-- Status 15 occurs: after a step without predicted reduction and a tiny radius. -/
example : look (env ⟨fun _ x => .num (.fin (x.sum ^ 2)), none⟩ (.fin 100) (.fin 100)) [0]
    (List.replicate 14 { orc [1 / 2] 0 with k1 := ⟨false, 1, 1, 1⟩ }) 0
    (fun t => t.ev.flag) (fun _ => 1) (fun _ => 2) = 15 := by decide +kernel

/-- Negation of C16, also for status 0: after a step without predicted reduction `info.f` keeps
the value of the trial point; the run then ends with status 0, the returned point is `0` with value
0, and `info.f = -5`. -/
theorem C16_false :
    ∃ s0, Starts (env down (.fin 10) (.fin 100)) [0] 1 1 [] s0 ∧
      ∃ t, mainLoop (env down (.fin 10) (.fin 100)) [orc [5] 0,
          { orc [1] 1 with k1 := ⟨false, 0, 0, 0⟩, poisedness := fun _ _ => (0, 0) }] s0 = .done t ∧
        t.ev.flag = 0 ∧ t.ev.X[t.ixbest]? = some [0] ∧ t.fx = 0 ∧ t.ev.infoF.val? = some (-5) := by
  obtain ⟨s, hs, t, ht, h⟩ := look_done (env down (.fin 10) (.fin 100)) [0]
    [orc [5] 0, { orc [1] 1 with k1 := ⟨false, 0, 0, 0⟩, poisedness := fun _ _ => (0, 0) }]
    (fun t => decide (t.ev.flag = 0 ∧ t.ev.X[t.ixbest]? = some [0] ∧ t.fx = 0 ∧
      t.ev.infoF.val? = some (-5)))
    (by decide +kernel)
  exact ⟨s, Ex.starts rfl hs, t, ht, by simpa using h⟩

/-- C16, full statement: *`info.f` is the objective value of the returned point*; false
(`C16_false`).  Proved: it is the recorded value of the returned point if status 0 is returned with a
measure above its tolerance (the second convergence test). -/
theorem C16_second_test_partial {e : Env K F} {x0 : List K} {fuel : ℕ} {Δ : K} {sl : List K}
    {s0 : MSt K F} (H : Starts e x0 fuel Δ sl s0) (os : List (Orc K F)) (t : MSt K F)
    (h : mainLoop e os s0 = .done t) (h0 : t.ev.flag = 0)
    (h1 : e.tolGrad < t.glagn ∨ e.tolFeas < t.feasn ∨ e.tolBnds < t.compl) :
    t.ev.infoF = .fin t.fx ∧ t.ev.fX[t.ixbest]? = some (.fin t.fx) := by
  have hf : t.ev.infoF = .fin t.fx := by
    rcases (C12_status_zero_partial H os t h h0).2 with ⟨a, b, c⟩ | ⟨-, -, -, d⟩
    · rcases h1 with h1 | h1 | h1 <;> linarith
    · exact d
  refine ⟨hf, ?_⟩
  obtain ⟨-, -, hl, hy, hfy, hi, -⟩ := C14_interpolation_data H os t (Or.inr h)
  obtain ⟨i, y, f, b1, -, b3, -, b5⟩ := hl 0 (List.getElem?_eq_some_iff.1 hy).1
  rw [b1] at hi; rw [b3] at hfy
  simp only [Option.some.injEq] at hi hfy
  rw [← hi, ← hfy]; exact b5

/-- The objective `-x` that fails at the improvement point. -/
def Ex.fragile : User (List ℚ) ℚ :=
  ⟨fun _ x => if x = [1 / 10 ^ 5] then .raised else .num (.fin (-x.sum)), none⟩

/-- Negation of C51: if the objective fails at an improvement point, an exception escapes instead of
status 3 being returned. -/
theorem C51_false :
    ∃ s0, Starts (env fragile (.fin 10) (.fin 100)) [0] 1 1 [] s0 ∧
      mainLoop (env fragile (.fin 10) (.fin 100)) [improving 0] s0 = .crash .improvementFailed := by
  have h : look (env fragile (.fin 10) (.fin 100)) [0] [improving 0] false (fun _ => false)
      (fun _ => false) (fun c => decide (c = .improvementFailed)) = true := by decide +kernel
  unfold look at h
  split at h
  · cases h
  · rename_i s hs
    refine ⟨s, Ex.starts rfl hs, ?_⟩
    cases hm : mainLoop (env fragile (.fin 10) (.fin 100)) [improving 0] s with
    | done t => rw [hm] at h; cases h
    | running t => rw [hm] at h; cases h
    | crash c => rw [hm] at h; rw [show c = .improvementFailed by simpa using h]

/-- C51, full statement: *a failure of the objective at an improvement point ends the run with status
3*; false (`C51_false`).  Proved: a failure at a trial point does so: whenever status 3 is returned,
the last evaluated point is the one without a recorded value. -/
theorem C51_trial_failure_partial {e : Env K F} {x0 : List K} {fuel : ℕ} {Δ : K} {sl : List K}
    {s0 : MSt K F} (H : Starts e x0 fuel Δ sl s0) (os : List (Orc K F)) (t : MSt K F)
    (h : mainLoop e os s0 = .done t) (h3 : t.ev.flag = 3) :
    t.ev.X.length = t.ev.fX.length + 1 ∧ t.ev.w.logF.getLast? = t.ev.X.getLast? := by
  have key := mainLoop_sat H os
  rw [h] at key
  obtain ⟨a, b⟩ := key.simul h3
  exact ⟨by rw [key.core.Xlen, a], b⟩

/-- The interpolation set grows (quadratic models in one variable: up to 3 points). -/
example : (look { env down (.fin 3) (.fin 100) with finalDeg := .quadratic } [0]
    [orc [1] 1, orc [2] 1, orc [3] 1, orc [4] 1] []
    (fun t => [t.set.Y.length, t.cur, t.ev.X.length]) (fun _ => []) (fun _ => [])) = [3, 3, 5] := by
  decide +kernel

/-- A run with accepted and rejected steps that satisfies the hypotheses of C14, C15. -/
example : (look (env ⟨fun _ x => .num (.fin (x.sum ^ 2)), none⟩ (.fin 4) (.fin 100)) [3]
    [orc [1] 1, orc [4] 1, orc [0] 1, orc [1 / 2] 1, orc [1] 1] ([], 0, [])
    (fun t => (t.x, t.fx, t.set.ind)) (fun _ => ([], 1, [])) (fun _ => ([], 2, []))).2.1 = 0 := by
  decide +kernel

#print axioms C12_status_zero_partial
#print axioms C12_hundredfold_partial
#print axioms C12_tolerance_exceeded
#print axioms C13_status_fifteen
#print axioms C14_interpolation_data
#print axioms C15_returned_point
#print axioms C16_false
#print axioms C16_second_test_partial
#print axioms C49_set_size
#print axioms C49_growth
#print axioms C51_false
#print axioms C51_trial_failure_partial

end Sqpdfo
