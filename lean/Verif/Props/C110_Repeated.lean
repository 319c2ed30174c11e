import Verif.Props.C50_Evaluated
import Verif.Props.C104_Poised
import Verif.Props.C65_Simplex
import Verif.Props.C98_C99_Causal
import Verif.Props.C44_C67_SolveTR
import Verif.Lemmas.MainKeep

/-! # C110: repeated evaluations -/

set_option linter.unusedSectionVars false

namespace Sqpdfo
open Spec Finset
variable {K F : Type} [Field K] [LinearOrder K] [IsStrictOrderedRing K]

/-! ### Sampling -/

theorem simplex_nodup (x : List K) (D : K) (hD : D ≠ 0) : (simplex x D).Nodup := by
  have hval : ∀ (i j : ℕ) (hi : i < x.length), (x.mapIdx fun i v => v + -D * (if i = j then 1 else 0))[i]? =
      some (x[i] + -D * (if i = j then 1 else 0)) := by
    intro i j hi
    simp [hi]
  unfold simplex
  refine List.nodup_cons.2 ⟨?_, ?_⟩
  · intro h
    obtain ⟨j, hj, he⟩ := List.mem_map.1 h
    have hj : j < x.length := List.mem_range.1 hj
    have := hval j j hj
    rw [he] at this
    simp [hj, hD] at this
  · refine List.Nodup.map_on ?_ List.nodup_range
    intro j hj j' hj' h
    by_contra hne
    have hj : j < x.length := List.mem_range.1 hj
    have h1 := hval j j hj
    have h2 := hval j j' hj
    rw [h] at h1
    rw [h1] at h2
    simp [hne, hD] at h2

/-- C110, the part that holds, first half.  The full statement (*in a call no point is evaluated twice*) is false
(`C110_false`, `C110_zero_false`, `C110_resample_false`).  Proved here: the sampling that is handed to the main loop has evaluated pairwise different points. -/
theorem C110_sampling_partial {e : Env K F} {x0 : List K} {fuel : ℕ} {Δ : K} {sl : List K} {s0 : MSt K F}
    (H : Starts e x0 fuel Δ sl s0) : s0.ev.X.Nodup ∧ s0.ev.X.length = e.n + 1 ∧ s0.set.Y = s0.ev.X := by
  have hs := H.state
  unfold startState at hs
  cases hi : initLoop e.U x0 (e.nrm x0) fuel Δ emptyEv with
  | crash => rw [hi] at hs; cases hs
  | failed ev => rw [hi] at hs; cases hs
  | stalled ev => rw [hi] at hs; cases hs
  | running => rw [hi] at hs; cases hs
  | done D ev =>
    rw [hi] at hs
    obtain ⟨-, hX, -, -, j, hD⟩ := C48_done_complete e.U x0 _ _ _ _ _ _ rfl hi
    have hD0 : D ≠ 0 := by
      rw [hD]
      exact mul_ne_zero (by positivity) H.radius.ne'
    have hn := simplex_nodup x0 D hD0
    rw [← hX] at hn
    have hl : ev.X.length = e.n + 1 := by
      rw [hX]
      simp [simplex, H.dim]
    simp only [mainInit] at hs
    split at hs
    · split at hs
      · cases hs
      · simp only [Option.some.injEq] at hs
        subst hs
        exact ⟨hn, hl, rfl⟩
    · cases hs

/-! ### Interpolation sets -/

theorem Spec.OneAffine.nodup {n : ℕ} {Y : List (List K)} (h : OneAffine n Y) : Y.Nodup := by
  rw [List.nodup_iff_injective_getElem]
  intro i j hij
  by_contra hne
  obtain ⟨p, hp, -⟩ := h fun l => if l = i.1 then 1 else 0
  have h1 := hp i.1 Y[i.1] (List.getElem?_eq_getElem i.2)
  have h2 := hp j.1 Y[j.1] (List.getElem?_eq_getElem j.2)
  have hne' : j.1 ≠ i.1 := fun h => hne (Fin.ext h.symm)
  simp only [Fin.getElem_fin] at hij
  rw [hij] at h1
  rw [h1] at h2
  simp [hne'] at h2

/-- C110, second half: with linear models and the Lagrange functions of the current sets (`C104_poised`) no interpolation set of a run contains a point twice, so an improvement
of the set never evaluates a point of the new set that is in the set for another reason. -/
theorem C110_set_partial {e : Env K F} {x0 : List K} {fuel : ℕ} {Δ : K} {sl : List K} {s0 : MSt K F} (H : Starts e x0 fuel Δ sl s0)
    (hlin : e.finalDeg = .linear) (hreg : e.regression = false) (os : List (Orc K F))
    (hT : ∀ pre o post u, os = pre ++ o :: post → mainLoop e pre s0 = .running u → TrueLagrange e o u) (t : MSt K F)
    (ht : mainLoop e os s0 = .running t ∨ mainLoop e os s0 = .done t) : t.set.Y.Nodup :=
  (C104_poised H hlin hreg os hT t ht).2.nodup

/-! ### Zero steps -/

theorem zero_stage (e : Env K F) (o : Orc K F) (s t : MSt K F) (hI : Inv e [] s) (hq : o.qcost = 0) (hr : o.rpred = 0)
    (h : stepStage e o s = .cont t) :
    (t.x = s.x ∧ t.fx = s.fx ∧ t.ixbest = s.ixbest ∧ t.set = s.set ∧ t.delta = s.delta ∧ t.sigma = s.sigma) ∧ t.pred = -1 ∧
      t.ev.X = s.ev.X ++ [o.xnew] ∧ t.ev.w.logF = s.ev.w.logF ++ [o.xnew] ∧ t.ev.nsimul = s.ev.nsimul + 1 := by
  have key : (stepStage e o s).Sat (fun t => (t.x = s.x ∧ t.fx = s.fx ∧ t.ixbest = s.ixbest ∧ t.set = s.set ∧ t.delta = s.delta ∧
      t.sigma = s.sigma) ∧ t.pred = -1 ∧
      t.ev.X = s.ev.X ++ [o.xnew] ∧ t.ev.w.logF = s.ev.w.logF ++ [o.xnew] ∧ t.ev.nsimul = s.ev.nsimul + 1) (fun _ => True) (fun _ => True) := by
    unfold stepStage
    refine PassRes.Sat.bind (Q := fun t => (t.x = s.x ∧ t.fx = s.fx ∧ t.ixbest = s.ixbest ∧ t.set = s.set ∧ t.delta = s.delta ∧
      t.sigma = s.sigma) ∧ t.ev = s.ev ∧ t.m = s.m) ?_ fun u hu => ?_
    · unfold globalise
      split
      · exact ⟨⟨rfl, rfl, rfl, rfl, rfl, rfl⟩, rfl, rfl⟩
      · split
        · trivial
        · split
          · trivial
          · exact ⟨⟨rfl, rfl, rfl, rfl, rfl, rfl⟩, rfl, rfl⟩
    · dsimp only
      split
      · trivial
      refine PassRes.Sat.bind (Q := fun t => (t.x = s.x ∧ t.fx = s.fx ∧ t.ixbest = s.ixbest ∧ t.set = s.set ∧ t.delta = s.delta ∧
        t.sigma = s.sigma) ∧ t.ev.X = s.ev.X ++ [o.xnew] ∧ t.ev.w.logF = s.ev.w.logF ++ [o.xnew] ∧ t.ev.nsimul = s.ev.nsimul + 1) ?_ fun v hv => ?_
      · obtain ⟨h1, hev, hm⟩ := hu
        have hp : penalty o { u with niter := u.niter + 1 } = .cont { u with niter := u.niter + 1 } := by
          unfold penalty sigmab
          rw [if_pos hr]
          have h0 : ¬ u.sigma < 0 := by
            rw [h1.2.2.2.2.2, not_lt]
            exact le_trans zero_le_one hI.sigma
          exact if_neg h0
        rw [hp]
        show (evalTrial e o _).Sat _ _ _
        unfold evalTrial
        dsimp only
        rw [hev, hm]
        cases ha : augmX e.U (.fin big) o.xnew (s.m + 1) s.ev with
        | none => trivial
        | some ev =>
          obtain ⟨hL, -, -⟩ := augmX_longer _ _ _ _ _ hI.Xlen hI.fXlen hI.cXlen ha
          dsimp only
          split
          · trivial
          · split
            · split
              · trivial
              · split
                · trivial
                · exact ⟨h1, hL.X, hL.logF, hL.nsimul⟩
            · exact ⟨h1, hL.X, hL.logF, hL.nsimul⟩
      · have hpred : ∀ sg : K, newPred o sg = -1 := by
          intro sg
          simp [newPred, hq, hr]
        unfold decideStep
        split
        · trivial
        · split
          · trivial
          · dsimp only
            rw [hpred, if_pos rfl]
            exact ⟨hv.1, rfl, hv.2⟩
  rw [h] at key
  exact key

/-- C110, zero steps.  If the step solver returns the iterate itself (without predicted reductions), the functions are evaluated there once more; the
second half of the pass changes neither the iterate nor the set, the radius or the penalty parameter, and records `pred = -1`. -/
theorem C110_zero_step {e : Env K F} {x0 : List K} {fuel : ℕ} {Δ : K} {sl : List K} {s0 : MSt K F} (H : Starts e x0 fuel Δ sl s0)
    (os : List (Orc K F)) (s : MSt K F) (hs : mainLoop e os s0 = .running s) (o : Orc K F) (hq : o.qcost = 0) (hr : o.rpred = 0)
    (hx : ∀ v, beforeStep e o s = .cont v → o.xnew = v.x) (t : MSt K F) (h : pass e o s = .cont t) :
    ∃ v, beforeStep e o s = .cont v ∧ v.x ∈ v.ev.X ∧
      (t.x = v.x ∧ t.fx = v.fx ∧ t.ixbest = v.ixbest ∧ t.set = v.set ∧ t.delta = v.delta ∧ t.sigma = v.sigma) ∧ t.pred = -1 ∧
      t.ev.X = v.ev.X ++ [v.x] ∧ t.ev.w.logF = v.ev.w.logF ++ [v.x] ∧ t.ev.nsimul = v.ev.nsimul + 1 := by
  rw [pass_eq] at h
  have hb := beforeStep_inv e H.ok o s (H.memory os s hs).inv
  cases hv : beforeStep e o s with
  | ret v => rw [hv] at h; cases h
  | crash c => rw [hv] at h; cases h
  | cont v =>
    rw [hv] at h hb
    have hI : Inv e [] v := hb
    have := zero_stage e o v t hI hq hr h
    rw [hx v hv] at this
    refine ⟨v, rfl, ?_, this⟩
    obtain ⟨i, y, f, -, b, -, d, -⟩ := hI.link 0 (by have := hI.lo; omega) (by simp)
    rw [hI.Y0] at b
    cases b
    exact List.mem_of_getElem? d

/-! ### Counterexamples and concrete cases -/

namespace Ex

/-- The objective is the variable itself. -/
def lin1 : User (List ℚ) ℚ := ⟨fun _ x => .num (.fin x.sum), none⟩

theorem lin1_starts : ∃ s, Starts (gEnv lin1 .pinf) [3] 1 1 [] s := by
  have h : (startState (gEnv lin1 .pinf) [3] 1 1 []).isSome = true := by decide +kernel
  obtain ⟨s, hs⟩ := Option.isSome_iff_exists.1 h
  exact ⟨s, gEnv_ok _ _, gEnv_constr _ _, rfl, one_pos, hs⟩

theorem back_step : ∃ a, solveTR0 linBC ![3] ![-10 ^ 30] ![10 ^ 30] ![1] 0 1 = some (![2], a) := by
  have h : (solveTR0 linBC ![3] ![-10 ^ 30] ![10 ^ 30] ![1] 0 1).map (fun p => p.1 0) = some 2 := by
    decide +kernel
  cases hs : solveTR0 linBC ![3] ![-10 ^ 30] ![10 ^ 30] ![1] 0 1 with
  | none => rw [hs] at h; cases h
  | some p =>
    rw [hs] at h
    refine ⟨p.2, ?_⟩
    have h : p.1 0 = 2 := Option.some.inj h
    rw [← h]
    congr 1
    refine Prod.ext ?_ rfl
    funext i
    rw [Subsingleton.elim i 0]; rfl

end Ex

/-- C110 is false.  `x` is minimised from 3 without effective bounds, with linear models: the sampling evaluates 3 and 2, the gradient of the model is 1, the
step solver goes one radius against the gradient, and the first trial point is the sampling point 2, which is evaluated again. -/
theorem C110_false : ∃ (s0 t : MSt ℚ (List (List ℚ))) (o : Orc ℚ (List (List ℚ))), Starts (Ex.gEnv Ex.lin1 .pinf) [3] 1 1 [] s0 ∧
    s0.infoG.g = [1] ∧ s0.delta = 1 ∧ FromSolver (Ex.gEnv Ex.lin1 .pinf) s0 o ∧ pass (Ex.gEnv Ex.lin1 .pinf) o s0 = .cont t ∧
    s0.ev.w.logF = [[3], [2]] ∧ t.ev.w.logF = [[3], [2], [2]] ∧ t.ev.X = [[3], [2], [2]] ∧ t.x = [2] := by
  obtain ⟨s0, H⟩ := Ex.lin1_starts
  have h : ((startState (Ex.gEnv Ex.lin1 .pinf) [3] 1 1 []).bind fun s => match pass (Ex.gEnv Ex.lin1 .pinf) (Ex.gOrc 1 [2] 1) s with
      | .cont t => some ((s.x, s.infoG.g, s.delta), (s.ev.w.logF, t.ev.w.logF), (t.ev.X, t.x))
      | _ => none) = some (([3], [1], 1), ([[3], [2]], [[3], [2], [2]]), ([[3], [2], [2]], [2])) := by decide +kernel
  rw [H.state] at h
  simp only [Option.bind_some] at h
  cases hp : pass (Ex.gEnv Ex.lin1 .pinf) (Ex.gOrc 1 [2] 1) s0 with
  | ret t => rw [hp] at h; cases h
  | crash c => rw [hp] at h; cases h
  | cont t =>
    rw [hp] at h
    simp only [Option.some.injEq, Prod.mk.injEq] at h
    obtain ⟨⟨h0, h1, h2⟩, ⟨h3, h4⟩, h5, h6⟩ := h
    obtain ⟨a, ha⟩ := Ex.back_step
    exact ⟨s0, t, Ex.gOrc 1 [2] 1, H, h1, h2,
      .unconstrained Ex.linBC ![3] ![-10 ^ 30] ![10 ^ 30] ![1] ![2] 0 1 a (by rw [h0]; rfl) rfl rfl ha rfl, hp, h3, h4, h5, h6⟩

namespace Ex

/-- Objective 0 and the constraint `1 = 0`. -/
abbrev infeas : Env ℚ Unit := envC (fun _ => 0) (fun _ => 1) false

/-- The data of the step for `infeas` at 0. -/
def infeasST : STIn ℚ 1 1 0 where
  x := 0
  sl := 0
  lb := Sum.elim ![-10 ^ 30] ![]
  ub := Sum.elim ![10 ^ 30] ![]
  δ := 1
  M := 0
  g := 0
  ce := fun _ => 1
  ae := fun _ => 0
  lm := (0, 0)
  precR := 1 / 10 ^ 6
  thr := 1 / 10 ^ 8

end Ex

/-- Zero steps: objective 0 and the constraint `1 = 0`, which cannot be satisfied.  The step solver has nothing to reduce and returns the iterate; each pass
evaluates it again (the second pass, in addition, a point that improves the set, here the start point once more). -/
theorem C110_zero_false :
    (solveTR (Ex.tableST fun _ => 0) Ex.infeasST).map (fun p => (p.xnew 0, p.rpred)) = some (0, 0) ∧
    ∃ s0, Starts Ex.infeas [0] 1 1 [] s0 ∧ s0.x = [0] ∧ s0.infoCe = [1] ∧
      ∃ t u, pass Ex.infeas (Ex.stepC [0] 0) s0 = .cont t ∧ t.ev.w.logF = [[0], [-1], [0]] ∧
        mainLoop Ex.infeas [Ex.stepC [0] 0, Ex.stepC [0] 0, Ex.stepC [0] 0] s0 = .running u ∧
        u.ev.w.logF = [[0], [-1], [0], [0], [0], [0]] := by
  refine ⟨by decide +kernel, ?_⟩
  have h : ((Ex.start Ex.infeas [0]).bind fun s =>
      match pass Ex.infeas (Ex.stepC [0] 0) s, mainLoop Ex.infeas [Ex.stepC [0] 0, Ex.stepC [0] 0, Ex.stepC [0] 0] s with
      | .cont t, .running u => some ((s.x, s.infoCe), (t.ev.w.logF, u.ev.w.logF))
      | _, _ => none) = some (([0], [1]), ([[0], [-1], [0]], [[0], [-1], [0], [0], [0], [0]])) := by decide +kernel
  cases hs : Ex.start Ex.infeas [0] with
  | none => rw [hs] at h; cases h
  | some s =>
    rw [hs] at h
    simp only [Option.bind_some] at h
    cases hp : pass Ex.infeas (Ex.stepC [0] 0) s with
    | ret t => rw [hp] at h; cases h
    | crash c => rw [hp] at h; cases h
    | cont t =>
      cases hm : mainLoop Ex.infeas [Ex.stepC [0] 0, Ex.stepC [0] 0, Ex.stepC [0] 0] s with
      | done t => rw [hp, hm] at h; cases h
      | crash c => rw [hp, hm] at h; cases h
      | running u =>
        rw [hp, hm] at h
        simp only [Option.some.injEq, Prod.mk.injEq] at h
        obtain ⟨⟨h1, h2⟩, h4, h5⟩ := h
        exact ⟨s, Ex.envC_starts rfl hs, h1, h2, t, u, hp, h4, hm, h5⟩

/-- Sampling: a value below `-1e25` starts the sampling again with a smaller radius; the start point is evaluated again. -/
theorem C110_resample_false : (initLoop (K := ℚ) ⟨fun _ x => .num (.fin (if x.sum < -1 / 4 then -10 ^ 26 else x.sum)), none⟩ [1 / 2] (1 / 2) 3 1
    emptyEv).st?.map (fun s => s.w.logF) = some [[1 / 2], [-1 / 2], [1 / 2], [49 / 100]] := by decide +kernel

/-- `C110_sampling_partial` on a start state with two points. -/
example : ∃ s0, Starts (Ex.gEnv Ex.square .pinf) [3] 1 1 [] s0 ∧ s0.ev.X.Nodup ∧ s0.ev.X.length = 2 := by
  obtain ⟨s0, H⟩ := Ex.gStarts
  exact ⟨s0, H, (C110_sampling_partial H).1, (C110_sampling_partial H).2.1⟩

/-- `C110_set_partial` on the run of `C104`, in which the set changes three times. -/
example : ∃ s0, Starts (Ex.gEnv Ex.square .pinf) [3] 1 1 [] s0 ∧ ∀ t, mainLoop (Ex.gEnv Ex.square .pinf) Ex.lRun s0 = .running t → t.set.Y.Nodup := by
  obtain ⟨s0, H⟩ := Ex.gStarts
  refine ⟨s0, H, fun t hm => C110_set_partial H rfl rfl Ex.lRun ?_ t (Or.inl hm)⟩
  intro pre o post u h1 h2
  match pre with
  | [] =>
    cases h1
    exact Ex.lTrue H h2 _ _ _ _ _ (by norm_num) (by decide +kernel)
  | [a] =>
    cases h1
    exact Ex.lTrue H h2 _ _ _ _ _ (by norm_num) (by decide +kernel)
  | a :: b :: l =>
    have := congrArg List.length h1
    simp [Ex.lRun] at this

/-- `C110_zero_step` on the first pass for `infeas`: the hypotheses hold and the point 0 is evaluated again. -/
example : ∃ s0 t, Starts Ex.infeas [0] 1 1 [] s0 ∧ pass Ex.infeas (Ex.stepC [0] 0) s0 = .cont t ∧
    (Ex.stepC [0] 0).qcost = 0 ∧ (Ex.stepC [0] 0).rpred = 0 ∧
    (∀ v, beforeStep Ex.infeas (Ex.stepC [0] 0) s0 = .cont v → (Ex.stepC [0] 0).xnew = v.x) ∧ t.pred = -1 := by
  obtain ⟨-, s0, H, hx, -, t, -, hp, -⟩ := C110_zero_false
  have hv : ∀ v, beforeStep Ex.infeas (Ex.stepC [0] 0) s0 = .cont v → (Ex.stepC [0] 0).xnew = v.x := by
    intro v hv
    have h : ((Ex.start Ex.infeas [0]).bind fun s => match beforeStep Ex.infeas (Ex.stepC [0] 0) s with
      | .cont v => some v.x
      | _ => none) = some [0] := by decide +kernel
    have hs : Ex.start Ex.infeas [0] = some s0 := H.state
    rw [hs] at h
    simp only [Option.bind_some] at h
    rw [hv] at h
    exact (Option.some.inj h).symm
  obtain ⟨v, -, -, -, h, -⟩ := C110_zero_step H [] s0 rfl (Ex.stepC [0] 0) rfl rfl hv t hp
  exact ⟨s0, t, H, hp, rfl, rfl, hv, h⟩

#print axioms C110_sampling_partial
#print axioms C110_set_partial
#print axioms C110_zero_step
#print axioms C110_false
#print axioms C110_zero_false
#print axioms C110_resample_false

end Sqpdfo
