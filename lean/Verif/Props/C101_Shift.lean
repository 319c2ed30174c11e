import Verif.Lemmas.MainShift
import Verif.Props.C98_C99_Causal
import Verif.Props.C72_Gradients

/-! # C101: adding a constant to the objective does not change the run -/

set_option linter.unusedSectionVars false

namespace Sqpdfo
open Spec
variable {K F : Type} [Field K] [LinearOrder K] [IsStrictOrderedRing K]

theorem MainRes.Both.mono {R R' : MSt K F → MSt K F → Prop} {r r' : MainRes K F} (h : r.Both R r') (hR : ∀ s t, R s t → R' s t) :
    r.Both R' r' := by
  cases r <;> cases r' <;> first | exact hR _ _ h | exact h

/-- **C101, main loop.** For an objective whose values, with and without the constant, do not exceed `1e25` in absolute
value: with the same kernel results, the run for the objective plus a constant passes through the same points, decisions,
counters, radii, penalty parameters and statuses as the run for the objective, with all objective values larger
by the constant, and ends in the same way.  (This includes the initial sampling.) -/
theorem C101_loop (e : Env K F) (d : K) (hU : Moderate d e.U) (x0 : List K) (fuel : ℕ) (Δ : K) (sl : List K) :
    (startState e x0 fuel Δ sl = none → startState (plusEnv d e) x0 fuel Δ sl = none) ∧
    ∀ s0, startState e x0 fuel Δ sl = some s0 → ∃ t0, startState (plusEnv d e) x0 fuel Δ sl = some t0 ∧
      ∀ os : List (Orc K F), (mainLoop e os s0).Both (ShiftedBy d) (mainLoop (plusEnv d e) os t0) := by
  refine ⟨startState_none e d hU x0 fuel Δ sl, fun s0 h0 => ?_⟩
  obtain ⟨t0, ht, hT⟩ := startState_twins e d hU x0 fuel Δ sl s0 h0
  exact ⟨t0, ht, fun os => (mainLoop_twins e d hU os s0 t0 hT).mono fun _ _ h => h.shifted⟩

/-- **C101, kernels.** The same with kernels that are functions of the state: if the models do not depend on a constant
added to the values (C102) and the other kernels use the objective values through the models only, the two runs stay
together, and they have the same gradients. -/
theorem C101_kernels {e : Env K F} {x0 : List K} {fuel : ℕ} {Δ : K} {sl : List K} {s0 : MSt K F} (H : Starts e x0 fuel Δ sl s0)
    (d : K) (hU : Moderate d e.U)
    (hmodel : ∀ (Y : List (List K)) (x : List K) (fY : List K) (ceY : List (List K)), fY.length = Y.length → Y[0]? = some x →
      e.model (e.build Y) x (fY.map (· + d)) ceY = e.model (e.build Y) x fY ceY)
    (kern : MSt K F → Orc K F)
    (hk : ∀ s t, ShiftedBy d s t → t.infoG = s.infoG → kern t = kern s) :
    ∃ t0, startState (plusEnv d e) x0 fuel Δ sl = some t0 ∧
      ∀ n, (play e kern n s0).Both (fun s t => ShiftedBy d s t ∧ t.infoG = s.infoG) (play (plusEnv d e) kern n t0) := by
  obtain ⟨t0, ht0, hT⟩ := startState_twins e d hU x0 fuel Δ sl s0 H.state
  refine ⟨t0, ht0, ?_⟩
  have hgrad : ∀ (os : List (Orc K F)) (s t : MSt K F), (mainLoop e os s0 = .running s ∨ mainLoop e os s0 = .done s) →
      (mainLoop (plusEnv d e) os t0 = .running t ∨ mainLoop (plusEnv d e) os t0 = .done t) → ShiftedBy d s t →
      t.infoG = s.infoG := by
    intro os s t hs ht h
    obtain ⟨g1, g2, g3, g4, -⟩ := C72_gradients H os s hs
    have hf := mainLoop_fresh (plusEnv d e) os t0 (startState_fresh (plusEnv d e) x0 fuel Δ sl t0 ht0) t ht
    rw [hf.info, hf.gx, h.fac, h.x, h.fY, h.ceY, g1, g3]
    exact hmodel _ _ _ _ g4 g2
  have key : ∀ (n : ℕ) (os : List (Orc K F)) (s t : MSt K F), mainLoop e os s0 = .running s →
      mainLoop (plusEnv d e) os t0 = .running t → Twins d s t →
      (play e kern n s).Both (fun s t => ShiftedBy d s t ∧ t.infoG = s.infoG) (play (plusEnv d e) kern n t) := by
    intro n
    induction n with
    | zero => intro os s t hs ht h; exact ⟨h.shifted, hgrad os s t (Or.inl hs) (Or.inl ht) h.shifted⟩
    | succ n ih =>
      intro os s t hs ht h
      have hg := hgrad os s t (Or.inl hs) (Or.inl ht) h.shifted
      have hp := pass_twins e d hU (kern s) s t h
      have hs' := mainLoop_snoc e os (kern s) s0 s hs
      have ht' := mainLoop_snoc (plusEnv d e) os (kern s) t0 t ht
      simp only [mainLoop] at hs' ht'
      simp only [play, hk s t h.shifted hg]
      cases hr : pass e (kern s) s <;> cases hr' : pass (plusEnv d e) (kern s) t <;>
        rw [hr, hr'] at hp <;> simp only [PassRes.Both] at hp <;> rw [hr] at hs' <;> rw [hr'] at ht'
      · exact ih _ _ _ hs' ht' hp
      · exact ⟨hp.shifted, hgrad _ _ _ (Or.inr hs') (Or.inr ht') hp.shifted⟩
      · exact hp
  exact fun n => key n [] s0 t0 rfl rfl hT

/-! ### Whole calls -/

/-- The set-up as a function of the initial sampling. -/
def setupVia (I : List K → K → InitRes K) (sqrt : K → K) (a : Args K) (g : Globals K) : Setup K :=
  match checkArgs a g with
  | (.ret1, g) => ⟨.ret 1, g, a.opts, .empty⟩
  | (.raised, g) => ⟨.crash, g, a.opts, .empty⟩
  | (.ok r c x0 lb ub, g) =>
    match validate a.opts.dict with
    | .error (.rejected o) => ⟨.ret 1, g, a.opts.after o, .empty⟩
    | .error (.crash o) => ⟨.crash, g, a.opts.after o, .empty⟩
    | .ok o =>
      let oa := a.opts.after o
      if c ≠ 1 then ⟨.ret 1, g, oa, .empty⟩
      else if r < 1 then ⟨.ret 1, g, oa, .empty⟩
      else
        match lb, ub with
        | .col lb, .col ub =>
          match boundsPart r x0 lb ub with
          | none => ⟨.crash, g, oa, .empty⟩
          | some .flag2 => ⟨.ret 2, g, oa, .empty⟩
          | some (.ok Δ ys) =>
            if ys.any (·.2) then ⟨.crash, g, oa, .empty⟩
            else
              let x := ys.map (·.1)
              match I x Δ with
              | .crash => ⟨.crash, g, oa, .empty⟩
              | .running => ⟨.running, g, oa, .empty⟩
              | .failed s => ⟨.ret s.flag, g, oa, s.w⟩
              | .stalled s => ⟨.crash, g, oa, s.w⟩
              | .done Δ s =>
                if g.nbrSlacks > 0 then
                  match initSlacks sqrt g.nbrSlacks (firstCe s) ub with
                  | none => ⟨.crash, g, oa, s.w⟩
                  | some sl =>
                    ⟨.go ⟨o, Δ, s, lb, ub, g.nbrSlacks, sl⟩, { g with slacks := sl }, oa, s.w⟩
                else ⟨.go ⟨o, Δ, s, lb, ub, 0, []⟩, g, oa, s.w⟩
        | _, _ => ⟨.crash, g, oa, .empty⟩

theorem setup_via (U : User (List K) K) (sqrt : K → K) (nrm : List K → K) (fuel : ℕ) (a : Args K) (g : Globals K) :
    setup U sqrt nrm fuel a g = setupVia (fun x Δ => initLoop U x (nrm x) fuel Δ emptyEv) sqrt a g := rfl

/-- The data for the main part with values larger by `d`. -/
def inPlus (d : K) (i : MainIn K) : MainIn K := { i with ev := evPlus d i.ev }

/-- The result of the set-up with values larger by `d`. -/
def SetupRes.shift (d : K) : SetupRes K → SetupRes K
  | .go i => .go (inPlus d i)
  | r => r

theorem setupVia_plus (d : K) (I : List K → K → InitRes K) (sqrt : K → K) (a : Args K) (g : Globals K) :
    setupVia (fun x Δ => (I x Δ).map (evPlus d)) sqrt a g =
      { setupVia I sqrt a g with res := (setupVia I sqrt a g).res.shift d } := by
  unfold setupVia
  split
  · rfl
  · rfl
  · split
    · rfl
    · rfl
    · dsimp only
      split
      · rfl
      split
      · rfl
      split
      · split
        · rfl
        · rfl
        · rename_i D ys hb
          split
          · rfl
          cases I (ys.map (·.1)) D with
          | crash => rfl
          | running => rfl
          | failed s => rfl
          | stalled s => rfl
          | done D s =>
            simp only [InitRes.map]
            split
            · rw [show firstCe (evPlus d s) = firstCe s from rfl]
              cases initSlacks sqrt _ (firstCe s) _ with
              | none => rfl
              | some sl => rfl
            · rfl
      · rfl

theorem setup_plus {d : K} {U : User (List K) K} (hU : Moderate d U) (sqrt : K → K) (nrm : List K → K) (fuel : ℕ) (a : Args K)
    (g : Globals K) : setup (plusUser d U) sqrt nrm fuel a g =
      { setup U sqrt nrm fuel a g with res := (setup U sqrt nrm fuel a g).res.shift d } := by
  rw [setup_via, setup_via, ← setupVia_plus]
  congr 1
  funext x D
  exact initLoop_plus hU x (nrm x) fuel D emptyEv

theorem envOf_plus (k : Kernels K F) (U : User (List K) K) (d : K) (ex : Extra) (i : MainIn K) :
    envOf k (plusUser d U) ex (inPlus d i) = (envOf k U ex i).map (plusEnv d) := by
  unfold envOf
  rw [show (inPlus d i).opts = i.opts from rfl]
  split
  · rfl
  · rfl

theorem evPlus_zero {P : Type} (s : EvSt P K) : evPlus 0 s = s := by
  unfold evPlus
  rw [plus_zero, show (plus 0 : Fl K → Fl K) = id from funext plus_zero, List.map_id]

theorem mainInit_rejected (e : Env K F) (D : K) (sl : List K) (ev : EvSt (List K) K) (s : MSt K F)
    (h : mainInit e D sl ev = some s) : s.rejected = false := by
  unfold mainInit at h
  split at h
  · split at h
    · cases h
    · cases h; rfl
  · cases h

theorem mainInit_twins (e : Env K F) (d D : K) (sl : List K) (ev : EvSt (List K) K) :
    (mainInit e D sl ev = none → mainInit (plusEnv d e) D sl (evPlus d ev) = none) ∧
    ∀ s, mainInit e D sl ev = some s → ∃ t, mainInit (plusEnv d e) D sl (evPlus d ev) = some t ∧ Twins d s t := by
  have h1 := mainInit_plus e d D sl ev
  have h2 := mainInit_plus (plusEnv d e) 0 D sl (evPlus d ev)
  rw [bare_zero, evPlus_zero, h1] at h2
  constructor
  · intro h
    rw [h] at h2
    cases ht : mainInit (plusEnv d e) D sl (evPlus d ev) with
    | none => rfl
    | some t => rw [ht] at h2; cases h2
  · intro s h
    rw [h] at h2
    cases ht : mainInit (plusEnv d e) D sl (evPlus d ev) with
    | none => rw [ht] at h2; cases h2
    | some t =>
      rw [ht] at h2
      simp only [Option.map_some, Option.some.injEq] at h2
      refine ⟨t, rfl, _, ⟨0, 0, rfl, fun hr => ?_⟩, ⟨0, 0, h2, fun hr => ?_⟩⟩
      · rw [mainInit_rejected e D sl ev s h] at hr; cases hr
      · rw [mainInit_rejected (plusEnv d e) D sl _ t ht] at hr; cases hr

theorem envOf_U (k : Kernels K F) (U : User (List K) K) (ex : Extra) (i : MainIn K) (e : Env K F) (h : envOf k U ex i = some e) :
    e.U = U := by
  unfold envOf at h
  split at h
  · cases h; rfl
  · cases h

/-- **C101, whole calls.** For an objective whose values, with and without the constant, do not exceed `1e25` in absolute
value: a call for the objective plus a constant ends in the same way as the call for the objective - same status
and calls after an early return, same exception, or same returned point and same recorded data with all
objective values larger by the constant. -/
theorem C101_call (k : Kernels K F) (U : User (List K) K) (d : K) (hU : Moderate d U) (fuel : ℕ) (os : List (Orc K F))
    (a : Args K) (ex : Extra) (g : Globals K) :
    (call k U fuel os a ex g).Both (ShiftedBy d) (call k (plusUser d U) fuel os a ex g) := by
  unfold call
  rw [setup_plus hU]
  dsimp only
  cases hs : (setup U k.sqrt k.nrm fuel a g).res with
  | ret fl => exact ⟨rfl, rfl⟩
  | crash => trivial
  | running => trivial
  | go i =>
    show (runMain k U ex os i).Both (ShiftedBy d) (runMain k (plusUser d U) ex os (inPlus d i))
    unfold runMain
    rw [envOf_plus, show prelimRaise ex (inPlus d i) = prelimRaise ex i from rfl]
    cases prelimRaise ex i with
    | some r => trivial
    | none =>
      dsimp only
      cases he : envOf k U ex i with
      | none => trivial
      | some e =>
        simp only [Option.map_some]
        have hU' : Moderate d e.U := by rw [envOf_U k U ex i e he]; exact hU
        obtain ⟨m1, m2⟩ := mainInit_twins e d i.Δ i.slacks i.ev
        rw [show (inPlus d i).Δ = i.Δ from rfl, show (inPlus d i).slacks = i.slacks from rfl,
          show (inPlus d i).ev = evPlus d i.ev from rfl]
        cases h0 : mainInit e i.Δ i.slacks i.ev with
        | none => rw [m1 h0]; trivial
        | some s0 =>
          obtain ⟨t0, ht0, hT⟩ := m2 s0 h0
          rw [ht0]
          dsimp only
          have hl := (mainLoop_twins e d hU' os s0 t0 hT).mono fun _ _ h => h.shifted
          cases hr : mainLoop e os s0 <;> cases hr' : mainLoop (plusEnv d e) os t0 <;> rw [hr, hr'] at hl <;>
            simp only [MainRes.Both] at hl
          · rename_i s t
            dsimp only
            rw [hl.points, hl.ixbest]
            cases s.ev.X[s.ixbest]? with
            | none => rfl
            | some x => exact ⟨rfl, hl⟩
          · exact hl
          · trivial

namespace Ex

/-- The objective `-x`, cut off at `±1e24`. -/
def downCut : User (List ℚ) ℚ := ⟨fun _ x => .num (.fin (max (-10 ^ 24) (min (10 ^ 24) (-x.sum)))), none⟩

theorem downCut_moderate (d : ℚ) (hd : |d| ≤ 10 ^ 24) : Moderate d downCut := by
  intro w y q hq
  simp only [downCut, FOut.num.injEq, Fl.fin.injEq] at hq
  have h1 : -10 ^ 24 ≤ q := by rw [← hq]; exact le_max_left _ _
  have h2 : q ≤ 10 ^ 24 := by rw [← hq]; exact max_le (by norm_num) (min_le_left _ _)
  rw [abs_le] at hd ⊢
  rw [abs_le]
  refine ⟨⟨?_, ?_⟩, ?_, ?_⟩ <;> linarith [hd.1, hd.2]

/-- C101 is not void: in the run for `-x + 5` the step from `0` to `1` and then the step to `3` are accepted, with the values `5`, `4`, `2` there. -/
example : Moderate 5 downCut ∧
    look (env downCut .pinf .pinf) [0] [orc [1] 1, orc [3] 2] none
      (fun _ => none) (fun t => some (t.x, t.fx, t.ev.X, t.ev.fX)) (fun _ => none) =
        some ([3], -3, [[0], [-1], [1], [3]], [Fl.fin 0, Fl.fin 1, Fl.fin (-1), Fl.fin (-3)]) ∧
    look (plusEnv 5 (env downCut .pinf .pinf)) [0] [orc [1] 1, orc [3] 2] none
      (fun _ => none) (fun t => some (t.x, t.fx, t.ev.X, t.ev.fX)) (fun _ => none) =
        some ([3], 2, [[0], [-1], [1], [3]], [Fl.fin 5, Fl.fin 6, Fl.fin 4, Fl.fin 2]) :=
  ⟨downCut_moderate 5 (by norm_num [abs_le]), by decide +kernel, by decide +kernel⟩

/-- The limit is needed: for `-x + 2e25` all values are recorded as `1e25`, and the step from `0` to `1` is not accepted. -/
theorem C101_limit :
    look (env down .pinf .pinf) [0] [orc [1] 1] none
      (fun _ => none) (fun t => some t.x) (fun _ => none) = some [1] ∧
    look (plusEnv (2 * 10 ^ 25) (env down .pinf .pinf)) [0] [orc [1] 1] none
      (fun _ => none) (fun t => some t.x) (fun _ => none) = some [0] :=
  ⟨by decide +kernel, by decide +kernel⟩

/-- Kernels for `C101_kernels`: the step is the negative gradient of the model. -/
def descend (s : MSt ℚ (List (List ℚ))) : Orc ℚ (List (List ℚ)) := gOrc 1 (List.zipWith (· - ·) s.x s.infoG.g) 1

theorem slope_plus (d : ℚ) (Y : List (List ℚ)) (fY : List ℚ) : slope Y (fY.map (· + d)) = slope Y fY := by
  rcases fY with _ | ⟨u, _ | ⟨v, _ | ⟨w, l⟩⟩⟩
  · rfl
  · rcases Y with _ | ⟨_ | ⟨a, _ | ⟨a', A⟩⟩, _ | ⟨_ | ⟨b, _ | ⟨b', B⟩⟩, _ | ⟨y, Y⟩⟩⟩ <;> rfl
  · rcases Y with _ | ⟨_ | ⟨a, _ | ⟨a', A⟩⟩, _ | ⟨_ | ⟨b, _ | ⟨b', B⟩⟩, _ | ⟨y, Y⟩⟩⟩ <;>
      simp [slope, add_sub_add_right_eq_sub]
  · rcases Y with _ | ⟨_ | ⟨a, _ | ⟨a', A⟩⟩, _ | ⟨_ | ⟨b, _ | ⟨b', B⟩⟩, _ | ⟨y, Y⟩⟩⟩ <;> rfl

/-- The hypotheses of `C101_kernels` hold for linear models on the line and steps along the negative gradient. -/
example : (∀ (Y : List (List ℚ)) (x : List ℚ) (fY : List ℚ) (ceY : List (List ℚ)), fY.length = Y.length → Y[0]? = some x →
      (gEnv downCut .pinf).model ((gEnv downCut .pinf).build Y) x (fY.map (· + 5)) ceY =
        (gEnv downCut .pinf).model ((gEnv downCut .pinf).build Y) x fY ceY) ∧
    (∀ s t, ShiftedBy 5 s t → t.infoG = s.infoG → descend t = descend s) ∧
    (match startState (gEnv downCut .pinf) [0] 1 1 [] with
      | none => none
      | some s => match play (gEnv downCut .pinf) descend 2 s with
        | .running t => some (t.x, t.infoG.g)
        | _ => none) = some ([2], [-1]) := by
  refine ⟨fun Y x fY ceY _ _ => ?_, fun s t h hg => ?_, by decide +kernel⟩
  · show (⟨slope Y (fY.map (· + 5)), []⟩ : Grads ℚ) = ⟨slope Y fY, []⟩
    rw [slope_plus]
  · unfold descend; rw [h.x, hg]

end Ex
end Sqpdfo

#print axioms Sqpdfo.C101_loop
#print axioms Sqpdfo.C101_kernels
#print axioms Sqpdfo.C101_call
#print axioms Sqpdfo.Ex.C101_limit
