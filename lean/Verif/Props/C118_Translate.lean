import Verif.Lemmas.MainTranslate
import Verif.Props.C101_Shift
import Verif.Props.C104_Poised
import Verif.Props.C110_Repeated
import Verif.Lemmas.SolveTRMove

/-! # C118: moving the variables by a constant vector -/

set_option linter.unusedSectionVars false

namespace Sqpdfo
open Spec
variable {K F : Type} [Field K] [LinearOrder K] [IsStrictOrderedRing K]

/-- **C118, other coordinates.** The main loop for the problem in other coordinates, with the kernel results in these coordinates, is the
image of the main loop for the problem: same decisions, values, counters, radii, penalty parameters and status, the points being mapped -
if the points at which the user's functions are called have the property `D`, and the stopping radius and the bound test are the same at them in
both coordinates. -/
theorem C118_coordinates {e : Env K F} {x0 : List K} {fuel : ℕ} {Δ : K} {sl : List K} {s0 : MSt K F} (H : Starts e x0 fuel Δ sl s0)
    {A : Coords K F} {D : List K → Prop} {τ : List K → List K} {φ : F → F} {γ : Grads K → Grads K} (h : Carried D τ φ γ e A) (os os' : List (Orc K F))
    (ho : List.Forall₂ (CarriedOrc D τ φ) os os') :
    (∀ t, mainLoop e os s0 = .running t → (∀ y ∈ t.ev.w.logF, D y ∧ SameFloor e τ y ∧ SameSide e A τ y) →
      mainLoop (e.within A) os' (carrySt τ φ γ s0) = .running (carrySt τ φ γ t)) ∧
    ∀ t, mainLoop e os s0 = .done t → (∀ y ∈ t.ev.w.logF, D y ∧ SameFloor e τ y ∧ SameSide e A τ y) →
      mainLoop (e.within A) os' (carrySt τ φ γ s0) = .done (carrySt τ φ γ t) := by
  constructor
  · intro t ht hN
    rw [mainLoop_tr h H.ok os os' s0 ho H.started.inv t (Or.inl ht) hN, ht]; rfl
  · intro t ht hN
    rw [mainLoop_tr h H.ok os os' s0 ho H.started.inv t (Or.inr ht) hN, ht]; rfl

/-- **C118, other coordinates, kernels.** The same with kernels that are functions of the state. -/
theorem C118_play {e : Env K F} {x0 : List K} {fuel : ℕ} {Δ : K} {sl : List K} {s0 : MSt K F} (H : Starts e x0 fuel Δ sl s0)
    {A : Coords K F} {D : List K → Prop} {τ : List K → List K} {φ : F → F} {γ : Grads K → Grads K} (h : Carried D τ φ γ e A) (kern kern' : MSt K F → Orc K F)
    (hk : ∀ s, CarriedOrc D τ φ (kern s) (kern' (carrySt τ φ γ s))) (n : ℕ) (t : MSt K F)
    (ht : play e kern n s0 = .running t ∨ play e kern n s0 = .done t) (hN : ∀ y ∈ t.ev.w.logF, D y ∧ SameFloor e τ y ∧ SameSide e A τ y) :
    play (e.within A) kern' n (carrySt τ φ γ s0) = (play e kern n s0).map (carrySt τ φ γ) := by
  have key : ∀ (n : ℕ) (s : MSt K F), Inv e [] s → (play e kern n s = .running t ∨ play e kern n s = .done t) →
      play (e.within A) kern' n (carrySt τ φ γ s) = (play e kern n s).map (carrySt τ φ γ) := by
    intro n
    induction n with
    | zero => intro s _ _; rfl
    | succ n ih =>
      intro s hI ht
      have hone := mainLoop_tr (γ := γ) h H.ok [kern s] [kern' (carrySt τ φ γ s)] s (List.Forall₂.cons (hk s) List.Forall₂.nil) hI
      have hsat := pass_sat e H.ok (kern s) s hI
      simp only [play] at ht ⊢
      simp only [mainLoop] at hone
      cases hp : pass e (kern s) s with
      | cont u =>
        rw [hp] at ht hone hsat
        have hu := hone u (Or.inl rfl) fun y hy => hN y ((play_calls e kern n u t ht).subset hy)
        cases hp' : pass (e.within A) (kern' (carrySt τ φ γ s)) (carrySt τ φ γ s) with
        | cont u' =>
          rw [hp'] at hu
          cases hu
          exact ih u (show Inv e [] u ∧ _ from hsat).1 ht
        | ret u' => rw [hp'] at hu; cases hu
        | crash c => rw [hp'] at hu; cases hu
      | ret u =>
        rw [hp] at ht hone
        simp only [reduceCtorEq, MainRes.done.injEq, false_or] at ht
        subst ht
        have hu := hone u (Or.inr rfl) hN
        cases hp' : pass (e.within A) (kern' (carrySt τ φ γ s)) (carrySt τ φ γ s) with
        | cont u' => rw [hp'] at hu; cases hu
        | ret u' => rw [hp'] at hu; exact hu
        | crash c => rw [hp'] at hu; cases hu
      | crash c => rw [hp] at ht; simp at ht
  exact key n s0 H.started.inv ht

/-! ### Moved variables -/

@[simp] theorem moveBy_length (c : ℕ → K) (y : List K) : (moveBy c y).length = y.length := by simp [moveBy]

theorem moveBy_get (c : ℕ → K) (y : List K) (i : ℕ) : (moveBy c y)[i]? = (y[i]?).map (· + c i) := by
  simp only [moveBy, List.getElem?_mapIdx]

@[simp] theorem moveBy_back (c : ℕ → K) (y : List K) : moveBy (fun i => - c i) (moveBy c y) = y := by
  refine List.ext_getElem? fun i => ?_
  rw [moveBy_get, moveBy_get]
  cases y[i]? <;> simp

theorem moveBy_backs (c : ℕ → K) (Y : List (List K)) : (Y.map (moveBy c)).map (moveBy fun i => - c i) = Y := by
  rw [List.map_map, show (moveBy fun i => - c i) ∘ moveBy c = id from funext (moveBy_back c), List.map_id]

theorem moveBy_diff (c : ℕ → K) (y z : List K) : List.zipWith (· - ·) (moveBy c y) (moveBy c z) = List.zipWith (· - ·) y z := by
  refine List.ext_getElem? fun i => ?_
  rw [List.getElem?_zipWith, List.getElem?_zipWith, moveBy_get, moveBy_get]
  cases y[i]? <;> cases z[i]? <;> simp

theorem moveBy_simplex (c : ℕ → K) (x : List K) (D : K) : simplex (moveBy c x) D = (simplex x D).map (moveBy c) := by
  unfold simplex
  rw [List.map_cons, moveBy_length, List.map_map]
  congr 1
  refine List.map_congr_left fun j _ => ?_
  refine List.ext_getElem? fun i => ?_
  simp only [Function.comp]
  rw [moveBy_get, List.getElem?_mapIdx, List.getElem?_mapIdx, moveBy_get]
  cases x[i]? with
  | none => rfl
  | some v => simp only [Option.map_some]; rw [add_right_comm]

theorem moveW_back (c : ℕ → K) (w : World (List K)) : moveBackW c (carryW (moveBy c) w) = w := by
  unfold moveBackW carryW
  simp only [moveBy_backs]

theorem moved_carried (c : ℕ → K) (e : Env K F) : Carried (fun _ => True) (moveBy c) id id e (moveCoords c e) where
  dist y z d _ _ := by rw [moveBy_diff]
  build Y := by simp only [moveCoords, moveBy_backs, id]
  model f x fY ceY := by simp only [moveCoords, moveBy_back, id]
  user := by
    refine ⟨fun w y => ?_, fun h => ?_, fun g hg => ?_⟩
    · simp only [moveCoords, moveUser, moveW_back, moveBy_back]
    · simp only [moveCoords, moveUser, h, Option.map_none]
    · refine ⟨fun w y => g (moveBackW c w) (moveBy (fun i => - c i) y), by simp only [moveCoords, moveUser, hg, Option.map_some], fun w y => ?_⟩
      simp only [moveW_back, moveBy_back]

theorem moved_orc (c : ℕ → K) (o : Orc K F) : CarriedOrc (fun _ => True) (moveBy c) id o (moveOrc c o) :=
  ⟨_, _, rfl, fun f Y => by simp only [moveBy_backs, id], fun f Y j => by simp only [moveBy_backs, id], trivial, fun _ _ _ => trivial⟩

theorem moved_orcs (c : ℕ → K) : ∀ os : List (Orc K F), List.Forall₂ (CarriedOrc (fun _ => True) (moveBy c) id) os (os.map (moveOrc c))
  | [] => .nil
  | o :: os => .cons (moved_orc c o) (moved_orcs c os)

/-- The stopping radius is `1e-10` at all points of norm at most 45000. -/
theorem floor_of_norm {e : Env K F} {x : List K} (h : e.nrm x ≤ 45000) : max (stallfact * e.nrm x) (1 / 10 ^ 10) = 1 / 10 ^ 10 := by
  refine max_eq_right ?_
  have h1 : stallfact * e.nrm x ≤ stallfact * 45000 := mul_le_mul_of_nonneg_left h (by unfold stallfact; positivity)
  refine h1.trans ?_
  unfold stallfact
  norm_num

/-- **C118, start.** If the objective does not exceed `1e25` in absolute value, the initial sampling at the moved start point is the initial
sampling, moved. -/
theorem C118_start (e : Env K F) (hB : Bounded25 e.U) (c : ℕ → K) (x0 : List K) (fuel : ℕ) (Δ : K) (sl : List K) :
    startState (moveEnv c e) (moveBy c x0) fuel Δ sl = (startState e x0 fuel Δ sl).map (moveSt c) :=
  startState_tr (moved_carried c e) hB x0 (moveBy_simplex c x0) fuel Δ sl

/-- C118, full statement: *if the variables of a problem - start point, bounds, functions - are moved by a constant vector, the run is the
same, with all points moved by this vector.*  False: the radius at which a run stops depends on the norm of the iterate (`C118_origin_false`),
and the choice of a new base point compares every component of a point with every bound (`C118_bounds_false`).  Proved: the statement holds
for runs in which all points at which the user's functions are called have norm at most 45000 before and after the move, and the bound test has the
same answers at them before and after the move; the objective must not exceed `1e25` in absolute value. -/
theorem C118_run_partial {e : Env K F} {x0 : List K} {fuel : ℕ} {Δ : K} {sl : List K} {s0 : MSt K F} (H : Starts e x0 fuel Δ sl s0)
    (hB : Bounded25 e.U) (c : ℕ → K) (os : List (Orc K F)) (t : MSt K F)
    (hN : ∀ y ∈ t.ev.w.logF, e.nrm y ≤ 45000 ∧ e.nrm (moveBy c y) ≤ 45000 ∧
      insideTest (moveBy c e.lb) (moveBy c e.ub) (moveBy c y) = insideTest e.lb e.ub y) :
    startState (moveEnv c e) (moveBy c x0) fuel Δ sl = some (moveSt c s0) ∧
      (mainLoop e os s0 = .running t → mainLoop (moveEnv c e) (os.map (moveOrc c)) (moveSt c s0) = .running (moveSt c t)) ∧
      (mainLoop e os s0 = .done t → mainLoop (moveEnv c e) (os.map (moveOrc c)) (moveSt c s0) = .done (moveSt c t)) := by
  have hC := C118_coordinates H (moved_carried c e) os (os.map (moveOrc c)) (moved_orcs c os)
  have hN' : ∀ y ∈ t.ev.w.logF, True ∧ SameFloor e (moveBy c) y ∧ SameSide e (moveCoords c e) (moveBy c) y := fun y hy =>
    ⟨trivial, by unfold SameFloor; rw [floor_of_norm (hN y hy).1, floor_of_norm (hN y hy).2.1], (hN y hy).2.2⟩
  refine ⟨by rw [C118_start e hB, H.state]; rfl, fun h => hC.1 t h hN', fun h => hC.2 t h hN'⟩

/-- The bound test does not change if all components are moved by the same number. -/
theorem inside_uniform (d : K) (lb ub y : List K) :
    insideTest (moveBy (fun _ => d) lb) (moveBy (fun _ => d) ub) (moveBy (fun _ => d) y) = insideTest lb ub y := by
  have hm : ∀ l : List K, moveBy (fun _ => d) l = l.map (· + d) := fun l => by
    refine List.ext_getElem? fun i => ?_
    rw [moveBy_get, List.getElem?_map]
  simp only [insideTest, hm, List.all_map, Function.comp_def, gt_iff_lt, add_lt_add_iff_right]

/-- Points whose components lie between all bounds pass the bound test (so its answer is the same if this holds before and after the move). -/
theorem inside_between {lb ub y : List K} (h : ∀ v ∈ y, (∀ l ∈ lb, l ≤ v) ∧ ∀ u ∈ ub, v ≤ u) : insideTest lb ub y = true := by
  simp only [insideTest, Bool.and_eq_true, List.all_eq_true, Bool.not_eq_true', decide_eq_false_iff_not, not_lt, gt_iff_lt]
  exact ⟨fun l hl v hv => (h v hv).1 l hl, fun u hu v hv => (h v hv).2 u hu⟩

/-- **C118, one number for all components** (in particular one variable): no condition on the bounds is needed. -/
theorem C118_uniform_partial {e : Env K F} {x0 : List K} {fuel : ℕ} {Δ : K} {sl : List K} {s0 : MSt K F} (H : Starts e x0 fuel Δ sl s0)
    (hB : Bounded25 e.U) (d : K) (os : List (Orc K F)) (t : MSt K F)
    (hN : ∀ y ∈ t.ev.w.logF, e.nrm y ≤ 45000 ∧ e.nrm (moveBy (fun _ => d) y) ≤ 45000) :
    startState (moveEnv (fun _ => d) e) (moveBy (fun _ => d) x0) fuel Δ sl = some (moveSt (fun _ => d) s0) ∧
      (mainLoop e os s0 = .running t →
        mainLoop (moveEnv (fun _ => d) e) (os.map (moveOrc fun _ => d)) (moveSt (fun _ => d) s0) = .running (moveSt (fun _ => d) t)) ∧
      (mainLoop e os s0 = .done t →
        mainLoop (moveEnv (fun _ => d) e) (os.map (moveOrc fun _ => d)) (moveSt (fun _ => d) s0) = .done (moveSt (fun _ => d) t)) :=
  C118_run_partial H hB _ os t fun y hy => ⟨(hN y hy).1, (hN y hy).2, inside_uniform d _ _ _⟩

/-- **C118, kernels.** The same with kernels that are functions of the state: those for the moved problem have to give, in the moved
state, the moved results. -/
theorem C118_kernels_partial {e : Env K F} {x0 : List K} {fuel : ℕ} {Δ : K} {sl : List K} {s0 : MSt K F} (H : Starts e x0 fuel Δ sl s0)
    (hB : Bounded25 e.U) (c : ℕ → K) (kern kern' : MSt K F → Orc K F) (hk : ∀ s, kern' (moveSt c s) = moveOrc c (kern s)) (n : ℕ)
    (t : MSt K F) (ht : play e kern n s0 = .running t ∨ play e kern n s0 = .done t)
    (hN : ∀ y ∈ t.ev.w.logF, e.nrm y ≤ 45000 ∧ e.nrm (moveBy c y) ≤ 45000 ∧
      insideTest (moveBy c e.lb) (moveBy c e.ub) (moveBy c y) = insideTest e.lb e.ub y) :
    startState (moveEnv c e) (moveBy c x0) fuel Δ sl = some (moveSt c s0) ∧
      play (moveEnv c e) kern' n (moveSt c s0) = (play e kern n s0).map (moveSt c) := by
  refine ⟨by rw [C118_start e hB, H.state]; rfl, C118_play H (moved_carried c e) kern kern' (fun s => ?_) n t ht fun y hy => ?_⟩
  · rw [show kern' (carrySt (moveBy c) id id s) = _ from hk s]; exact moved_orc c _
  · exact ⟨trivial, by unfold SameFloor; rw [floor_of_norm (hN y hy).1, floor_of_norm (hN y hy).2.1], (hN y hy).2.2⟩

/-! ### The kernels of the code depend on differences of points only -/

section kernels
open Matrix

theorem vec_move {n : ℕ} (c : ℕ → ℝ) {y : List ℝ} (hy : y.length = n) : vec n (moveBy c y) = fun i : Fin n => vec n y i + c i := by
  funext i
  have hi : (i : ℕ) < y.length := by rw [hy]; exact i.2
  simp only [vec, List.getD_eq_getElem?_getD, moveBy_get, List.getElem?_eq_getElem hi, Option.map_some, Option.getD_some]

theorem ptsOf_move {n p : ℕ} (c : ℕ → ℝ) {Y : List (List ℝ)} (hY : Y.length = p + 1) (hy : ∀ y ∈ Y, y.length = n) :
    ptsOf n p (Y.map (moveBy c)) = fun j i => ptsOf n p Y j i + c i := by
  funext j
  have hj : (j : ℕ) < Y.length := by rw [hY]; exact j.2
  simp only [ptsOf, List.getD_eq_getElem?_getD, List.getElem?_map, List.getElem?_eq_getElem hj, Option.map_some, Option.getD_some]
  exact vec_move c (hy _ (List.getElem_mem _))

theorem diff_move {n p : ℕ} (a : Fin n → ℝ) (Y : Fin (p + 1) → Fin n → ℝ) (i : Fin (p + 1)) :
    ((fun j i => Y j i + a i : Fin (p + 1) → Fin n → ℝ) i - (fun j i => Y j i + a i : Fin (p + 1) → Fin n → ℝ) 0) = Y i - Y 0 := by
  funext r
  simp

theorem scaleY_move {n p : ℕ} (a : Fin n → ℝ) (Y : Fin (p + 1) → Fin n → ℝ) : scaleY (fun j i => Y j i + a i) = scaleY Y := by
  unfold scaleY
  simp only [diff_move]

theorem yRadius_move {n p : ℕ} (a : Fin n → ℝ) (Y : Fin (p + 1) → Fin n → ℝ) : yRadius (fun j i => Y j i + a i) = yRadius Y := by
  unfold yRadius
  simp only [diff_move]

theorem frame_move {n p q : ℕ} (hp : 0 < p) (a : Fin n → ℝ) (Y : Fin (p + 1) → Fin n → ℝ) :
    buildFrame q (fun j i => Y j i + a i) true =
      { buildFrame q Y true with xbase := fun i => (buildFrame q Y true).xbase i + a i } := by
  unfold buildFrame
  rw [if_pos ⟨rfl, by omega⟩, if_pos ⟨rfl, by omega⟩]
  simp only [scaleY_move, add_sub_add_right_eq_sub]

theorem frameOf_move {n p : ℕ} (c : ℕ → ℝ) (hp : 0 < p) {Y : List (List ℝ)} (hY : Y.length = p + 1) (hy : ∀ y ∈ Y, y.length = n) :
    frameOf n p (Y.map (moveBy c)) = { frameOf n p Y with xbase := fun i => (frameOf n p Y).xbase i + c i } := by
  unfold frameOf
  rw [ptsOf_move c hY hy, frame_move hp fun i : Fin n => c i]

theorem facOf_move {n p : ℕ} (k : Kern n) (c : ℕ → ℝ) (hp : 0 < p) {Y : List (List ℝ)} (hY : Y.length = p + 1)
    (hy : ∀ y ∈ Y, y.length = n) : facOf k p (Y.map (moveBy c)) = facOf k p Y := by
  unfold facOf
  rw [frameOf_move c hp hY hy]

theorem ext_move {n : ℕ} (x b a : Fin n → ℝ) (i : ℕ) : ext (fun i => x i + a i) i - ext (fun i => b i + a i) i = ext x i - ext b i := by
  unfold ext
  split <;> simp

theorem gradP_move {n q : ℕ} (P : Fin q → ℝ) (x b a : Fin n → ℝ) (scale : Fin q → ℝ) :
    gradP P (fun i => x i + a i) (fun i => b i + a i) scale true = gradP P x b scale true := by
  unfold gradP
  simp only [ext_move, if_true]

theorem gradOf_move {n p : ℕ} (k : Kern n) (c : ℕ → ℝ) (hp : 0 < p) {Y : List (List ℝ)} (hY : Y.length = p + 1)
    (hy : ∀ y ∈ Y, y.length = n) {x : List ℝ} (hx : x.length = n) (v : List ℝ) :
    gradOf k p (Y.map (moveBy c)) (moveBy c x) v = gradOf k p Y x v := by
  unfold gradOf
  rw [facOf_move k c hp hY hy, frameOf_move c hp hY hy, vec_move c hx]
  cases computeP (facOf k p Y).1 (facOf k p Y).2 (vec (p + 1) v) with
  | none => rfl
  | some P => simp only [gradP_move]

/-- **C118, models.** For sets of at least two points the gradients of the models of the code (shifted to the base point, no correction of
the system) at a moved point, computed from the moved set, are those before the move; the poisedness measures are the same. -/
theorem C118_model {n : ℕ} (k : Kern n) (me : ℕ) (c : ℕ → ℝ) (Y : List (List ℝ)) (h2 : 2 ≤ Y.length) (hy : ∀ y ∈ Y, y.length = n)
    (x : List ℝ) (hx : x.length = n) (fY : List ℝ) (ceY : List (List ℝ)) :
    modelOf k me (Y.map (moveBy c)) (moveBy c x) fY ceY = modelOf k me Y x fY ceY ∧
      poisOf k (Y.length - 1) (Y.map (moveBy c)) = poisOf k (Y.length - 1) Y := by
  have hY : Y.length = (Y.length - 1) + 1 := by omega
  have hp : 0 < Y.length - 1 := by omega
  constructor
  · unfold modelOf
    rw [List.length_map]
    simp only [gradOf_move k c hp hY hy hx]
  · unfold poisOf
    rw [facOf_move k c hp hY hy, frameOf_move c hp hY hy, ptsOf_move c hY hy]
    unfold poisednessY
    rw [yRadius_move (fun i : Fin n => c i)]
    have hf : ∀ j : Fin (Y.length - 1 + 1), ∀ Δ εL : ℝ, ∀ sc : Fin (Y.length - 1 + 1) → ℝ, ∀ b b' : Fin n → ℝ,
        (findNewYj k.ms (facOf k (Y.length - 1) Y).1 (facOf k (Y.length - 1) Y).2 (fun j i => ptsOf n (Y.length - 1) Y j i + c i) j Δ εL b' sc
          true).map NewPt.imp =
        (findNewYj k.ms (facOf k (Y.length - 1) Y).1 (facOf k (Y.length - 1) Y).2 (ptsOf n (Y.length - 1) Y) j Δ εL b sc true).map NewPt.imp := by
      intro j Δ εL sc b b'
      unfold findNewYj
      split
      · rfl
      · cases computeLj (facOf k (Y.length - 1) Y).1 (facOf k (Y.length - 1) Y).2 j with
        | none => rfl
        | some L =>
          simp only [Option.map_some, newPoint, if_true]
          have hg : gradP L 0 b' sc false = gradP L 0 b sc false := rfl
          rw [hg]
          split <;> rfl
    congr 2
    funext l j
    have := congrArg (Option.map fun v => max v l) (hf j (yRadius (ptsOf n (Y.length - 1) Y)) (1 / 10 ^ 3) (frameOf n (Y.length - 1) Y).scale
      (frameOf n (Y.length - 1) Y).xbase fun i => (frameOf n (Y.length - 1) Y).xbase i + c i)
    rw [Option.map_map, Option.map_map] at this
    exact this

/-- **C118, improvement points.** The improvement point proposed for the moved set is the moved improvement point. -/
theorem C118_improvement {n p : ℕ} (k : Kern n) (c : ℕ → ℝ) (hp : 0 < p) (Y : List (List ℝ)) (hY : Y.length = p + 1)
    (hy : ∀ y ∈ Y, y.length = n) (j : Fin (p + 1)) (hj : 0 < (j : ℕ)) (Δ εL : ℝ) :
    findNewYj k.ms (facOf k p (Y.map (moveBy c))).1 (facOf k p (Y.map (moveBy c))).2 (ptsOf n p (Y.map (moveBy c))) j Δ εL
        (frameOf n p (Y.map (moveBy c))).xbase (frameOf n p (Y.map (moveBy c))).scale true =
      (findNewYj k.ms (facOf k p Y).1 (facOf k p Y).2 (ptsOf n p Y) j Δ εL (frameOf n p Y).xbase (frameOf n p Y).scale true).map
        fun N => ⟨fun i => N.y i + c i, N.imp⟩ := by
  rw [facOf_move k c hp hY hy, frameOf_move c hp hY hy, ptsOf_move c hY hy]
  unfold findNewYj
  rw [if_neg (by omega), if_neg (by omega)]
  cases computeLj (facOf k p Y).1 (facOf k p Y).2 j with
  | none => rfl
  | some L =>
    simp only [Option.map_some, newPoint, if_true]
    have hg : gradP L 0 (fun i => (frameOf n p Y).xbase i + c i) (frameOf n p Y).scale false =
      gradP L 0 (frameOf n p Y).xbase (frameOf n p Y).scale false := rfl
    rw [hg]
    split
    · simp only [Option.some.injEq, NewPt.mk.injEq, and_true]
      funext i
      simp only [Pi.add_apply]
      ring
    · simp only [Option.some.injEq, NewPt.mk.injEq, and_true]
      funext i
      simp only [Pi.add_apply]
      ring

/-- **C118, Lagrange values.** The values of the Lagrange polynomials of the moved set at the moved trial point are the same. -/
theorem C118_lagrange {n p : ℕ} (k : Kern n) (c : ℕ → ℝ) (hp : 0 < p) (Y : List (List ℝ)) (hY : Y.length = p + 1)
    (hy : ∀ y ∈ Y, y.length = n) (x : List ℝ) (hx : x.length = n) (choice : Finset (Fin (p + 1))) :
    evalL (facOf k p (Y.map (moveBy c))).1 (facOf k p (Y.map (moveBy c))).2 choice (vec n (moveBy c x))
        (frameOf n p (Y.map (moveBy c))).xbase (frameOf n p (Y.map (moveBy c))).scale true =
      evalL (facOf k p Y).1 (facOf k p Y).2 choice (vec n x) (frameOf n p Y).xbase (frameOf n p Y).scale true := by
  rw [facOf_move k c hp hY hy, frameOf_move c hp hY hy, vec_move c hx]
  unfold evalL evalP
  simp only [ext_move, if_true]

/-- **C118, steps.** The step solver for problems without constraints, called with moved point and bounds, returns the moved trial point. -/
theorem C118_solver {n : ℕ} (k : BCKer K n) (a x lb ub g : Fin n → K) (M : Matrix (Fin n) (Fin n) K) (δ : K) :
    solveTR0 k (x + a) (lb + a) (ub + a) g M δ = (solveTR0 k x lb ub g M δ).map fun r => (r.1 + a, r.2) := by
  unfold solveTR0
  simp only [Pi.add_apply, add_sub_add_right_eq_sub]
  cases trmsBc k ⟨g, M, fun i => lb i - x i, fun i => ub i - x i, δ, 1 / 10 ^ 7⟩ with
  | none => rfl
  | some o => simp only [Option.map_some, add_right_comm]

/-- **C118, steps with constraints.** The step solver for problems with constraints, called with moved point and bounds and the same gradients,
constraint values, slacks and multipliers, returns the moved trial point and otherwise the same results. -/
theorem C118_solver_constrained {n m q : ℕ} (k : STKer K n m q) (a : Fin n → K) (I : STIn K n m q) :
    solveTR (moveKer a k) (moveIn a I) = (solveTR k I).map (moveOut a) := solveTR_move a k I

end kernels

/-! ### Counterexamples and concrete cases -/

namespace Ex

/-- A run and the run for moved variables, with a property of the two results. -/
def twoRuns (e : Env ℚ Unit) (c : ℕ → ℚ) (x0 : List ℚ) (os : List (Orc ℚ Unit)) (p : MainRes ℚ Unit → MainRes ℚ Unit → Bool) : Bool :=
  match start e x0 with
  | none => false
  | some s0 => p (mainLoop e os s0) (mainLoop (moveEnv c e) (os.map (moveOrc c)) (moveSt c s0))

theorem twoRuns_sound {e : Env ℚ Unit} {c : ℕ → ℚ} {x0 : List ℚ} {os : List (Orc ℚ Unit)} {p : MainRes ℚ Unit → MainRes ℚ Unit → Bool}
    (h : twoRuns e c x0 os p = true) :
    ∃ s0, startState e x0 1 1 [] = some s0 ∧ p (mainLoop e os s0) (mainLoop (moveEnv c e) (os.map (moveOrc c)) (moveSt c s0)) = true := by
  unfold twoRuns at h
  split at h
  · cases h
  · rename_i s0 hs
    exact ⟨s0, hs, h⟩

/-- The objective `0`. -/
def flatU : User (List ℚ) ℚ := ⟨fun _ _ => .num (.fin 0), none⟩

/-- Negation of C118: a rejected step of length `1e-8` reduces the radius to `1e-9`.  With start point 0 the run goes on; with start
point `1e9` it stops with status 15. -/
theorem C118_origin_false :
    ∃ s0, Starts (env flatU .pinf .pinf) [0] 1 1 [] s0 ∧
      startState (moveEnv (fun _ => 10 ^ 9) (env flatU .pinf .pinf)) [10 ^ 9] 1 1 [] = some (moveSt (fun _ => 10 ^ 9) s0) ∧
      (∃ t, mainLoop (env flatU .pinf .pinf) [orc [1 / 10 ^ 8] 1] s0 = .running t ∧ t.delta = 1 / 10 ^ 9) ∧
      ∃ t', mainLoop (moveEnv (fun _ => 10 ^ 9) (env flatU .pinf .pinf)) [moveOrc (fun _ => 10 ^ 9) (orc [1 / 10 ^ 8] 1)]
        (moveSt (fun _ => 10 ^ 9) s0) = .done t' ∧ t'.ev.flag = Status.stopOnSmallTR ∧ t'.delta = 1 / 10 ^ 9 := by
  obtain ⟨s0, hs, h⟩ := twoRuns_sound (e := env flatU .pinf .pinf) (c := fun _ => 10 ^ 9) (x0 := [0]) (os := [orc [1 / 10 ^ 8] 1])
    (p := fun r r' => match r, r' with
      | .running t, .done t' => decide (t.delta = 1 / 10 ^ 9 ∧ t'.ev.flag = Status.stopOnSmallTR ∧ t'.delta = 1 / 10 ^ 9)
      | _, _ => false) (by decide +kernel)
  split at h
  · rename_i t t' h1 h2
    obtain ⟨a, b, d⟩ := of_decide_eq_true h
    refine ⟨s0, ⟨env_ok _ _ _, env_constr _ _ _, rfl, one_pos, hs⟩, ?_, ⟨t, h1, a⟩, t', h2, b, d⟩
    have := C118_start (env flatU .pinf .pinf) (fun w y q hq => by cases hq; norm_num) (fun _ => 10 ^ 9) [0] 1 1 []
    rw [hs] at this
    rw [show ([10 ^ 9] : List ℚ) = moveBy (fun _ => 10 ^ 9) [0] by norm_num [moveBy]]
    exact this
  · cases h

/-- The objective `x₂`, cut off at `±100`. -/
def tileU : User (List ℚ) ℚ := ⟨fun _ x => .num (.fin (max (-100) (min 100 (x.getD 1 0)))), none⟩

theorem tileU_bounded : Bounded25 tileU := by
  intro w y q hq
  simp only [tileU, FOut.num.injEq, Fl.fin.injEq] at hq
  have h1 : -100 ≤ q := by rw [← hq]; exact le_max_left _ _
  have h2 : q ≤ 100 := by rw [← hq]; exact max_le (by norm_num) (min_le_left _ _)
  rw [abs_le]
  constructor <;> linarith

/-- Two variables with bounds `-5` and `1`. -/
def tileEnv : Env ℚ Unit :=
  { env tileU .pinf .pinf with n := 2, lb := [-5, -5], ub := [1, 1], tolGrad := 1 }

/-- Results of the kernels for a pass that leaves the set as it is. -/
def tileOrc : Orc ℚ Unit := { orc [0, 0] 1 with k1 := ⟨false, 1 / 2, 0, 0⟩, propose := fun _ _ _ => ([0, 0], 0) }

/-- The second variable moved by 6. -/
def tileMove : ℕ → ℚ := fun i => if i = 1 then 6 else 0

/-- Negation of C118: the set has a better point than the base point; before the move it is found and returned (status 0).  After the
move the bounds are `-5 ≤ x₁ ≤ 1`, `1 ≤ x₂ ≤ 7`; no point of the set passes the bound test, because `x₁` is compared with the bound 1
of `x₂`, and the start point is returned. -/
theorem C118_bounds_false :
    ∃ s0, Starts tileEnv [0, 0] 1 1 [] s0 ∧
      startState (moveEnv tileMove tileEnv) [0, 6] 1 1 [] = some (moveSt tileMove s0) ∧
      (∃ t, mainLoop tileEnv [tileOrc] s0 = .done t ∧ t.ev.flag = 0 ∧ t.x = [0, -1]) ∧
      ∃ t', mainLoop (moveEnv tileMove tileEnv) [moveOrc tileMove tileOrc] (moveSt tileMove s0) = .done t' ∧ t'.ev.flag = 0 ∧ t'.x = [0, 6] := by
  obtain ⟨s0, hs, h⟩ := twoRuns_sound (e := tileEnv) (c := tileMove) (x0 := [0, 0]) (os := [tileOrc])
    (p := fun r r' => match r, r' with
      | .done t, .done t' => decide (t.ev.flag = 0 ∧ t.x = [0, -1] ∧ t'.ev.flag = 0 ∧ t'.x = [0, 6])
      | _, _ => false) (by decide +kernel)
  split at h
  · rename_i t t' h1 h2
    obtain ⟨a, b, a', b'⟩ := of_decide_eq_true h
    refine ⟨s0, ⟨⟨nrm1_nonneg, descOrder_sorted⟩, ⟨fun _ => rfl, fun _ h => by cases h⟩, rfl, one_pos, hs⟩, ?_, ⟨t, h1, a, b⟩, t', h2, a', b'⟩
    have := C118_start tileEnv tileU_bounded tileMove [0, 0] 1 1 []
    rw [hs] at this
    rw [show ([0, 6] : List ℚ) = moveBy tileMove [0, 0] by norm_num [moveBy, tileMove]]
    exact this
  · cases h

/-- `C118_run_partial` and `C118_uniform_partial` are not void: a run with an accepted step, an improvement of the set, another choice of the base
point, and a stop; the variables are moved by 40 and by `(3, 3)`. -/
example : ∃ s0 t, Starts (env downCut .pinf .pinf) [0] 1 1 [] s0 ∧ Bounded25 (env downCut .pinf .pinf).U ∧
    mainLoop (env downCut .pinf .pinf) [orc [1] 1, orc [3] 2] s0 = .running t ∧ t.x = [3] ∧
    mainLoop (moveEnv (fun _ => 40) (env downCut .pinf .pinf)) [moveOrc (fun _ => 40) (orc [1] 1), moveOrc (fun _ => 40) (orc [3] 2)]
      (moveSt (fun _ => 40) s0) = .running (moveSt (fun _ => 40) t) ∧ (moveSt (fun _ => 40) t).x = [43] := by
  obtain ⟨s0, hs, h⟩ := twoRuns_sound (e := env downCut .pinf .pinf) (c := fun _ => 40) (x0 := [0]) (os := [orc [1] 1, orc [3] 2])
    (p := fun r _ => match r with
      | .running t => decide (t.x = [3] ∧ ∀ y ∈ t.ev.w.logF, nrm1 y ≤ 45000 ∧ nrm1 (moveBy (fun _ => 40) y) ≤ 45000)
      | _ => false) (by decide +kernel)
  split at h
  · rename_i t h1
    obtain ⟨a, b⟩ := of_decide_eq_true h
    have H : Starts (env downCut .pinf .pinf) [0] 1 1 [] s0 := ⟨env_ok _ _ _, env_constr _ _ _, rfl, one_pos, hs⟩
    have hB : Bounded25 (env downCut .pinf .pinf).U := fun w y q hq => (downCut_moderate 0 (by norm_num) w y q hq).1
    refine ⟨s0, t, H, hB, h1, a, (C118_uniform_partial H hB 40 _ t b).2.1 h1, ?_⟩
    show moveBy _ t.x = _
    rw [a]
    norm_num [moveBy]
  · cases h

/-- The bounds do not matter if they are far away: two variables moved by different numbers, with a change of the base point in the
run. -/
example : ∃ s0 t, Starts { tileEnv with lb := [-100, -100], ub := [100, 100] } [0, 0] 1 1 [] s0 ∧
    mainLoop { tileEnv with lb := [-100, -100], ub := [100, 100] } [tileOrc] s0 = .done t ∧ t.x = [0, -1] ∧
    mainLoop (moveEnv tileMove { tileEnv with lb := [-100, -100], ub := [100, 100] }) [moveOrc tileMove tileOrc] (moveSt tileMove s0) =
      .done (moveSt tileMove t) ∧ (moveSt tileMove t).x = [0, 5] := by
  obtain ⟨s0, hs, h⟩ := twoRuns_sound (e := { tileEnv with lb := [-100, -100], ub := [100, 100] }) (c := tileMove) (x0 := [0, 0]) (os := [tileOrc])
    (p := fun r _ => match r with
      | .done t => decide (t.x = [0, -1] ∧ ∀ y ∈ t.ev.w.logF, nrm1 y ≤ 45000 ∧ nrm1 (moveBy tileMove y) ≤ 45000 ∧
          insideTest (moveBy tileMove [-100, -100]) (moveBy tileMove [100, 100]) (moveBy tileMove y) = insideTest [-100, -100] [100, 100] y)
      | _ => false) (by decide +kernel)
  split at h
  · rename_i t h1
    obtain ⟨a, b⟩ := of_decide_eq_true h
    have H : Starts { tileEnv with lb := [-100, -100], ub := [100, 100] } [0, 0] 1 1 [] s0 :=
      ⟨⟨nrm1_nonneg, descOrder_sorted⟩, ⟨fun _ => rfl, fun _ h => by cases h⟩, rfl, one_pos, hs⟩
    refine ⟨s0, t, H, h1, a, (C118_run_partial H tileU_bounded tileMove _ t b).2.2 h1, ?_⟩
    show moveBy _ t.x = _
    rw [a]
    norm_num [moveBy, tileMove]
  · cases h

/-- `C118_solver_constrained` for a step of two passes: the trial point is moved by `(1, 2, 3)`, the rest is the same. -/
example : (solveTR (moveKer ![1, 2, 3] (tableST jacTab)) (moveIn ![1, 2, 3] jacST)).map STOut.report =
    some ([1 / 2, 13 / 5, 11 / 5], [], 2, false) := by
  rw [C118_solver_constrained]
  decide +kernel

/-- `C118_solver`: from 8 instead of 3 the step leads to 7 instead of 2. -/
example : ∃ b, solveTR0 linBC (![3] + ![5]) (![-10 ^ 30] + ![5]) (![10 ^ 30] + ![5]) ![1] 0 1 = some (![2] + ![5], b) := by
  obtain ⟨b, hb⟩ := back_step
  exact ⟨b, by rw [C118_solver, hb]; rfl⟩

/-- The hypotheses of `C118_model`, `C118_improvement` and `C118_lagrange` hold for the initial set of a problem with two variables. -/
example (k : Kern 2) (v : List ℝ) : gradOf k 2 [[5, 7], [4, 7], [5, 6]] [5, 7] v = gradOf k 2 [[0, 0], [-1, 0], [0, -1]] [0, 0] v := by
  have := gradOf_move k (p := 2) (fun i => if i = 0 then 5 else 7) (by norm_num) (Y := [[0, 0], [-1, 0], [0, -1]]) rfl (by simp)
    (x := [0, 0]) rfl v
  rw [← this]
  congr 1 <;> norm_num [moveBy]

end Ex
end Sqpdfo

#print axioms Sqpdfo.C118_coordinates
#print axioms Sqpdfo.C118_play
#print axioms Sqpdfo.C118_start
#print axioms Sqpdfo.C118_run_partial
#print axioms Sqpdfo.C118_uniform_partial
#print axioms Sqpdfo.C118_kernels_partial
#print axioms Sqpdfo.C118_model
#print axioms Sqpdfo.C118_improvement
#print axioms Sqpdfo.C118_lagrange
#print axioms Sqpdfo.C118_solver
#print axioms Sqpdfo.C118_solver_constrained
#print axioms Sqpdfo.Ex.C118_origin_false
#print axioms Sqpdfo.Ex.C118_bounds_false
