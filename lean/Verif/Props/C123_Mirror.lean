import Verif.Spec.Mirror
import Verif.Lemmas.MainSigns
import Verif.Props.C119_Variables

/-! # C123: the sign of the variables -/

set_option linter.unusedSectionVars false

namespace Sqpdfo
open Spec
variable {K F : Type} [Field K] [LinearOrder K] [IsStrictOrderedRing K]

theorem signed_twice (ε : List Bool) (l : List K) : signed ε (signed ε l) = l := by
  refine List.ext_getElem? fun i => ?_
  rw [signed_get, signed_length, signed_get, Option.map_map]
  cases l[i]? with
  | none => rfl
  | some v => by_cases h : l.length = ε.length ∧ ε[i]? = some true <;> simp [h]

theorem signed_twices (ε : List Bool) (Y : List (List K)) : (Y.map (signed ε)).map (signed ε) = Y := by
  rw [List.map_map, show signed ε ∘ signed (α := K) ε = id from funext (signed_twice ε), List.map_id]

theorem mirrorW_back (ε : List Bool) (w : World (List K)) : carryW (signed ε) (carryW (signed ε) w) = w := by
  unfold carryW
  simp only [signed_twices]

theorem signed_abs (ε : List Bool) (l : List K) : List.Forall₂ (fun a b => |a| = |b|) (signed ε l) l := by
  unfold signed
  split
  · rename_i h
    induction l generalizing ε with
    | nil => cases ε <;> exact .nil
    | cons v l ih =>
      cases ε with
      | nil => simp at h
      | cons b ε => exact .cons (by cases b <;> simp) (ih ε (by simpa using h))
  · exact List.forall₂_same.2 fun _ _ => rfl

theorem signed_sub (ε : List Bool) {y z : List K} (hy : y.length = ε.length) (hz : z.length = ε.length) :
    List.zipWith (· - ·) (signed ε y) (signed ε z) = signed ε (List.zipWith (· - ·) y z) := by
  refine List.ext_getElem? fun i => ?_
  rw [List.getElem?_zipWith, signed_get, signed_get, signed_get, List.getElem?_zipWith, List.length_zipWith, hy, hz, min_self]
  cases y[i]? <;> cases z[i]? <;> simp only [Option.map_none, Option.map_some]
  split <;> simp only [Option.some.injEq]
  ring

theorem mirrored_carried (ε : List Bool) {e : Env K F} (hn : SignBlind e) :
    Carried (fun y => y.length = ε.length) (signed ε) id (mirrorG ε) e (mirrorCoords ε e) where
  dist y z d hy hz := by
    rw [signed_sub ε hy hz]
    exact hn _ _ (List.rel_append (signed_abs ε _) (List.forall₂_same.2 fun _ _ => rfl))
  build Y := by simp only [mirrorCoords, signed_twices, id]
  model f x fY ceY := by simp only [mirrorCoords, signed_twice, id]
  user := by
    refine ⟨fun w y => ?_, fun h => ?_, fun g hg => ?_⟩
    · simp only [mirrorCoords, mirrorUser, mirrorW_back, signed_twice]
    · simp only [mirrorCoords, mirrorUser, h, Option.map_none]
    · refine ⟨fun w y => g (carryW (signed ε) w) (signed ε y), by simp only [mirrorCoords, mirrorUser, hg, Option.map_some], fun w y => ?_⟩
      simp only [mirrorW_back, signed_twice]

theorem mirrored_orc (ε : List Bool) {o : Orc K F} (h : NComps ε.length o) :
    CarriedOrc (fun y => y.length = ε.length) (signed ε) id o (mirrorOrc ε o) :=
  ⟨_, _, rfl, fun f Y => by simp only [signed_twices, id], fun f Y j => by simp only [signed_twices, id], h.1, h.2⟩

theorem mirrored_orcs (ε : List Bool) : ∀ os : List (Orc K F), (∀ o ∈ os, NComps ε.length o) →
    List.Forall₂ (CarriedOrc (fun y => y.length = ε.length) (signed ε) id) os (os.map (mirrorOrc ε))
  | [], _ => .nil
  | o :: os, h => .cons (mirrored_orc ε (h o List.mem_cons_self)) (mirrored_orcs ε os fun o' ho => h o' (List.mem_cons_of_mem _ ho))

theorem mirrored_floor (ε : List Bool) {e : Env K F} (hn : SignBlind e) (y : List K) : SameFloor e (signed ε) y := by
  unfold SameFloor; rw [hn _ _ (signed_abs ε y)]

/-- C123, full statement: *if some variables of a problem are replaced by their negatives - start point, bounds, functions - the run is the
same, with the other sign of the components of all points.*  False: the initial points lie at smaller values of the variables
(`C123_mirror_false`), and the bound test mixes the variables (`C123_bounds_false`).  Proved: from the mirrored state at its start the main loop makes
the same run, whatever the kernels do, if the bound test agrees at the evaluated points. -/
theorem C123_loop_partial {e : Env K F} {x0 : List K} {fuel : ℕ} {Δ : K} {sl : List K} {s0 : MSt K F} (H : Starts e x0 fuel Δ sl s0)
    (hn : SignBlind e) (ε : List Bool) (os : List (Orc K F)) (hS : ∀ o ∈ os, NComps ε.length o) (t : MSt K F)
    (hN : ∀ y ∈ t.ev.w.logF, y.length = ε.length ∧
      insideTest (mirrorLb ε e.lb e.ub) (mirrorUb ε e.lb e.ub) (signed ε y) = insideTest e.lb e.ub y) :
    (mainLoop e os s0 = .running t → mainLoop (mirrorEnv ε e) (os.map (mirrorOrc ε)) (mirrorSt ε s0) = .running (mirrorSt ε t)) ∧
    (mainLoop e os s0 = .done t → mainLoop (mirrorEnv ε e) (os.map (mirrorOrc ε)) (mirrorSt ε s0) = .done (mirrorSt ε t)) := by
  have hC := C118_coordinates H (mirrored_carried ε hn) os (os.map (mirrorOrc ε)) (mirrored_orcs ε os hS)
  have hN' : ∀ y ∈ t.ev.w.logF, y.length = ε.length ∧ SameFloor e (signed ε) y ∧ SameSide e (mirrorCoords ε e) (signed ε) y :=
    fun y hy => ⟨(hN y hy).1, mirrored_floor ε hn y, (hN y hy).2⟩
  exact ⟨fun h => hC.1 t h hN', fun h => hC.2 t h hN'⟩

theorem signed_all {n : ℕ} {y : List K} (hy : y.length = n) : signed (List.replicate n true) y = y.map (- ·) := by
  subst hy
  unfold signed
  rw [if_pos (by simp)]
  induction y with
  | nil => rfl
  | cons v y ih => simpa [List.replicate_succ] using ih

theorem mirror_all {n : ℕ} {lb ub : List K} (hl : lb.length = n) (hu : ub.length = n) :
    mirrorLb (List.replicate n true) lb ub = ub.map (- ·) ∧ mirrorUb (List.replicate n true) lb ub = lb.map (- ·) := by
  induction lb generalizing n ub with
  | nil =>
    subst hl
    obtain rfl := List.eq_nil_of_length_eq_zero hu
    exact ⟨rfl, rfl⟩
  | cons l lb ih =>
    cases ub with
    | nil => simp at hu; simp [← hu] at hl
    | cons u ub =>
      subst hl
      obtain ⟨h1, h2⟩ := ih (n := lb.length) (ub := ub) rfl (by simpa using hu)
      unfold mirrorLb at h1
      unfold mirrorUb at h2
      constructor
      · simpa [mirrorLb, List.replicate_succ] using h1
      · simpa [mirrorUb, List.replicate_succ] using h2

/-- The bound test, which compares every component with every bound, agrees if all variables change their sign. -/
theorem inside_mirrored {n : ℕ} {lb ub y : List K} (hl : lb.length = n) (hu : ub.length = n) (hy : y.length = n) :
    insideTest (mirrorLb (List.replicate n true) lb ub) (mirrorUb (List.replicate n true) lb ub) (signed (List.replicate n true) y) =
      insideTest lb ub y := by
  rw [(mirror_all hl hu).1, (mirror_all hl hu).2, signed_all hy]
  simp only [insideTest, List.all_map, Function.comp_def, gt_iff_lt, neg_lt_neg_iff]
  rw [Bool.and_comm]

/-- **C123, all variables.** If all variables change their sign, no condition on the bounds is needed. -/
theorem C123_all_partial {e : Env K F} {x0 : List K} {fuel : ℕ} {Δ : K} {sl : List K} {s0 : MSt K F} (H : Starts e x0 fuel Δ sl s0)
    (hn : SignBlind e) {n : ℕ} (hl : e.lb.length = n) (hu : e.ub.length = n) (os : List (Orc K F)) (hS : ∀ o ∈ os, NComps n o) (t : MSt K F)
    (hN : ∀ y ∈ t.ev.w.logF, y.length = n) :
    (mainLoop e os s0 = .running t →
      mainLoop (mirrorEnv (List.replicate n true) e) (os.map (mirrorOrc (List.replicate n true))) (mirrorSt (List.replicate n true) s0) =
        .running (mirrorSt (List.replicate n true) t)) ∧
    (mainLoop e os s0 = .done t →
      mainLoop (mirrorEnv (List.replicate n true) e) (os.map (mirrorOrc (List.replicate n true))) (mirrorSt (List.replicate n true) s0) =
        .done (mirrorSt (List.replicate n true) t)) :=
  C123_loop_partial H hn _ os (by simpa using hS) t fun y hy => ⟨by simpa using hN y hy, inside_mirrored hl hu (hN y hy)⟩

/-- Bounds `-b` and `b` for all variables (as for a problem without bounds) stay the same, and the bound test agrees for any signs. -/
theorem inside_box {n : ℕ} (ε : List Bool) (hε : ε.length = n) (b : K) (y : List K) :
    insideTest (mirrorLb ε (List.replicate n (-b)) (List.replicate n b)) (mirrorUb ε (List.replicate n (-b)) (List.replicate n b)) (signed ε y) =
      insideTest (List.replicate n (-b)) (List.replicate n b) y := by
  have h1 : mirrorLb ε (List.replicate n (-b)) (List.replicate n b) = List.replicate n (-b) ∧
      mirrorUb ε (List.replicate n (-b)) (List.replicate n b) = List.replicate n b := by
    subst hε
    unfold mirrorLb mirrorUb
    induction ε with
    | nil => exact ⟨rfl, rfl⟩
    | cons c ε ih => simp only [List.length_cons, List.replicate_succ, List.zip_cons_cons, List.zipWith_cons_cons, ih, neg_neg, ite_self, and_self]
  rw [h1.1, h1.2]
  have h2 : ∀ y : List K, insideTest (List.replicate n (-b)) (List.replicate n b) y = true ↔ (n = 0 ∨ ∀ v ∈ y, |v| ≤ b) := by
    intro y
    simp only [insideTest, Bool.and_eq_true, List.all_eq_true, List.mem_replicate, Bool.not_eq_true', decide_eq_false_iff_not, not_lt, gt_iff_lt, abs_le]
    rcases Nat.eq_zero_or_pos n with rfl | hn
    · simp
    · constructor
      · rintro ⟨h, h'⟩
        exact Or.inr fun v hv => ⟨h _ ⟨hn.ne', rfl⟩ v hv, h' _ ⟨hn.ne', rfl⟩ v hv⟩
      · rintro (h | h)
        · exact absurd h hn.ne'
        · exact ⟨fun _ hx v hv => hx.2 ▸ (h v hv).1, fun _ hx v hv => hx.2 ▸ (h v hv).2⟩
  rw [Bool.eq_iff_iff, h2, h2]
  refine or_congr_right ?_
  have key : ∀ l l' : List K, List.Forall₂ (fun a b => |a| = |b|) l l' → ((∀ v ∈ l, |v| ≤ b) ↔ ∀ v ∈ l', |v| ≤ b) := by
    intro l l' h
    induction h with
    | nil => simp
    | cons h _ ih => simp only [List.mem_cons, forall_eq_or_imp, h, ih]
  exact key _ _ (signed_abs ε y)

/-- **C123, no bounds.** With the same bounds `-b` and `b` for all variables any variables can change their sign. -/
theorem C123_box_partial {e : Env K F} {x0 : List K} {fuel : ℕ} {Δ : K} {sl : List K} {s0 : MSt K F} (H : Starts e x0 fuel Δ sl s0)
    (hn : SignBlind e) (ε : List Bool) {b : K} (hl : e.lb = List.replicate ε.length (-b)) (hu : e.ub = List.replicate ε.length b) (os : List (Orc K F))
    (hS : ∀ o ∈ os, NComps ε.length o) (t : MSt K F) (hN : ∀ y ∈ t.ev.w.logF, y.length = ε.length) :
    (mainLoop e os s0 = .running t → mainLoop (mirrorEnv ε e) (os.map (mirrorOrc ε)) (mirrorSt ε s0) = .running (mirrorSt ε t)) ∧
    (mainLoop e os s0 = .done t → mainLoop (mirrorEnv ε e) (os.map (mirrorOrc ε)) (mirrorSt ε s0) = .done (mirrorSt ε t)) :=
  C123_loop_partial H hn ε os hS t fun y hy => ⟨hN y hy, by rw [hl, hu]; exact inside_box ε rfl b y⟩

/-- **C123, kernels.** The same with kernels that are functions of the state. -/
theorem C123_kernels_partial {e : Env K F} {x0 : List K} {fuel : ℕ} {Δ : K} {sl : List K} {s0 : MSt K F} (H : Starts e x0 fuel Δ sl s0)
    (hn : SignBlind e) (ε : List Bool) (kern kern' : MSt K F → Orc K F) (hS : ∀ s, NComps ε.length (kern s))
    (hk : ∀ s, kern' (mirrorSt ε s) = mirrorOrc ε (kern s)) (m : ℕ) (t : MSt K F)
    (ht : play e kern m s0 = .running t ∨ play e kern m s0 = .done t)
    (hN : ∀ y ∈ t.ev.w.logF, y.length = ε.length ∧
      insideTest (mirrorLb ε e.lb e.ub) (mirrorUb ε e.lb e.ub) (signed ε y) = insideTest e.lb e.ub y) :
    play (mirrorEnv ε e) kern' m (mirrorSt ε s0) = (play e kern m s0).map (mirrorSt ε) :=
  C118_play H (mirrored_carried ε hn) kern kern' (fun s => by
    rw [show kern' (carrySt (signed ε) id (mirrorG ε) s) = _ from hk s]; exact mirrored_orc ε (hS s)) m t ht
    fun y hy => ⟨(hN y hy).1, mirrored_floor ε hn y, (hN y hy).2⟩

/-! ### The initial points -/

/-- **C123, initial points.** The initial points around the mirrored start point are not the mirrored initial points: they are those with the
negative radius. -/
theorem C123_simplex (x : List K) (D : K) : (simplex x D).map (List.map (- ·)) = simplex (x.map (- ·)) (-D) := by
  unfold simplex
  rw [List.map_cons, List.length_map, List.map_map]
  congr 1
  refine List.map_congr_left fun j _ => ?_
  refine List.ext_getElem? fun i => ?_
  simp only [Function.comp, List.getElem?_map, List.getElem?_mapIdx, Option.map_map]
  congr 1
  funext v
  simp only [Function.comp]
  ring

/-! ### Linear models -/

section models
open Matrix
variable {n : ℕ}

/-- The sign of component `i`. -/
def sgn (ε : List Bool) (i : ℕ) : K := if ε[i]? = some true then -1 else 1

theorem sgn_sq (ε : List Bool) (i : ℕ) : (sgn ε i : K) * sgn ε i = 1 := by
  unfold sgn; split <;> ring

theorem signed_getD (ε : List Bool) {y : List K} (hy : y.length = ε.length) (i : ℕ) : (signed ε y).getD i 0 = sgn ε i * y.getD i 0 := by
  rw [List.getD_eq_getElem?_getD, List.getD_eq_getElem?_getD, signed_get]
  unfold sgn
  cases y[i]? with
  | none => simp
  | some v => by_cases h : ε[i]? = some true <;> simp [h, hy]

theorem affine_mirrored (ε : List Bool) (c : K) (g : Fin n → K) {y : List K} (hy : y.length = ε.length) :
    affine c (fun i => sgn ε i * g i) (signed ε y) = affine c g y := by
  unfold affine
  congr 1
  refine Finset.sum_congr rfl fun i _ => ?_
  rw [signed_getD ε hy, mul_mul_mul_comm, sgn_sq, one_mul]

theorem fixes_mirrored (ε : List Bool) {Y : List (List K)} (h : Fixes n Y) (hy : ∀ y ∈ Y, y.length = ε.length) :
    Fixes n (Y.map (signed ε)) := by
  intro c g hz
  obtain ⟨h1, h2⟩ := h c (fun i => sgn ε i * g i) fun y hY => by
    rw [← affine_mirrored ε c _ (hy y hY)]
    simp only [← mul_assoc, sgn_sq, one_mul]
    exact hz _ (List.mem_map_of_mem hY)
  refine ⟨h1, funext fun i => ?_⟩
  have := congrFun h2 i
  have h3 : (sgn ε i : K) ≠ 0 := fun h0 => by have := sgn_sq (K := K) ε i; rw [h0, zero_mul] at this; exact zero_ne_one this
  simpa [h3] using this

/-- **C123, models.** For a poised set of `n + 1` points the gradient of the linear model of the code, computed from the mirrored points, is that
computed from the points, with the other sign of the marked components. -/
theorem C123_model {k : Kern n} (hq : GoodQR k) (hms : LinKer k.ms) (hn : 1 ≤ n) (ε : List Bool) (hε : ε.length = n) {Y : List (List ℝ)}
    (h : OneAffine n Y) (hl : Y.length = n + 1) (hy : ∀ y ∈ Y, y.length = n) {x : List ℝ} (hx : Y[0]? = some x) (v : List ℝ) (i : Fin n) :
    vec n (gradOf k n (Y.map (signed ε)) (signed ε x) v) i = (if ε[(i : ℕ)]? = some true then -1 else 1) * vec n (gradOf k n Y x v) i := by
  subst hε
  obtain ⟨⟨c, g⟩, hcg, -⟩ := h fun j => v.getD j 0
  rw [gradOf_affine hq hms hn (fixes_of_one h) hl hx v c g fun j y hj => (hcg j y hj).symm]
  rw [gradOf_affine hq hms hn (fixes_mirrored ε (fixes_of_one h) hy) (by rw [List.length_map]; exact hl) (by rw [List.getElem?_map, hx]; rfl)
    v c (fun i => sgn ε i * g i) fun j z hj => ?_]
  · rfl
  · rw [List.getElem?_map] at hj
    obtain ⟨y, hY, rfl⟩ := Option.map_eq_some_iff.1 hj
    rw [affine_mirrored ε c g (hy y (List.mem_of_getElem? hY))]
    exact (hcg j y hY).symm

end models

namespace Ex

theorem nrm1_blind {e : Env ℚ Unit} (h : e.nrm = fun l => (l.map abs).sum) : SignBlind e := by
  intro l l' hf
  rw [h]
  dsimp only
  congr 1
  induction hf with
  | nil => rfl
  | cons h _ ih => rw [List.map_cons, List.map_cons, h, ih]

theorem tile_blind : SignBlind tileEnv := nrm1_blind rfl

/-- A run, and the run for the mirrored variables from a given start point. -/
def mirrorRuns (ε : List Bool) (e : Env ℚ Unit) (x0 x1 : List ℚ) (os : List (Orc ℚ Unit)) (p : MainRes ℚ Unit → MainRes ℚ Unit → Bool) : Bool :=
  match start e x0, start (mirrorEnv ε e) x1 with
  | some s0, some s1 => p (mainLoop e os s0) (mainLoop (mirrorEnv ε e) (os.map (mirrorOrc ε)) s1)
  | _, _ => false

theorem mirrorRuns_sound {ε : List Bool} {e : Env ℚ Unit} {x0 x1 : List ℚ} {os : List (Orc ℚ Unit)} {p : MainRes ℚ Unit → MainRes ℚ Unit → Bool}
    (h : mirrorRuns ε e x0 x1 os p = true) :
    ∃ s0 s1, startState e x0 1 1 [] = some s0 ∧ startState (mirrorEnv ε e) x1 1 1 [] = some s1 ∧
      p (mainLoop e os s0) (mainLoop (mirrorEnv ε e) (os.map (mirrorOrc ε)) s1) = true := by
  unfold mirrorRuns at h
  split at h
  · rename_i s0 s1 hs0 hs1
    exact ⟨s0, s1, hs0, hs1, h⟩
  · cases h

/-- Negation of C123: the objective is the second variable.  The initial points lie at smaller values of the variables, so one of them
is better than the start point, and the run ends with status 0 at this point.  If both variables have the other sign, all initial points are no better than the
start point, and the run ends there, also with status 0. -/
theorem C123_mirror_false :
    ∃ s0 s1, Starts tileEnv [0, 0] 1 1 [] s0 ∧ SignBlind tileEnv ∧
      startState (mirrorEnv [true, true] tileEnv) (signed [true, true] [0, 0]) 1 1 [] = some s1 ∧
      ∃ t t', mainLoop tileEnv [tileOrc] s0 = .done t ∧ mainLoop (mirrorEnv [true, true] tileEnv) [mirrorOrc [true, true] tileOrc] s1 = .done t' ∧
        t.ev.flag = 0 ∧ t'.ev.flag = 0 ∧ t.x = [0, -1] ∧ t'.x = [0, 0] ∧ t'.x ≠ signed [true, true] t.x := by
  obtain ⟨s0, s1, hs0, hs1, h⟩ := mirrorRuns_sound (ε := [true, true]) (e := tileEnv) (x0 := [0, 0]) (x1 := signed [true, true] [0, 0]) (os := [tileOrc])
    (p := fun r r' => match r, r' with
      | .done t, .done t' => decide (t.ev.flag = 0 ∧ t'.ev.flag = 0 ∧ t.x = [0, -1] ∧ t'.x = [0, 0])
      | _, _ => false) (by decide +kernel)
  split at h
  · rename_i t t' h1 h2
    obtain ⟨a, b, c, d⟩ := of_decide_eq_true h
    refine ⟨s0, s1, ⟨⟨nrm1_nonneg, descOrder_sorted⟩, ⟨fun _ => rfl, fun _ h => by cases h⟩, rfl, one_pos, hs0⟩, tile_blind, hs1, t, t', h1, h2,
      a, b, c, d, ?_⟩
    rw [c, d]
    decide +kernel
  · cases h

/-- The run from the mirrored state. -/
def mirrorLoop (ε : List Bool) (e : Env ℚ Unit) (x0 : List ℚ) (os : List (Orc ℚ Unit)) (p : MainRes ℚ Unit → MainRes ℚ Unit → Bool) : Bool :=
  match start e x0 with
  | some s0 => p (mainLoop e os s0) (mainLoop (mirrorEnv ε e) (os.map (mirrorOrc ε)) (mirrorSt ε s0))
  | _ => false

theorem mirrorLoop_sound {ε : List Bool} {e : Env ℚ Unit} {x0 : List ℚ} {os : List (Orc ℚ Unit)} {p : MainRes ℚ Unit → MainRes ℚ Unit → Bool}
    (h : mirrorLoop ε e x0 os p = true) :
    ∃ s0, startState e x0 1 1 [] = some s0 ∧
      p (mainLoop e os s0) (mainLoop (mirrorEnv ε e) (os.map (mirrorOrc ε)) (mirrorSt ε s0)) = true := by
  unfold mirrorLoop at h
  split at h
  · rename_i s0 hs0
    exact ⟨s0, hs0, h⟩
  · cases h

/-- The example of C118 with bounds such that the bound test fails after the change of one sign. -/
def sideEnv : Env ℚ Unit := { tileEnv with lb := [-5, -5], ub := [-1, 1] }

/-- Also from the mirrored state the run is another one if only one variable changes its sign.  With the bounds `-5 ≤ x₁ ≤ -1`, `-5 ≤ x₂ ≤ 1` all
points of the set pass the bound test, and the best one is returned.  With the other sign of `x₁` its bounds are `1 ≤ x₁ ≤ 5`; no point of the set
passes, because `x₂` is compared with the bound 1 of `x₁`, and the start point is returned. -/
theorem C123_bounds_false :
    ∃ s0, Starts sideEnv [-2, -2] 1 1 [] s0 ∧ SignBlind sideEnv ∧
      ∃ t t', mainLoop sideEnv [tileOrc] s0 = .done t ∧ mainLoop (mirrorEnv [true, false] sideEnv) [mirrorOrc [true, false] tileOrc] (mirrorSt [true, false] s0) = .done t' ∧
        t.ev.flag = 0 ∧ t'.ev.flag = 0 ∧ t.x = [-2, -3] ∧ t'.x = [2, -2] ∧ t'.x ≠ signed [true, false] t.x := by
  obtain ⟨s0, hs0, h⟩ := mirrorLoop_sound (ε := [true, false]) (e := sideEnv) (x0 := [-2, -2]) (os := [tileOrc])
    (p := fun r r' => match r, r' with
      | .done t, .done t' => decide (t.ev.flag = 0 ∧ t'.ev.flag = 0 ∧ t.x = [-2, -3] ∧ t'.x = [2, -2])
      | _, _ => false) (by decide +kernel)
  split at h
  · rename_i t t' h1 h2
    obtain ⟨a, b, c, d⟩ := of_decide_eq_true h
    refine ⟨s0, ⟨⟨nrm1_nonneg, descOrder_sorted⟩, ⟨fun _ => rfl, fun _ h => by cases h⟩, rfl, one_pos, hs0⟩, nrm1_blind rfl, t, t', h1, h2,
      a, b, c, d, ?_⟩
    rw [c, d]
    decide +kernel
  · cases h

/-- `C123_all_partial` for the run of `C123_mirror_false`: from the mirrored state it ends at `(0, 1)`. -/
example : ∃ s0 t, Starts tileEnv [0, 0] 1 1 [] s0 ∧ mainLoop tileEnv [tileOrc] s0 = .done t ∧ t.x = [0, -1] ∧
    mainLoop (mirrorEnv [true, true] tileEnv) [mirrorOrc [true, true] tileOrc] (mirrorSt [true, true] s0) = .done (mirrorSt [true, true] t) ∧
    (mirrorSt [true, true] t).x = [0, 1] := by
  obtain ⟨s0, hs0, h⟩ := mirrorLoop_sound (ε := [true, true]) (e := tileEnv) (x0 := [0, 0]) (os := [tileOrc])
    (p := fun r _ => match r with
      | .done t => decide (t.x = [0, -1] ∧ ∀ y ∈ t.ev.w.logF, y.length = 2)
      | _ => false) (by decide +kernel)
  split at h
  · rename_i t h1
    obtain ⟨a, b⟩ := of_decide_eq_true h
    have H : Starts tileEnv [0, 0] 1 1 [] s0 := ⟨⟨nrm1_nonneg, descOrder_sorted⟩, ⟨fun _ => rfl, fun _ h => by cases h⟩, rfl, one_pos, hs0⟩
    refine ⟨s0, t, H, h1, a, (C123_all_partial H tile_blind (n := 2) rfl rfl [tileOrc] (fun o ho => ?_) t b).2 h1, ?_⟩
    · rw [List.mem_singleton.1 ho]
      exact ⟨rfl, fun _ _ _ => rfl⟩
    · show signed [true, true] t.x = _
      rw [a]
      decide +kernel
  · cases h

/-- `C123_box_partial` for a run with the bounds -7 and 7, one variable with the other sign. -/
example : ∃ s0 t, Starts { tileEnv with lb := [-7, -7], ub := [7, 7] } [0, 0] 1 1 [] s0 ∧
    mainLoop { tileEnv with lb := [-7, -7], ub := [7, 7] } [tileOrc] s0 = .done t ∧ t.x = [0, -1] ∧
    mainLoop (mirrorEnv [false, true] { tileEnv with lb := [-7, -7], ub := [7, 7] }) [mirrorOrc [false, true] tileOrc] (mirrorSt [false, true] s0) =
      .done (mirrorSt [false, true] t) ∧ (mirrorSt [false, true] t).x = [0, 1] := by
  obtain ⟨s0, hs0, h⟩ := mirrorLoop_sound (ε := [false, true]) (e := { tileEnv with lb := [-7, -7], ub := [7, 7] }) (x0 := [0, 0]) (os := [tileOrc])
    (p := fun r _ => match r with
      | .done t => decide (t.x = [0, -1] ∧ ∀ y ∈ t.ev.w.logF, y.length = 2)
      | _ => false) (by decide +kernel)
  split at h
  · rename_i t h1
    obtain ⟨a, b⟩ := of_decide_eq_true h
    have H : Starts { tileEnv with lb := [-7, -7], ub := [7, 7] } [0, 0] 1 1 [] s0 :=
      ⟨⟨nrm1_nonneg, descOrder_sorted⟩, ⟨fun _ => rfl, fun _ h => by cases h⟩, rfl, one_pos, hs0⟩
    refine ⟨s0, t, H, h1, a, (C123_box_partial H (nrm1_blind rfl) [false, true] (b := 7) rfl rfl [tileOrc] (fun o ho => ?_) t b).2 h1, ?_⟩
    · rw [List.mem_singleton.1 ho]
      exact ⟨rfl, fun _ _ _ => rfl⟩
    · show signed [false, true] t.x = _
      rw [a]
      decide +kernel
  · cases h

/-- The initial points for the mirrored variables are not the mirrored ones. -/
example : simplex (signed [true] [3]) (1 : ℚ) = [[-3], [-4]] ∧ (simplex [3] (1 : ℚ)).map (signed [true]) = [[-3], [-2]] := by
  decide +kernel

/-- The hypotheses of `C123_model` on the set hold for the initial set of a problem with two variables. -/
example (k : Kern 2) (hq : GoodQR k) (hms : LinKer k.ms) (v : List ℝ) :
    vec 2 (gradOf k 2 (([[0, 0], [-1, 0], [0, -1]] : List (List ℝ)).map (signed [true, false])) (signed [true, false] [0, 0]) v) 0 =
      - vec 2 (gradOf k 2 [[0, 0], [-1, 0], [0, -1]] [0, 0] v) 0 := by
  have hF : Fixes 2 ([[0, 0], [-1, 0], [0, -1]] : List (List ℝ)) := by
    intro c g hz
    have h0 := hz [0, 0] (by simp)
    have h1 := hz [-1, 0] (by simp)
    have h2 := hz [0, -1] (by simp)
    simp only [affine, Fin.sum_univ_two, List.getD_eq_getElem?_getD, Fin.val_zero, Fin.val_one, List.getElem?_cons_zero, List.getElem?_cons_succ,
      Option.getD_some] at h0 h1 h2
    refine ⟨by linarith, funext fun i => ?_⟩
    fin_cases i
    · show g 0 = 0
      linarith
    · show g 1 = 0
      linarith
  have := C123_model hq hms (by norm_num) [true, false] rfl (hF.one rfl) rfl (by simp) (x := [0, 0]) rfl v 0
  simpa using this

end Ex
end Sqpdfo

#print axioms Sqpdfo.C123_loop_partial
#print axioms Sqpdfo.C123_all_partial
#print axioms Sqpdfo.C123_box_partial
#print axioms Sqpdfo.C123_kernels_partial
#print axioms Sqpdfo.C123_simplex
#print axioms Sqpdfo.C123_model
#print axioms Sqpdfo.Ex.C123_mirror_false
#print axioms Sqpdfo.Ex.C123_bounds_false
