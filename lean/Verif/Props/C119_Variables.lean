import Verif.Spec.Rename
import Verif.Props.C116_Order
import Verif.Props.C118_Translate

/-! # C119: the order of the variables -/

set_option linter.unusedSectionVars false

namespace Sqpdfo
open Spec
variable {K F : Type} [Field K] [LinearOrder K] [IsStrictOrderedRing K] {n : ℕ}

theorem reorder_back {α : Type} (σ : Equiv.Perm (Fin n)) (l : List α) : reorder σ⁻¹ (reorder σ l) = l := by
  by_cases h : l.length = n
  · refine List.ext_getElem? fun i => ?_
    rcases Nat.lt_or_ge i n with hi | hi
    · rw [reorder_get σ⁻¹ _ (by rw [reorder_length]; exact h) ⟨i, hi⟩, reorder_get σ l h]
      simp
    · rw [List.getElem?_eq_none (by rw [reorder_length, reorder_length, h]; exact hi), List.getElem?_eq_none (by rw [h]; exact hi)]
  · have : reorder σ l = l := by unfold reorder; rw [dif_neg h]
    rw [this]
    unfold reorder
    rw [dif_neg h]

theorem reorder_backs {α : Type} (σ : Equiv.Perm (Fin n)) (Y : List (List α)) : (Y.map (reorder σ)).map (reorder σ⁻¹) = Y := by
  rw [List.map_map, show reorder σ⁻¹ ∘ reorder (α := α) σ = id from funext (reorder_back σ), List.map_id]

theorem renameW_back (σ : Equiv.Perm (Fin n)) (w : World (List K)) : renameBackW σ (carryW (reorder σ) w) = w := by
  unfold renameBackW carryW
  simp only [reorder_backs]

theorem renamed_carried (σ : Equiv.Perm (Fin n)) {e : Env K F} (hn : OrderFree e) :
    Carried (fun y => y.length = n) (reorder σ) id (renameG σ) e (renameCoords σ e) where
  dist y z d hy hz := by
    rw [← reorder_zipWith σ _ y z (hy.trans hz.symm)]
    exact hn _ _ ((reorder_perm σ _).append_right d)
  build Y := by simp only [renameCoords, reorder_backs, id]
  model f x fY ceY := by simp only [renameCoords, reorder_back, id]
  user := by
    refine ⟨fun w y => ?_, fun h => ?_, fun g hg => ?_⟩
    · simp only [renameCoords, renameUser, renameW_back, reorder_back]
    · simp only [renameCoords, renameUser, h, Option.map_none]
    · refine ⟨fun w y => g (renameBackW σ w) (reorder σ⁻¹ y), by simp only [renameCoords, renameUser, hg, Option.map_some], fun w y => ?_⟩
      simp only [renameW_back, reorder_back]

theorem renamed_orc (σ : Equiv.Perm (Fin n)) {o : Orc K F} (h : NComps n o) :
    CarriedOrc (fun y => y.length = n) (reorder σ) id o (renameOrc σ o) :=
  ⟨_, _, rfl, fun f Y => by simp only [reorder_backs, id], fun f Y j => by simp only [reorder_backs, id], h.1, h.2⟩

theorem renamed_orcs (σ : Equiv.Perm (Fin n)) : ∀ os : List (Orc K F), (∀ o ∈ os, NComps n o) →
    List.Forall₂ (CarriedOrc (fun y => y.length = n) (reorder σ) id) os (os.map (renameOrc σ))
  | [], _ => .nil
  | o :: os, h => .cons (renamed_orc σ (h o List.mem_cons_self)) (renamed_orcs σ os fun o' ho => h o' (List.mem_cons_of_mem _ ho))

theorem all_perm {α : Type} {l l' : List α} (h : l.Perm l') (p : α → Bool) : l.all p = l'.all p := by
  rw [Bool.eq_iff_iff, List.all_eq_true, List.all_eq_true]
  exact ⟨fun hl a ha => hl a (h.mem_iff.2 ha), fun hl a ha => hl a (h.mem_iff.1 ha)⟩

/-- The bound test, which compares every component with every bound, does not depend on the order of the variables. -/
theorem inside_renamed (σ : Equiv.Perm (Fin n)) (lb ub y : List K) :
    insideTest (reorder σ lb) (reorder σ ub) (reorder σ y) = insideTest lb ub y := by
  unfold insideTest
  rw [all_perm (reorder_perm σ lb), all_perm (reorder_perm σ ub)]
  simp only [all_perm (reorder_perm σ y)]

theorem renamed_same (σ : Equiv.Perm (Fin n)) {e : Env K F} (hn : OrderFree e) (y : List K) :
    SameFloor e (reorder σ) y ∧ SameSide e (renameCoords σ e) (reorder σ) y :=
  ⟨by unfold SameFloor; rw [hn _ _ (reorder_perm σ y)], inside_renamed σ _ _ _⟩

/-- C119, full statement: *if the variables of a problem - start point, bounds, functions - are given in another order, the run is the same, with
the components of all points in this order.*  False: the initial points stand in the order of the variables, and the second
point of the set is never chosen as new base point (`C119_order_false`).  Proved: from the reordered state at its start the
main loop makes the same run, whatever the kernels do. -/
theorem C119_loop_partial {e : Env K F} {x0 : List K} {fuel : ℕ} {Δ : K} {sl : List K} {s0 : MSt K F} (H : Starts e x0 fuel Δ sl s0)
    (hn : OrderFree e) (σ : Equiv.Perm (Fin n)) (os : List (Orc K F)) (hS : ∀ o ∈ os, NComps n o) (t : MSt K F)
    (hN : ∀ y ∈ t.ev.w.logF, y.length = n) :
    (mainLoop e os s0 = .running t → mainLoop (renameEnv σ e) (os.map (renameOrc σ)) (renameSt σ s0) = .running (renameSt σ t)) ∧
    (mainLoop e os s0 = .done t → mainLoop (renameEnv σ e) (os.map (renameOrc σ)) (renameSt σ s0) = .done (renameSt σ t)) := by
  have hC := C118_coordinates H (renamed_carried σ hn) os (os.map (renameOrc σ)) (renamed_orcs σ os hS)
  have hN' : ∀ y ∈ t.ev.w.logF, y.length = n ∧ SameFloor e (reorder σ) y ∧ SameSide e (renameCoords σ e) (reorder σ) y :=
    fun y hy => ⟨hN y hy, renamed_same σ hn y⟩
  exact ⟨fun h => hC.1 t h hN', fun h => hC.2 t h hN'⟩

/-- **C119, kernels.** The same with kernels that are functions of the state: those for the reordered problem have to give, in the reordered
state, the reordered results. -/
theorem C119_kernels_partial {e : Env K F} {x0 : List K} {fuel : ℕ} {Δ : K} {sl : List K} {s0 : MSt K F} (H : Starts e x0 fuel Δ sl s0)
    (hn : OrderFree e) (σ : Equiv.Perm (Fin n)) (kern kern' : MSt K F → Orc K F) (hS : ∀ s, NComps n (kern s))
    (hk : ∀ s, kern' (renameSt σ s) = renameOrc σ (kern s)) (m : ℕ) (t : MSt K F)
    (ht : play e kern m s0 = .running t ∨ play e kern m s0 = .done t) (hN : ∀ y ∈ t.ev.w.logF, y.length = n) :
    play (renameEnv σ e) kern' m (renameSt σ s0) = (play e kern m s0).map (renameSt σ) :=
  C118_play H (renamed_carried σ hn) kern kern' (fun s => by
    rw [show kern' (carrySt (reorder σ) id (renameG σ) s) = _ from hk s]; exact renamed_orc σ (hS s)) m t ht
    fun y hy => ⟨hN y hy, renamed_same σ hn y⟩

/-! ### The initial points -/

theorem reorder_shift (σ : Equiv.Perm (Fin n)) (x : List K) (hx : x.length = n) (D : K) (j : Fin n) :
    (reorder σ x).mapIdx (fun i v => v + -D * (if i = (j : ℕ) then 1 else 0)) =
      reorder σ (x.mapIdx fun i v => v + -D * (if i = (σ j : ℕ) then 1 else 0)) := by
  refine List.ext_getElem? fun i => ?_
  rcases Nat.lt_or_ge i n with hi | hi
  · rw [List.getElem?_mapIdx, reorder_get σ x hx ⟨i, hi⟩, reorder_get σ _ (by rw [List.length_mapIdx]; exact hx) ⟨i, hi⟩, List.getElem?_mapIdx]
    have : (σ ⟨i, hi⟩ : ℕ) = (σ j : ℕ) ↔ i = (j : ℕ) := by
      rw [← Fin.ext_iff, σ.injective.eq_iff, Fin.ext_iff]
    simp only [this]
  · rw [List.getElem?_eq_none (by rw [List.length_mapIdx, reorder_length, hx]; exact hi),
      List.getElem?_eq_none (by rw [reorder_length, List.length_mapIdx, hx]; exact hi)]

/-- **C119, initial points.** The initial points around the reordered start point are the reordered initial points, the start point being the
first of both, the others in another order: point `j + 1` belongs to variable `σ j`. -/
theorem C119_simplex (σ : Equiv.Perm (Fin n)) (x : List K) (hx : x.length = n) (D : K) :
    (simplex (reorder σ x) D)[0]? = some (reorder σ x) ∧
    (∀ j : Fin n, (simplex (reorder σ x) D)[(j : ℕ) + 1]? = ((simplex x D)[(σ j : ℕ) + 1]?).map (reorder σ)) ∧
    (simplex (reorder σ x) D).Perm ((simplex x D).map (reorder σ)) := by
  refine ⟨by simp [simplex], fun j => ?_, ?_⟩
  · simp only [simplex, List.getElem?_cons_succ, List.getElem?_map, reorder_length, hx, List.getElem?_range j.2, List.getElem?_range (σ j).2,
      Option.map_some, reorder_shift σ x hx]
  · unfold simplex
    rw [List.map_cons, reorder_length, hx, List.map_map]
    refine List.Perm.cons _ ?_
    have hr : (List.range n).map (fun j => (reorder σ x).mapIdx fun i v => v + -D * (if i = j then 1 else 0)) =
        (reorder σ (List.range n)).map (reorder σ ∘ fun j => x.mapIdx fun i v => v + -D * (if i = j then 1 else 0)) := by
      refine List.ext_getElem? fun j => ?_
      rcases Nat.lt_or_ge j n with hj | hj
      · rw [List.getElem?_map, List.getElem?_map, reorder_get σ _ List.length_range ⟨j, hj⟩, List.getElem?_range hj, List.getElem?_range (σ _).2]
        simp only [Option.map_some, Function.comp]
        rw [reorder_shift σ x hx D ⟨j, hj⟩]
      · rw [List.getElem?_eq_none (by simpa using hj), List.getElem?_eq_none (by simpa [reorder_length] using hj)]
    rw [hr]
    exact (reorder_perm σ _).map _

theorem start_points {e : Env K F} (hB : Bounded25 e.U) {x0 : List K} {fuel : ℕ} {Δ : K} {sl : List K} {s0 : MSt K F}
    (h : startState e x0 fuel Δ sl = some s0) : s0.delta = Δ ∧ s0.x = x0 ∧ s0.set.Y = simplex x0 Δ := by
  unfold startState at h
  cases hi : initLoop e.U x0 (e.nrm x0) fuel Δ emptyEv with
  | crash => rw [hi] at h; cases h
  | failed ev => rw [hi] at h; cases h
  | stalled ev => rw [hi] at h; cases h
  | running => rw [hi] at h; cases h
  | done D ev =>
    rw [hi] at h
    obtain ⟨-, hX, -⟩ := C48_done_complete e.U x0 _ _ _ _ _ _ rfl hi
    have hD : D = Δ := by
      cases fuel with
      | zero => cases hi
      | succ fuel =>
        simp only [initLoop] at hi
        split at hi
        · cases hi
        · cases hi
        · split at hi
          · cases hi
          · split at hi
            · cases hi
            · cases hi; rfl
        · rename_i t ht
          exact absurd ht (samplePass_whole hB _ _ _ t)
    subst hD
    simp only [mainInit] at h
    split at h
    · rename_i fY ceY x _ _ hx
      split at h
      · cases h
      · simp only [Option.some.injEq] at h
        subst h
        refine ⟨rfl, ?_, hX⟩
        rw [hX] at hx
        simpa [simplex] using hx.symm
    · cases h

/-- **C119, start.** If the objective does not exceed `1e25` in absolute value, the runs for the variables in both orders start with the same
radius, at the same point, and with the same set of points (in the order of the variables). -/
theorem C119_start {e : Env K F} (hB : Bounded25 e.U) (σ : Equiv.Perm (Fin n)) {x0 : List K} (hx : x0.length = n) {fuel : ℕ} {Δ : K}
    {sl : List K} {s0 s1 : MSt K F} (h0 : startState e x0 fuel Δ sl = some s0)
    (h1 : startState (renameEnv σ e) (reorder σ x0) fuel Δ sl = some s1) :
    s1.delta = s0.delta ∧ s1.x = reorder σ s0.x ∧ s1.set.Y.Perm (s0.set.Y.map (reorder σ)) := by
  have hB' : Bounded25 (renameEnv σ e).U := fun w y q hq => hB _ _ q hq
  obtain ⟨a, b, c⟩ := start_points hB h0
  obtain ⟨a', b', c'⟩ := start_points hB' h1
  exact ⟨a'.trans a.symm, by rw [b', b], by rw [c, c']; exact (C119_simplex σ x0 hx Δ).2.2⟩

/-! ### Linear models -/

section models
open Matrix

theorem affine_renamed (σ : Equiv.Perm (Fin n)) (c : K) (g : Fin n → K) (y : List K) (hy : y.length = n) :
    affine c (g ∘ σ) (reorder σ y) = affine c g y := by
  unfold affine
  congr 1
  rw [← Equiv.sum_comp σ fun i => g i * y.getD i 0]
  refine Finset.sum_congr rfl fun i _ => ?_
  simp only [Function.comp, List.getD_eq_getElem?_getD, reorder_get σ y hy i]

theorem fixes_renamed (σ : Equiv.Perm (Fin n)) {Y : List (List K)} (h : Fixes n Y) (hy : ∀ y ∈ Y, y.length = n) :
    Fixes n (Y.map (reorder σ)) := by
  intro c g hz
  obtain ⟨h1, h2⟩ := h c (g ∘ σ.symm) fun y hY => by
    rw [← affine_renamed σ c _ y (hy y hY), Function.comp_assoc, Equiv.symm_comp_self, Function.comp_id]
    exact hz _ (List.mem_map_of_mem hY)
  refine ⟨h1, funext fun i => ?_⟩
  have := congrFun h2 (σ i)
  simpa using this

/-- The gradient of the linear model is that of the affine function with the same values. -/
theorem gradOf_affine {n : ℕ} {k : Kern n} (hq : GoodQR k) (hms : LinKer k.ms) (hn : 1 ≤ n) {Y : List (List ℝ)} (h : Fixes n Y)
    (hl : Y.length = n + 1) {x : List ℝ} (hx : Y[0]? = some x) (v : List ℝ) (c : ℝ) (g : Fin n → ℝ)
    (hv : ∀ j y, Y[j]? = some y → v.getD j 0 = affine c g y) : vec n (gradOf k n Y x v) = g := by
  have hp := h.poised hn hl
  have hf : Smooth (fun y => c + g ⬝ᵥ y) (fun _ => g) 0 := fun y z => by
    rw [dotProduct_sub]; simp
  obtain ⟨lam, r, -, h1, -⟩ := C73_linear hms hn (ptsOf n n Y) _ _ (hq _ _ _ hp) hp (1 / 10 ^ 3) (by norm_num) _ _ _ hf
  have hx0 : vec n x = ptsOf n n Y 0 := by
    simp only [ptsOf, List.getD_eq_getElem?_getD, Fin.val_zero, hx, Option.getD_some]
  funext i
  have := acc_linear hq hms hn Y hp h1 _ _ _ hf x v hx0 (fun j => by
    have hj : (j : ℕ) < Y.length := by rw [hl]; exact j.2
    have := hv j _ (List.getElem?_eq_getElem hj)
    simp only [vec, ptsOf, List.getD_eq_getElem?_getD, List.getElem?_eq_getElem hj, Option.getD_some] at this ⊢
    rw [this]
    simp only [affine, dotProduct, vec, List.getD_eq_getElem?_getD]) i
  rw [zero_mul] at this
  exact sub_eq_zero.1 (abs_eq_zero.1 (le_antisymm this (abs_nonneg _)))

/-- **C119, models.** For a poised set of `n + 1` points the gradient of the linear model of the code, computed from the reordered points, has
the components of the gradient computed from the points, reordered. -/
theorem C119_model {n : ℕ} {k : Kern n} (hq : GoodQR k) (hms : LinKer k.ms) (hn : 1 ≤ n) (σ : Equiv.Perm (Fin n)) {Y : List (List ℝ)}
    (h : OneAffine n Y) (hl : Y.length = n + 1) (hy : ∀ y ∈ Y, y.length = n) {x : List ℝ} (hx : Y[0]? = some x) (v : List ℝ) :
    vec n (gradOf k n (Y.map (reorder σ)) (reorder σ x) v) = vec n (gradOf k n Y x v) ∘ σ := by
  obtain ⟨⟨c, g⟩, hcg, -⟩ := h fun j => v.getD j 0
  rw [gradOf_affine hq hms hn (fixes_of_one h) hl hx v c g fun j y hj => (hcg j y hj).symm]
  refine gradOf_affine hq hms hn (fixes_renamed σ (fixes_of_one h) hy) (by rw [List.length_map]; exact hl) (by rw [List.getElem?_map, hx]; rfl)
    v c (g ∘ σ) fun j z hj => ?_
  rw [List.getElem?_map] at hj
  obtain ⟨y, hY, rfl⟩ := Option.map_eq_some_iff.1 hj
  rw [affine_renamed σ c g y (hy y (List.mem_of_getElem? hY))]
  exact (hcg j y hY).symm

end models

namespace Ex

theorem tile_free : OrderFree tileEnv := fun _ _ h => (h.map _).sum_eq

/-- A run and the run for the variables in the other order, each from its own start. -/
def bothRuns (e : Env ℚ Unit) (x0 x1 : List ℚ) (os : List (Orc ℚ Unit)) (p : MainRes ℚ Unit → MainRes ℚ Unit → Bool) : Bool :=
  match start e x0, start (renameEnv exch e) x1 with
  | some s0, some s1 => p (mainLoop e os s0) (mainLoop (renameEnv exch e) (os.map (renameOrc exch)) s1)
  | _, _ => false

theorem bothRuns_sound {e : Env ℚ Unit} {x0 x1 : List ℚ} {os : List (Orc ℚ Unit)} {p : MainRes ℚ Unit → MainRes ℚ Unit → Bool}
    (h : bothRuns e x0 x1 os p = true) :
    ∃ s0 s1, startState e x0 1 1 [] = some s0 ∧ startState (renameEnv exch e) x1 1 1 [] = some s1 ∧
      p (mainLoop e os s0) (mainLoop (renameEnv exch e) (os.map (renameOrc exch)) s1) = true := by
  unfold bothRuns at h
  split at h
  · rename_i s0 s1 hs0 hs1
    exact ⟨s0, s1, hs0, hs1, h⟩
  · cases h

/-- Negation of C119: the objective is one of the two variables, and the initial point that belongs to it is the best one.  If it is the second
variable, the run ends with status 0 at this point; if it is the first variable, the run ends with status 0 at the start point. -/
theorem C119_order_false :
    ∃ s0 s1, Starts tileEnv [0, 0] 1 1 [] s0 ∧ OrderFree tileEnv ∧ startState (renameEnv exch tileEnv) (reorder exch [0, 0]) 1 1 [] = some s1 ∧
      ∃ t t', mainLoop tileEnv [tileOrc] s0 = .done t ∧ mainLoop (renameEnv exch tileEnv) [renameOrc exch tileOrc] s1 = .done t' ∧
        t.ev.flag = 0 ∧ t'.ev.flag = 0 ∧ t.x = [0, -1] ∧ t'.x = [0, 0] ∧ t'.x ≠ reorder exch t.x := by
  obtain ⟨s0, s1, hs0, hs1, h⟩ := bothRuns_sound (e := tileEnv) (x0 := [0, 0]) (x1 := reorder exch [0, 0]) (os := [tileOrc])
    (p := fun r r' => match r, r' with
      | .done t, .done t' => decide (t.ev.flag = 0 ∧ t'.ev.flag = 0 ∧ t.x = [0, -1] ∧ t'.x = [0, 0])
      | _, _ => false) (by decide +kernel)
  split at h
  · rename_i t t' h1 h2
    obtain ⟨a, b, c, d⟩ := of_decide_eq_true h
    refine ⟨s0, s1, ⟨⟨nrm1_nonneg, descOrder_sorted⟩, ⟨fun _ => rfl, fun _ h => by cases h⟩, rfl, one_pos, hs0⟩, tile_free, hs1, t, t', h1, h2,
      a, b, c, d, ?_⟩
    rw [c, d, exch_two]
    decide
  · cases h

/-- `C119_loop_partial` for this run: from the reordered state it ends at `(-1, 0)`. -/
example : ∃ s0 t, Starts tileEnv [0, 0] 1 1 [] s0 ∧ mainLoop tileEnv [tileOrc] s0 = .done t ∧ t.x = [0, -1] ∧
    mainLoop (renameEnv exch tileEnv) [renameOrc exch tileOrc] (renameSt exch s0) = .done (renameSt exch t) ∧ (renameSt exch t).x = [-1, 0] := by
  obtain ⟨s0, s1, hs0, hs1, h⟩ := bothRuns_sound (e := tileEnv) (x0 := [0, 0]) (x1 := [0, 0]) (os := [tileOrc])
    (p := fun r _ => match r with
      | .done t => decide (t.x = [0, -1] ∧ ∀ y ∈ t.ev.w.logF, y.length = 2)
      | _ => false) (by decide +kernel)
  split at h
  · rename_i t h1
    obtain ⟨a, b⟩ := of_decide_eq_true h
    have H : Starts tileEnv [0, 0] 1 1 [] s0 := ⟨⟨nrm1_nonneg, descOrder_sorted⟩, ⟨fun _ => rfl, fun _ h => by cases h⟩, rfl, one_pos, hs0⟩
    refine ⟨s0, t, H, h1, a, (C119_loop_partial H tile_free exch [tileOrc] (fun o ho => ?_) t b).2 h1, ?_⟩
    · rw [List.mem_singleton.1 ho]
      exact ⟨rfl, fun _ _ _ => rfl⟩
    · show reorder exch t.x = _
      rw [a, exch_two]
  · cases h

/-- `C119_start` and `C119_simplex`: the initial points for the two orders. -/
example : simplex (reorder exch [3, 5]) (1 : ℚ) = [[5, 3], [4, 3], [5, 2]] ∧ (simplex [3, 5] (1 : ℚ)).map (reorder exch) = [[5, 3], [5, 2], [4, 3]] := by
  decide +kernel

/-- The hypotheses of `C119_model` on the set hold for the initial set of a problem with two variables. -/
example (k : Kern 2) (hq : GoodQR k) (hms : LinKer k.ms) (v : List ℝ) :
    vec 2 (gradOf k 2 [[0, 0], [0, -1], [-1, 0]] [0, 0] v) = vec 2 (gradOf k 2 [[0, 0], [-1, 0], [0, -1]] [0, 0] v) ∘ exch := by
  have hF : Fixes 2 ([[0, 0], [-1, 0], [0, -1]] : List (List ℝ)) := by
    intro c g hz
    have h0 := hz [0, 0] (by simp)
    have h1 := hz [-1, 0] (by simp)
    have h2 := hz [0, -1] (by simp)
    simp only [affine, Fin.sum_univ_two, List.getD_eq_getElem?_getD, Fin.val_zero, Fin.val_one, List.getElem?_cons_zero, List.getElem?_cons_succ,
      Option.getD_some] at h0 h1 h2
    refine ⟨by linarith, funext fun i => ?_⟩
    fin_cases i
    · show g 0 = 0
      linarith
    · show g 1 = 0
      linarith
  exact C119_model hq hms (by norm_num) exch (hF.one rfl) rfl (by simp) (x := [0, 0]) rfl v

end Ex
end Sqpdfo

#print axioms Sqpdfo.C119_loop_partial
#print axioms Sqpdfo.C119_kernels_partial
#print axioms Sqpdfo.C119_simplex
#print axioms Sqpdfo.C119_start
#print axioms Sqpdfo.C119_model
#print axioms Sqpdfo.Ex.C119_order_false
