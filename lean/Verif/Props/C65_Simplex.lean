import Mathlib.Algebra.BigOperators.Fin
import Mathlib.Tactic.FieldSimp
import Verif.Props.C48_InitSet

/-! # C65: the initial interpolation set determines the linear model -/

set_option linter.unusedSectionVars false

namespace Sqpdfo
open Spec
variable {K : Type} [Field K] [LinearOrder K] [IsStrictOrderedRing K]

/-- `ys` is `x` followed by the points that differ from `x` in one coordinate, by `-D`, each
coordinate being used once and in order. -/
def Spec.AxisSet (x : List K) (D : K) (ys : List (List K)) : Prop :=
  ys.length = x.length + 1 ∧ ys[0]? = some x ∧
  ∀ j, j < x.length → ∃ y, ys[j + 1]? = some y ∧ y.length = x.length ∧
    (∀ v, x[j]? = some v → y[j]? = some (v - D)) ∧ ∀ i, i ≠ j → y[i]? = x[i]?

theorem simplex_axis (x : List K) (D : K) : AxisSet x D (simplex x D) := by
  refine ⟨by simp [simplex], by simp [simplex], fun j hj => ?_⟩
  refine ⟨x.mapIdx fun i v => v + -D * (if i = j then 1 else 0), by simp [simplex, hj], by simp,
    ?_, ?_⟩
  · intro v hv
    simp [hv, sub_eq_add_neg]
  · intro i hi
    simp [hi]

/-- Value at the point `y` of the affine function with constant `c` and gradient `g`. -/
def Spec.affine {n : ℕ} (c : K) (g : Fin n → K) (y : List K) : K :=
  c + ∑ i : Fin n, g i * y.getD i 0

theorem affine_axis {x y : List K} {D : K} {j : ℕ} (hj : j < x.length) (c : K)
    (g : Fin x.length → K) (h1 : ∀ v, x[j]? = some v → y[j]? = some (v - D))
    (h2 : ∀ i, i ≠ j → y[i]? = x[i]?) :
    affine c g y = affine c g x - D * g ⟨j, hj⟩ := by
  have h : ∀ i : Fin x.length, g i * y.getD i 0 =
      g i * x.getD i 0 - (if i = ⟨j, hj⟩ then D * g i else 0) := by
    intro i
    by_cases hi : i = ⟨j, hj⟩
    · subst hi
      have hx : x[j]? = some x[j] := by simp
      rw [if_pos rfl]
      simp only [List.getD_eq_getElem?_getD]
      rw [h1 _ hx, hx]
      simp only [Option.getD_some]
      ring
    · have : (i : ℕ) ≠ j := fun h => hi (Fin.ext h)
      rw [if_neg hi]
      simp only [List.getD_eq_getElem?_getD]
      rw [h2 _ this, sub_zero]
  unfold affine
  rw [Finset.sum_congr rfl fun i _ => h i, Finset.sum_sub_distrib,
    Finset.sum_ite_eq' Finset.univ]
  simp only [Finset.mem_univ, if_true]
  ring

/-- On an axis set with `D ≠ 0` every choice of values is interpolated by exactly one affine
function. -/
theorem axis_unique {x : List K} {D : K} (hD : D ≠ 0) {ys : List (List K)}
    (h : AxisSet x D ys) (f : ℕ → K) :
    ∃! p : K × (Fin x.length → K), ∀ j y, ys[j]? = some y → affine p.1 p.2 y = f j := by
  obtain ⟨hl, h0, hj⟩ := h
  have key : ∀ p : K × (Fin x.length → K),
      (∀ j y, ys[j]? = some y → affine p.1 p.2 y = f j) ↔
        affine p.1 p.2 x = f 0 ∧ ∀ i : Fin x.length, p.2 i = (f 0 - f (i + 1)) / D := by
    intro p
    constructor
    · intro hp
      have hx := hp 0 x h0
      refine ⟨hx, fun i => ?_⟩
      obtain ⟨y, y1, -, y2, y3⟩ := hj i i.2
      have := hp _ _ y1
      rw [affine_axis i.2 p.1 p.2 y2 y3, hx] at this
      rw [eq_div_iff hD, ← this]
      ring
    · rintro ⟨hx, hg⟩ j y hy
      cases j with
      | zero => rw [h0] at hy; cases hy; exact hx
      | succ j =>
        have hjl : j < x.length := by
          have := (List.getElem?_eq_some_iff.1 hy).1
          omega
        obtain ⟨y', y1, -, y2, y3⟩ := hj j hjl
        rw [hy] at y1
        cases y1
        rw [affine_axis hjl p.1 p.2 y2 y3, hx, hg ⟨j, hjl⟩]
        field_simp
        ring
  refine ⟨(f 0 - ∑ i : Fin x.length, (f 0 - f (i + 1)) / D * x.getD i 0,
    fun i => (f 0 - f (i + 1)) / D), (key _).2 ⟨?_, fun i => rfl⟩, ?_⟩
  · simp only [affine, sub_add_cancel]
  · rintro ⟨c, g⟩ hp
    obtain ⟨h1, h2⟩ := (key _).1 hp
    simp only at h1 h2
    have hg : g = fun i : Fin x.length => (f 0 - f (i + 1)) / D := funext h2
    subst hg
    refine Prod.ext ?_ rfl
    simp only [affine] at h1
    exact eq_sub_of_add_eq h1

/-- C65: when the initial sampling is complete, the stored points are the start point and one
point per coordinate direction at one common distance `D > 0`; they are pairwise different, and
they determine the linear model uniquely for all values. -/
theorem C65_initial_set (U : User (List K) K) (x0 : List K) (nx : K) (N : ℕ) (Δ D : K)
    (hΔ : 0 < Δ) (s s' : EvSt (List K) K) (hs : s.flag = 0)
    (h : initLoop U x0 nx N Δ s = .done D s') :
    0 < D ∧ D ≤ Δ ∧ AxisSet x0 D s'.X ∧ s'.X.Nodup ∧
      ∀ f : ℕ → K, ∃! p : K × (Fin x0.length → K),
        ∀ j y, s'.X[j]? = some y → affine p.1 p.2 y = f j := by
  obtain ⟨-, hX, -, -, k, hk⟩ := C48_done_complete U x0 nx N Δ D s s' hs h
  have hD : 0 < D := by rw [hk]; positivity
  have hA : AxisSet x0 D s'.X := by rw [hX]; exact simplex_axis x0 D
  have hU := axis_unique hD.ne' hA
  refine ⟨hD, ?_, hA, ?_, hU⟩
  · rw [hk]
    exact mul_le_of_le_one_left hΔ.le (pow_le_one₀ (by norm_num) (by norm_num))
  · rw [List.nodup_iff_injective_get]
    intro a b hab
    obtain ⟨p, hp, -⟩ := hU (fun j => (j : K))
    have ha := hp a _ (List.getElem?_eq_getElem a.2)
    have hb := hp b _ (List.getElem?_eq_getElem b.2)
    rw [List.get_eq_getElem, List.get_eq_getElem] at hab
    rw [hab, hb] at ha
    exact Fin.ext (Nat.cast_injective ha).symm

/-- A completed sampling in two variables. -/
example : (match initLoop (⟨fun _ x => .num (.fin x.sum), none⟩ : User (List ℚ) ℚ) [1, 1] 1 2 1
      ⟨[], [], [], 0, .nan, 0, ⟨[], []⟩⟩ with
    | .done D s => decide (D = 1 ∧ s.X = [[1, 1], [0, 1], [1, 0]])
    | _ => false) = true := by decide +kernel

#print axioms C65_initial_set

end Sqpdfo
