import Verif.Lemmas.MainGrad
import Verif.Props.C12_C16_Results

/-! # C72: the gradients in use belong to the current interpolation set -/

set_option linter.unusedSectionVars false

namespace Sqpdfo
open Spec
variable {K F : Type} [Field K] [LinearOrder K] [IsStrictOrderedRing K]

/-- **C72.** At the top of every pass and on every return, `info.g` and `info.ae`, from which the optimality
measures are computed, are the gradients of the models built from the current points of the interpolation
set with their recorded values; the base point of these models is the current iterate, and the
factorisation in use is that of the current points. -/
theorem C72_gradients {e : Env K F} {x0 : List K} {fuel : ℕ} {Δ : K} {sl : List K}
    {s0 : MSt K F} (H : Starts e x0 fuel Δ sl s0) (os : List (Orc K F)) (t : MSt K F)
    (h : mainLoop e os s0 = .running t ∨ mainLoop e os s0 = .done t) :
    t.infoG = e.model (e.build t.set.Y) t.x t.set.fY t.set.ceY ∧ t.set.Y[0]? = some t.x ∧
      t.set.fac = e.build t.set.Y ∧ t.set.fY.length = t.set.Y.length ∧
      ∀ (j : ℕ) (y : List K), t.set.Y[j]? = some y → ∃ (i : ℕ) (f : K), t.set.fY[j]? = some f ∧
        t.ev.X[i]? = some y ∧ t.ev.fX[i]? = some (.fin f) := by
  have hf := mainLoop_fresh e os s0 (startState_fresh e x0 fuel Δ sl s0 H.state) t h
  obtain ⟨-, h2, h3, h4, -⟩ := C14_interpolation_data H os t h
  refine ⟨by rw [hf.info, hf.gx, hf.fac], h4, hf.fac, h2, fun j y hy => ?_⟩
  obtain ⟨i, y', f, -, b2, b3, b4, b5⟩ := h3 j (List.getElem?_eq_some_iff.1 hy).1
  rw [hy] at b2
  cases b2
  exact ⟨i, f, b3, b4, b5⟩

/-- C72, consequence for kernels that return the gradient of an interpolating affine function whenever the set has
`n + 1` points and is well placed: if the current set is well placed, the objective gradient in use reproduces
all differences of recorded values. -/
theorem C72_interpolating {e : Env K F} {x0 : List K} {fuel : ℕ} {Δ : K} {sl : List K}
    {s0 : MSt K F} (H : Starts e x0 fuel Δ sl s0) (os : List (Orc K F)) (t : MSt K F)
    (h : mainLoop e os s0 = .running t ∨ mainLoop e os s0 = .done t)
    (dot : List K → List K → K) (Placed : List (List K) → Prop)
    (hm : ∀ (Y : List (List K)) (x : List K) (f : K) (fY : List K) (ceY : List (List K)), Y.length = e.n + 1 →
      Placed Y → fY.length = Y.length → Y[0]? = some x → fY[0]? = some f → ∀ (j : ℕ) (y : List K) (v : K), Y[j]? = some y →
      fY[j]? = some v → dot (e.model (e.build Y) x fY ceY).g (List.zipWith (· - ·) y x) = v - f)
    (hc : t.set.Y.length = e.n + 1) (hp : Placed t.set.Y) (j : ℕ) (y : List K) (hy : t.set.Y[j]? = some y) :
    ∃ (i : ℕ) (v : K), t.ev.X[i]? = some y ∧ t.ev.fX[i]? = some (.fin v) ∧
      dot t.infoG.g (List.zipWith (· - ·) y t.x) = v - t.fx := by
  obtain ⟨h1, h2, -, h4, h5⟩ := C72_gradients H os t h
  obtain ⟨-, -, -, -, h6, -⟩ := C14_interpolation_data H os t h
  obtain ⟨i, v, b1, b2, b3⟩ := h5 j y hy
  refine ⟨i, v, b2, b3, ?_⟩
  rw [h1]
  exact hm _ _ _ _ _ hc hp h4 h2 h6 j y v hy b1

namespace Ex

/-- Slope of the affine function through two points on the line. -/
def slope (Y : List (List ℚ)) (fY : List ℚ) : List ℚ :=
  match Y, fY with
  | [[a], [b]], [u, v] => [(v - u) / (b - a)]
  | _, _ => []

/-- One variable, linear models; the factorisation stands for the points. -/
def gEnv (U : User (List ℚ) ℚ) (miter : Fl ℚ) : Env ℚ (List (List ℚ)) where
  miter := miter
  msimul := .pinf
  tolGrad := 1 / 10 ^ 5
  tolFeas := 1 / 10 ^ 5
  tolBnds := 1 / 10 ^ 5
  verbose4 := false
  n := 1
  me := 0
  ns := 0
  finalDeg := .linear
  regression := false
  lb := [-10 ^ 30]
  ub := [10 ^ 30]
  nrm := nrm1
  sqrt := id
  trunc := id
  order := descOrder
  build := id
  model := fun Y _ fY _ => ⟨slope Y fY, []⟩
  U := U

/-- Kernel results: norm of the gradient of the Lagrangian `g`, trial point `x`, predicted reduction `p`. -/
def gOrc (g : ℚ) (x : List ℚ) (p : ℚ) : Orc ℚ (List (List ℚ)) where
  k1 := ⟨false, g, 0, 0⟩
  normgx := 1
  poisedness := fun _ Y => match Y with
    | [[a], [b]] => (1, |b - a|)
    | _ => (0, 0)
  propose := fun _ Y j => match Y with
    | [[a], [b]] => if j < 1 then ([0], 0) else ([(if a < b then a - 1 / 10 ^ 5 else a + 1 / 10 ^ 5)], 1 / 10 ^ 5 / |b - a|)
    | _ => ([0], 0)
  k2 := ⟨false, 1, 0, 0⟩
  tfail := false
  xnew := x
  rpred := 0
  active := false
  slplus := []
  qcost := -p
  gTs := -1
  lval1 := fun _ => 1
  lval2 := fun _ => 1
  lval3 := fun _ => 1

/-- Objective `x^2`. -/
def square : User (List ℚ) ℚ := ⟨fun _ x => .num (.fin (x.sum ^ 2)), none⟩

theorem gEnv_ok (U : User (List ℚ) ℚ) (a : Fl ℚ) : (gEnv U a).Ok := ⟨nrm1_nonneg, descOrder_sorted⟩

theorem gEnv_constr (f : World (List ℚ) → List ℚ → FOut ℚ) (a : Fl ℚ) : (gEnv ⟨f, none⟩ a).Constr :=
  ⟨fun _ => rfl, fun _ h => by cases h⟩

/-- Iterate, points, values and gradient after some passes. -/
def gLook (os : List (Orc ℚ (List (List ℚ)))) : Option (List ℚ × List (List ℚ) × List ℚ × List ℚ) :=
  (startState (gEnv square .pinf) [3] 1 1 []).bind fun s =>
    match mainLoop (gEnv square .pinf) os s with
    | .running t => some (t.x, t.set.Y, t.set.fY, t.infoG.g)
    | .done t => some (t.x, t.set.Y, t.set.fY, t.infoG.g)
    | .crash _ => none

/-- The start state exists and satisfies the hypotheses. -/
theorem gStarts : ∃ s, Starts (gEnv square .pinf) [3] 1 1 [] s := by
  have h : (startState (gEnv square .pinf) [3] 1 1 []).isSome = true := by decide +kernel
  obtain ⟨s, hs⟩ := Option.isSome_iff_exists.1 h
  exact ⟨s, gEnv_ok _ _, gEnv_constr _ _, rfl, by norm_num, hs⟩

theorem slope_spec (Y : List (List ℚ)) (x : List ℚ) (f : ℚ) (fY : List ℚ) (hY : Y.length = 2)
    (hd : ∀ y ∈ Y, y.length = 1) (hne : Y[0]? ≠ Y[1]?) (hf : fY.length = 2) (hx : Y[0]? = some x) (h0 : fY[0]? = some f)
    (j : ℕ) (y : List ℚ) (v : ℚ) (hy : Y[j]? = some y) (hv : fY[j]? = some v) :
    (List.zipWith (· * ·) (slope Y fY) (List.zipWith (· - ·) y x)).sum = v - f := by
  match Y, hY with
  | [y0, y1], _ =>
    match fY, hf with
    | [u, w], _ =>
      obtain ⟨a, rfl⟩ := List.length_eq_one_iff.1 (hd y0 (by simp))
      obtain ⟨b, rfl⟩ := List.length_eq_one_iff.1 (hd y1 (by simp))
      have hab : b - a ≠ 0 := fun h => hne (by simp; linarith)
      simp only [List.getElem?_cons_zero, Option.some.injEq] at hx h0
      subst hx h0
      match j with
      | 0 =>
        simp only [List.getElem?_cons_zero, Option.some.injEq] at hy hv
        subst hy hv
        simp [slope]
      | 1 =>
        simp only [List.getElem?_cons_succ, List.getElem?_cons_zero, Option.some.injEq] at hy hv
        subst hy hv
        simp only [slope, List.zipWith_cons_cons, List.zipWith_nil_right, List.sum_cons, List.sum_nil, add_zero]
        rw [div_mul_cancel₀ _ hab]
      | j + 2 => simp at hy

/-- The hypotheses of `C72_interpolating` are met. -/
example (a : Fl ℚ) : ∀ (Y : List (List ℚ)) (x : List ℚ) (f : ℚ) (fY : List ℚ) (ceY : List (List ℚ)),
    Y.length = (gEnv square a).n + 1 → ((∀ y ∈ Y, y.length = 1) ∧ Y[0]? ≠ Y[1]?) → fY.length = Y.length →
    Y[0]? = some x → fY[0]? = some f → ∀ (j : ℕ) (y : List ℚ) (v : ℚ), Y[j]? = some y → fY[j]? = some v →
      (List.zipWith (· * ·) ((gEnv square a).model ((gEnv square a).build Y) x fY ceY).g
        (List.zipWith (· - ·) y x)).sum = v - f :=
  fun Y x f fY _ h1 h2 h3 h4 h5 j y v h6 h7 => slope_spec Y x f fY h1 h2.1 h2.2 (h3.trans h1) h4 h5 j y v h6 h7

/-- The start point, an accepted step, a step without predicted reduction, an improvement of the set followed by
a rejected step: the gradient is the slope of the current points each time. -/
example : gLook [] = some ([3], [[3], [2]], [9, 4], [5]) := by decide +kernel
example : gLook [gOrc 1 [1] 1] = some ([1], [[1], [2]], [1, 4], [3]) := by decide +kernel
example : gLook [gOrc 1 [1] 1, gOrc 1 [0] 0] = some ([1], [[1], [2]], [1, 4], [3]) := by decide +kernel
example : gLook [gOrc 1 [1] 1, gOrc 0 [2] 1] =
      some ([1], [[1], [99999 / 100000]], [1, 9999800001 / 10000000000], [199999 / 100000]) := by
  decide +kernel

end Ex

#print axioms C72_gradients
#print axioms C72_interpolating

end Sqpdfo
