import Verif.Lemmas.MainBefore
import Mathlib.Data.List.Sort
import Mathlib.Algebra.Order.Ring.Rat

/-! # A concrete environment for the examples and counterexamples of the main loop -/

set_option linter.unusedSectionVars false

namespace Sqpdfo.Ex
open Spec Sqpdfo

/-- Positions by decreasing value. -/
def descOrder {K : Type} [Zero K] [LinearOrder K] (d : List K) : List ℕ :=
  (List.range d.length).insertionSort fun i j => d.getD j 0 ≤ d.getD i 0

theorem descOrder_sorted {K : Type} [Zero K] [LinearOrder K] (d : List K) : SortedDesc d (descOrder d) := by
  refine ⟨List.perm_insertionSort _ _, ?_⟩
  intro a b i j u v hab ha hb hu hv
  have : Std.Total (fun i j : ℕ => d.getD j 0 ≤ d.getD i 0) := ⟨fun i j => le_total _ _⟩
  have : IsTrans ℕ (fun i j : ℕ => d.getD j 0 ≤ d.getD i 0) := ⟨fun i j k h1 h2 => le_trans h2 h1⟩
  have hs := List.pairwise_insertionSort (fun i j : ℕ => d.getD j 0 ≤ d.getD i 0)
    (List.range d.length)
  rw [List.pairwise_iff_getElem] at hs
  obtain ⟨ha1, ha2⟩ := List.getElem?_eq_some_iff.1 ha
  obtain ⟨hb1, hb2⟩ := List.getElem?_eq_some_iff.1 hb
  have := hs a b ha1 hb1 hab
  unfold descOrder at ha2 hb2
  rw [ha2, hb2] at this
  simpa [List.getD_eq_getElem?_getD, hu, hv] using this

/-- One-norm. -/
def nrm1 {K : Type} [Field K] [LinearOrder K] (v : List K) : K := (v.map fun a => |a|).sum

theorem nrm1_nonneg {K : Type} [Field K] [LinearOrder K] [IsStrictOrderedRing K] (v : List K) : 0 ≤ nrm1 v := by
  unfold nrm1
  apply List.sum_nonneg
  intro a ha
  obtain ⟨b, -, rfl⟩ := List.mem_map.1 ha
  exact abs_nonneg b

/-- One variable without bounds, linear models, no constraints. -/
def env (U : User (List ℚ) ℚ) (miter msimul : Fl ℚ) : Env ℚ Unit where
  miter := miter
  msimul := msimul
  tolGrad := 1 / 10 ^ 5
  tolFeas := 1 / 10 ^ 5
  tolBnds := 1 / 10 ^ 5
  verbose4 := false
  n := 1
  me := 0
  ns := 0
  finalDeg := .linear
  regression := false
  lb := [-10 ^ 30]
  ub := [10 ^ 30]
  nrm := nrm1
  sqrt := id
  trunc := id
  order := descOrder
  build := fun _ => ()
  model := fun _ _ _ _ => ⟨[], []⟩
  U := U

theorem env_ok (U : User (List ℚ) ℚ) (a b : Fl ℚ) : (env U a b).Ok :=
  ⟨nrm1_nonneg, descOrder_sorted⟩

theorem env_constr (f : World (List ℚ) → List ℚ → FOut ℚ) (a b : Fl ℚ) :
    (env ⟨f, none⟩ a b).Constr :=
  ⟨fun _ => rfl, fun _ h => by cases h⟩

/-- Objective `-x`. -/
def down : User (List ℚ) ℚ := ⟨fun _ x => .num (.fin (-x.sum)), none⟩

/-- Kernel results: gradient norm 1, poised set, trial point `x`, predicted reduction `p`. -/
def orc (x : List ℚ) (p : ℚ) : Orc ℚ Unit where
  k1 := ⟨false, 1, 0, 0⟩
  normgx := 1
  poisedness := fun _ _ => (1, 1)
  propose := fun _ _ _ => ([0], 0)
  k2 := ⟨false, 1, 0, 0⟩
  tfail := false
  xnew := x
  rpred := 0
  active := false
  slplus := []
  qcost := -p
  gTs := -1
  lval1 := fun _ => 1
  lval2 := fun _ => 1
  lval3 := fun _ => 1

/-- The start state, and whether it exists. -/
def start (e : Env ℚ Unit) (x0 : List ℚ) : Option (MSt ℚ Unit) := startState e x0 1 1 []

/-- Run and read something off the result. -/
def look {α : Type} (e : Env ℚ Unit) (x0 : List ℚ) (os : List (Orc ℚ Unit)) (d : α)
    (done running : MSt ℚ Unit → α) (crash : Crash → α) : α :=
  match start e x0 with
  | none => d
  | some s => match mainLoop e os s with
    | .done t => done t
    | .running t => running t
    | .crash c => crash c

end Sqpdfo.Ex
