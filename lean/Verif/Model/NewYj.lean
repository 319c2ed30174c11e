import Verif.Model.Interp
import Verif.Model.TRMS

/-! # Improvement points and poisedness

`bcdfo_find_new_yj_` (`bcdfo_find_new_yj.py` L75-L128) and `bcdfo_poisedness_Y_`
(`bcdfo_poisedness_Y.py`), `lSolver = 1`, `hardcons = 0`, for interpolation systems without NaN or
infinite entries. -/

namespace Sqpdfo
open Matrix
variable {n p q : ℕ}

/-- `ynew` and `improvement` (`bcdfo_find_new_yj.py` L40-L44, L128). -/
structure NewPt (n : ℕ) where
  y : Fin n → ℝ
  imp : ℝ

/-- `bcdfo_find_new_yj.py` L101-L127 for the polynomial with coefficients `L`: it and its opposite are minimised in the
scaled space around the base point; without shift the scale is 1 (the code has no scaling then). -/
noncomputable def newPoint (k : MSKer ℝ (Fin n)) (L : Fin q → ℝ) (y0 : Fin n → ℝ) (Δ εL : ℝ)
    (xbase : Fin n → ℝ) (scale : Fin q → ℝ) (shift : Bool) : NewPt n :=
  let x : Fin n → ℝ := if shift then 0 else y0
  let c : ℝ := if shift then ext scale 1 else 1
  let g := gradP L x xbase scale false
  let H := hessP n L scale false
  let P := trms k g H (Δ * c) εL
  let M := trms k (-g) (-H) (Δ * c) εL
  if M.value < P.value then ⟨y0 + (1 / c) • M.s, |M.value|⟩
  else ⟨y0 + (1 / c) • P.s, |P.value|⟩

/-- `bcdfo_find_new_yj_`; `none`: the system is singular (`LinAlgError`) (`bcdfo_find_new_yj.py` L82-L128). -/
noncomputable def findNewYj (k : MSKer ℝ (Fin n)) (Q : Matrix (Fin q) (Fin (p + 1)) ℝ)
    (R : Matrix (Fin (p + 1)) (Fin (p + 1)) ℝ) (Y : Fin (p + 1) → Fin n → ℝ) (j : Fin (p + 1))
    (Δ εL : ℝ) (xbase : Fin n → ℝ) (scale : Fin q → ℝ) (shift : Bool) : Option (NewPt n) :=
  if (j : ℕ) < 1 then some ⟨0, 0⟩
  else (computeLj Q R j).map fun L => newPoint k L (Y 0) Δ εL xbase scale shift

/-- `Y_radius` (`bcdfo_poisedness_Y.py`, first loop) (`bcdfo_poisedness_Y.py` L48-L51). -/
noncomputable def yRadius (Y : Fin (p + 1) → Fin n → ℝ) : ℝ :=
  ((List.finRange (p + 1)).tail).foldl (fun r j => max r (enorm2 (Y j - Y 0))) 0

/-- `bcdfo_poisedness_Y_`: `lambda` and `Y_radius` (`bcdfo_poisedness_Y.py` L44-L60). -/
noncomputable def poisednessY (k : MSKer ℝ (Fin n)) (Q : Matrix (Fin q) (Fin (p + 1)) ℝ)
    (R : Matrix (Fin (p + 1)) (Fin (p + 1)) ℝ) (Y : Fin (p + 1) → Fin n → ℝ)
    (εL : ℝ) (xbase : Fin n → ℝ) (scale : Fin q → ℝ) (shift : Bool) : Option (ℝ × ℝ) :=
  (((List.finRange (p + 1)).tail).foldlM (fun l j =>
    (findNewYj k Q R Y j (yRadius Y) εL xbase scale shift).map fun N => max N.imp l) 0).map
      fun l => (l, yRadius Y)

end Sqpdfo
