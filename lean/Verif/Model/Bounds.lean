import Mathlib.Algebra.Field.Defs
import Mathlib.Algebra.Order.Ring.Defs

/-!
# Bounds check and start point correction

`/repo/sqpdfo/sqpdfo_prelim.py`, L165-L234 and L304-L320.
-/

namespace Sqpdfo

/-- One variable as seen by the bounds loop: lower bound, upper bound, start value.
Infinite bounds are the finite numbers `∓1e20` in the code (`sqpdfo.py` L112-L119), so all
three are numbers. -/
structure Var (K : Type) where
  lb : K
  ub : K
  x0 : K

variable {K : Type} [Field K] [LinearOrder K]

/-- New value of `Delta0` for a variable that is not fixed (`sqpdfo_prelim.py` L190-L199). -/
def newDelta (v : Var K) (Δ : K) : K :=
  if v.ub - v.lb < Δ + Δ then (1 / 2) * (v.ub - v.lb) else Δ

/-- New start value of a variable that is not fixed, with the radius valid after `sqpdfo_prelim.py` L199
(L205-L211). -/
def moveInside (v : Var K) (Δ : K) : K :=
  if v.lb - v.x0 ≥ -Δ then v.lb + Δ
  else if v.ub - v.x0 ≤ Δ then v.ub - Δ
  else v.x0

/-- The loop over the components (`sqpdfo_prelim.py` L176-L211).  `none`: some lower bound exceeds its upper
bound (`info.flag = 2`, L180-L186).  Otherwise the final `Delta0` and for each component
the start value and whether it is fixed (`vstatus[j] = alwaysfixed`). -/
def boundsLoop : List (Var K) → K → Option (K × List (K × Bool))
  | [], Δ => some (Δ, [])
  | v :: vs, Δ =>
    if v.lb > v.ub then none
    else if v.ub - v.lb < Δ + Δ ∧ v.ub - v.lb = 0 then
      match boundsLoop vs Δ with
      | none => none
      | some (D, ys) => some (D, (v.x0, true) :: ys)
    else
      let Δ' := newDelta v Δ
      match boundsLoop vs Δ' with
      | none => none
      | some (D, ys) => some (D, (moveInside v Δ', false) :: ys)

/-- Result of the bounds part of the set-up (`sqpdfo_prelim.py` L176-L262). -/
inductive BoundsRes (K : Type) where
  /-- early return with `info.flag = 2` -/
  | flag2
  /-- continue with radius, start point, and the fixed marks -/
  | ok (Δ : K) (ys : List (K × Bool))

/-- `sqpdfo_prelim.py` L165-L234 with the initial radius `Delta0 = 1` of `sqpdfo.py` L206. -/
def checkBounds (vs : List (Var K)) : BoundsRes K :=
  match boundsLoop vs 1 with
  | none => .flag2
  | some (Δ, ys) =>
    let nfix := (ys.filter (·.2)).length
    if nfix > 0 then
      if ys.length - nfix ≤ 0 then .flag2 else .ok Δ ys
    else .ok Δ ys

/-- The initial points (`sqpdfo_prelim.py` L304-L315, `simplx`): `x0` and `x0 - Delta0 * e_j`.  `cur_degree` is
the linear size at this point, so L317-L320 is not executed. -/
def simplex (x : List K) (Δ : K) : List (List K) :=
  x :: (List.range x.length).map fun j =>
    x.mapIdx fun i v => v + -Δ * (if i = j then 1 else 0)

end Sqpdfo
