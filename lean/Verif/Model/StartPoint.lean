import Verif.Model.Bounds
import Verif.Model.Multiplier
import Mathlib.Algebra.Order.Floor.Defs

/-!
# Start point and bounds as the floating-point numbers the caller gives

`/repo/sqpdfo/sqpdfo_prelim.py` L176-L211 once more, where `Model/Bounds` has numbers: here bounds and start values may also be infinite or NaN
(nothing checks them), and the start point may be an array of integers (`sqpdfo.py` L110-L111: `array([x0])` of a list of integers), into which numpy
stores floating-point numbers by cutting off the fractional part.
-/

namespace Sqpdfo
variable {K : Type} [Field K] [LinearOrder K]

/-- IEEE addition (`sqpdfo_prelim.py` L191, L208). -/
def Fl.add : Fl K → Fl K → Fl K
  | .nan, _ => .nan
  | _, .nan => .nan
  | .pinf, .ninf => .nan
  | .ninf, .pinf => .nan
  | .pinf, _ => .pinf
  | _, .pinf => .pinf
  | .ninf, _ => .ninf
  | _, .ninf => .ninf
  | .fin a, .fin b => .fin (a + b)

/-- IEEE subtraction (`sqpdfo_prelim.py` L190, L205-L206, L211). -/
def Fl.sub (a b : Fl K) : Fl K := a.add b.neg

/-- Half of a number (`sqpdfo_prelim.py` L199). -/
def Fl.half : Fl K → Fl K
  | .fin a => .fin (1 / 2 * a)
  | x => x

/-- Bounds and start value of a variable (`sqpdfo_prelim.py` L176-L211). -/
structure RawVar (K : Type) where
  lb : Fl K
  ub : Fl K
  x0 : Fl K

/-- The start value after `sqpdfo_prelim.py` L205-L211; `st`: what the array keeps of a number stored into it. -/
def rawMove (st : Fl K → Fl K) (v : RawVar K) (Δ : Fl K) : Fl K :=
  if Δ.neg.le (v.lb.sub v.x0) then st (v.lb.add Δ)
  else if (v.ub.sub v.x0).le Δ then st (v.ub.sub Δ)
  else v.x0

/-- `Delta0` after `sqpdfo_prelim.py` L190-L199 for a variable that is not fixed. -/
def rawDelta (v : RawVar K) (Δ : Fl K) : Fl K :=
  if (v.ub.sub v.lb).lt (Δ.add Δ) then (v.ub.sub v.lb).half else Δ

/-- The loop over the components (`sqpdfo_prelim.py` L176-L211), as `boundsLoop`. -/
def rawLoop (st : Fl K → Fl K) : List (RawVar K) → Fl K → Option (Fl K × List (Fl K × Bool))
  | [], Δ => some (Δ, [])
  | v :: vs, Δ =>
    if v.ub.lt v.lb then none
    else if (v.ub.sub v.lb).lt (Δ.add Δ) && (v.ub.sub v.lb).eq (.fin 0) then
      match rawLoop st vs Δ with
      | none => none
      | some (D, ys) => some (D, (v.x0, true) :: ys)
    else
      match rawLoop st vs (rawDelta v Δ) with
      | none => none
      | some (D, ys) => some (D, (rawMove st v (rawDelta v Δ), false) :: ys)

/-- An array of floating-point numbers keeps what is stored (`sqpdfo_prelim.py` L208, L211). -/
def keepFloat : Fl K → Fl K := id

/-- The integer part (`sqpdfo_prelim.py` L208, L211, for an integer array `x0`). -/
def cutOff [FloorRing K] (q : K) : K := if 0 ≤ q then (⌊q⌋ : K) else (⌈q⌉ : K)

/-- An array of 64-bit integers keeps the integer part of numbers in its range; `junk`: what it keeps of other values, which depends on the machine
(`sqpdfo_prelim.py` L208, L211). -/
def keepInt [FloorRing K] (junk : Fl K → K) : Fl K → Fl K
  | .fin q => if |q| < 2 ^ 63 then .fin (cutOff q) else .fin (junk (.fin q))
  | x => .fin (junk x)

end Sqpdfo
