import Mathlib.Algebra.Order.Field.Rat
import Mathlib.Order.Defs.LinearOrder

/-!
# Float-like numbers

Python/numpy floats as far as control flow is concerned: NaN, the two infinities and
finite values.  Finite values are exact elements of an ordered field `K` (no rounding, no signed zero), this is
the simplification stated in DESIGN.md section 2.
-/

namespace Sqpdfo

/-- A float-like value.  Models the numbers that occur as option values and as results
of the user's functions (used by `sqpdfo_options.py`, `sqpdfo_augmX_evalf.py`)
(`sqpdfo_options.py` L32-L130, `sqpdfo_augmX_evalf.py` L110-L139). -/
inductive Fl (K : Type) where
  | nan
  | pinf
  | ninf
  | fin (q : K)
deriving DecidableEq

namespace Fl
variable {K : Type} [LinearOrder K]

/-- IEEE `<`: every comparison with NaN is false (`sqpdfo_options.py` L33-L64). -/
def lt : Fl K → Fl K → Bool
  | nan, _ => false
  | _, nan => false
  | ninf, ninf => false
  | ninf, _ => true
  | _, ninf => false
  | pinf, _ => false
  | fin _, pinf => true
  | fin a, fin b => decide (a < b)

/-- IEEE `<=`: every comparison with NaN is false (`sqpdfo_options.py` L64). -/
def le : Fl K → Fl K → Bool
  | nan, _ => false
  | _, nan => false
  | ninf, _ => true
  | _, pinf => true
  | _, ninf => false
  | pinf, _ => false
  | fin a, fin b => decide (a ≤ b)

/-- IEEE `==`: NaN is different from everything (`sqpdfo_prelim.py` L192). -/
def eq : Fl K → Fl K → Bool
  | nan, _ => false
  | pinf, pinf => true
  | ninf, ninf => true
  | fin a, fin b => decide (a = b)
  | _, _ => false

/-- `numpy.isnan` (`sqpdfo_augmX_evalf.py` L110, L128). -/
def isNan : Fl K → Bool
  | nan => true
  | _ => false

/-- `numpy.isinf` (`sqpdfo_augmX_evalf.py` L119). -/
def isInf : Fl K → Bool
  | pinf => true
  | ninf => true
  | _ => false

/-- `runtime.py` `min_` of two arguments is `numpy.fmin` (NaN is ignored) (`runtime.py` L173-L174). -/
def fmin (a b : Fl K) : Fl K :=
  if a.isNan then b else if b.isNan then a else if a.le b then a else b

/-- `runtime.py` `max_` of two arguments is `numpy.fmax` (NaN is ignored) (`runtime.py` L142-L143). -/
def fmax (a b : Fl K) : Fl K :=
  if a.isNan then b else if b.isNan then a else if b.le a then a else b

end Fl
end Sqpdfo
