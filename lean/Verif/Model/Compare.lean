import Verif.Model.Norm
import Verif.Model.StartPoint

/-!
# `compare_array` of `runtime.py`

The comparison of two arrays with an absolute and a relative tolerance (`runtime.py` L510-L537).  All tests of the repository use it.
Simplifications: exact arithmetic on finite values (in floating point `x + sys.float_info.min` is `x` unless `x` is tiny), one zero without sign, finite
tolerances.  `none` stands for the exceptions of numpy (`ValueError` for arrays that cannot be combined, `IndexError` of `np.delete`).
-/

namespace Sqpdfo

variable {K : Type} [Field K] [LinearOrder K]

/-- `abs` (`runtime.py` L534, L537). -/
def Fl.absF : Fl K → Fl K
  | .nan => .nan
  | .pinf => .pinf
  | .ninf => .pinf
  | .fin p => .fin |p|

/-- The quotient of two floats in numpy, which raises no exception (`runtime.py` L527). -/
def Fl.quot : Fl K → Fl K → Fl K
  | .nan, _ => .nan
  | _, .nan => .nan
  | .fin _, .pinf => .fin 0
  | .fin _, .ninf => .fin 0
  | .fin p, .fin q => if q = 0 then (if p = 0 then .nan else if 0 < p then .pinf else .ninf) else .fin (p / q)
  | .pinf, .fin q => if q < 0 then .ninf else .pinf
  | .ninf, .fin q => if q < 0 then .pinf else .ninf
  | _, _ => .nan

/-- An operation of numpy on two arrays with one dimension: entry by entry, a single entry is combined with all entries of the other array, and all other
lengths raise `ValueError` (`runtime.py` L520, L525, L527, L534). -/
def bcastWith {α β γ : Type} (f : α → β → γ) (xs : List α) (ys : List β) : Option (List γ) :=
  if xs.length = ys.length then some (List.zipWith f xs ys)
  else match xs, ys with
    | [x], ys => some (ys.map (f x))
    | xs, [y] => some (xs.map (f · y))
    | _, _ => none

/-- `np.delete(l, np.where(mask))` (`runtime.py` L521-L522): `IndexError` if an index is too large. -/
def delAt {α : Type} : List α → List Bool → Option (List α)
  | l, [] => some l
  | [], b :: m => if b || m.any id then none else some []
  | u :: l, b :: m => (delAt l m).map fun t => if b then t else u :: t

/-- Both entries are infinite with the same sign (`runtime.py` L520). -/
def sameInf (u v : Fl K) : Bool := (u.eq .pinf && v.eq .pinf) || (u.eq .ninf && v.eq .ninf)

/-- `compare_array` (`runtime.py` L510-L537).  `sys.float_info.min` is `2 ^ (-1022)`. -/
def compareArray (x y : Arr (Fl K)) (a r : K) : Option Bool :=
  (bcastWith sameInf x.flat y.flat).bind fun m =>
  (delAt x.flat m).bind fun xs =>
  (delAt y.flat m).bind fun ys =>
  (bcastWith Fl.sub xs ys).bind fun e =>
  (bcastWith Fl.quot e (xs.map fun u => u.add (.fin (1 / 2 ^ 1022)))).bind fun q =>
  (bcastWith (fun u v : Fl K => u.absF.le (.fin a) || v.absF.le (.fin a)) xs ys).map fun small =>
  (e.all fun u => u.absF.lt (.fin a)) && (List.zipWith (fun (b : Bool) u => if b then Fl.fin 0 else u) small q).all fun u => u.absF.lt (.fin r)

end Sqpdfo
