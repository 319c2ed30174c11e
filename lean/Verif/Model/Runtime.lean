import Verif.Model.Fl
import Mathlib.Data.List.Basic
import Mathlib.Data.List.GetD
import Mathlib.Algebra.Order.Field.Rat

/-!
# The array helpers of `runtime.py`

`concatenate_`, `find_`, `min_`, `max_`, `length_` and `size_` replace the MATLAB functions of the
same names everywhere in the code.
-/

namespace Sqpdfo

/-- An array with one or two dimensions.  A Python list of numbers and a number (`[m]`, `j`)
are converted to one dimension by `np.hstack`/`np.vstack` and count as such here.  A
two-dimensional array keeps its number of columns, since a `(0, c)` array has no rows
(`runtime.py` L381-L410). -/
inductive Arr (α : Type) where
  | d1 (l : List α)
  | d2 (c : ℕ) (rows : List (List α))
deriving DecidableEq

namespace Arr
variable {α : Type}

/-- Every row has the stated number of columns (a numpy array is never ragged)
(`runtime.py` L381-L410). -/
def WF : Arr α → Prop
  | d1 _ => True
  | d2 c rows => ∀ r ∈ rows, r.length = c

/-- `a.shape` (`runtime.py` L106-L115). -/
def shape : Arr α → List ℕ
  | d1 l => [l.length]
  | d2 c rows => [rows.length, c]

/-- `isempty_` (`runtime.py` L106-L115). -/
def isEmpty (a : Arr α) : Bool := decide (0 ∈ a.shape)

/-- `length_` (`runtime.py` L118-L122): the largest dimension. -/
def len (a : Arr α) : ℕ := a.shape.foldl max 0

/-- `size_(a, b)` for `b ≥ 1` (`runtime.py` L197-L212): a missing dimension counts as 1. -/
def size (a : Arr α) (b : ℕ) : ℕ := a.shape.getD (b - 1) 1

/-- `np.atleast_2d`, the number of columns (`runtime.py` L408, inside `np.vstack`). -/
def cols2 : Arr α → ℕ
  | d1 l => l.length
  | d2 c _ => c

/-- `np.atleast_2d`, the rows (`runtime.py` L408, inside `np.vstack`). -/
def rows2 : Arr α → List (List α)
  | d1 l => [l]
  | d2 _ rows => rows

/-- `np.vstack` (`runtime.py` L408); `none` is the `ValueError` for blocks of different widths. -/
def vstack : List (Arr α) → Option (Arr α)
  | [] => none
  | a :: l =>
    if l.all (fun b => b.cols2 == a.cols2) then
      some (.d2 a.cols2 ((a :: l).flatMap rows2))
    else none

/-- Blocks of rows side by side (`runtime.py` L410, inside `np.hstack`). -/
def beside : List (List (List α)) → List (List α)
  | [] => []
  | [b] => b
  | b :: l => List.zipWith (· ++ ·) b (beside l)

/-- The one-dimensional arrays of a list, `none` if there is another one
(`runtime.py` L410, inside `np.hstack`). -/
def all1 : List (Arr α) → Option (List (List α))
  | [] => some []
  | d1 l :: r => (all1 r).map (l :: ·)
  | d2 _ _ :: _ => none

/-- The two-dimensional arrays of a list that have `n` rows, with the total number of columns;
`none` if there is another array (`runtime.py` L410, inside `np.hstack`). -/
def all2 (n : ℕ) : List (Arr α) → Option (ℕ × List (List (List α)))
  | [] => some (0, [])
  | d2 c rows :: r =>
    if rows.length = n then (all2 n r).map fun p => (c + p.1, rows :: p.2) else none
  | d1 _ :: _ => none

/-- `np.hstack` (`runtime.py` L410): along the only dimension if the first array has one
dimension, along the columns otherwise; all arrays need the same number of dimensions and, with
two dimensions, the same number of rows (else `ValueError`, `none`). -/
def hstack : List (Arr α) → Option (Arr α)
  | [] => none
  | d1 l :: r => (all1 (d1 l :: r)).map fun ls => .d1 ls.flatten
  | d2 c rows :: r => (all2 rows.length (d2 c rows :: r)).map fun p => .d2 p.1 (beside p.2)

/-- One pass of the inner loop: the first empty array is deleted (`runtime.py` L388-L395). -/
def delFirstEmpty : List (Arr α) → List (Arr α)
  | [] => []
  | a :: l => if a.isEmpty then l else a :: delFirstEmpty l

/-- The outer loop (`runtime.py` L386-L395). -/
def delLoop : ℕ → List (Arr α) → List (Arr α)
  | 0, l => l
  | k + 1, l => delLoop k (delFirstEmpty l)

/-- `concatenate_(arrs, axis)` for a list `arrs` (`runtime.py` L381-L410).  The list is copied
first, so that the list of the caller keeps its empty arrays.  (A tuple with an empty array
raises a `TypeError` at `del`; not modelled.) -/
def concatenate (arrs : List (Arr α)) (axis : ℕ) : Option (Arr α) :=
  let l := delLoop arrs.length arrs
  if l.length = 0 then some (.d1 [])
  else if axis = 0 then vstack l else hstack l

/-- `np.flatnonzero` (`runtime.py` L49): positions of the true entries, counted from `k`. -/
def flatnonzero : ℕ → List Bool → List ℕ
  | _, [] => []
  | k, b :: l => if b then k :: flatnonzero (k + 1) l else flatnonzero (k + 1) l

/-- `find_(a, n)` with one result (`runtime.py` L38-L55): a column of positions, `[]` if there
is none; with `n` the first `n` positions as a one-dimensional array, and an `IndexError`
(`none`) if there are fewer. -/
def find (a : List Bool) (n : Option ℕ) : Option (Arr ℕ) :=
  let i := flatnonzero 0 a
  if i = [] then some (.d1 [])
  else
    match n with
    | none => some (.d2 1 (i.map fun j => [j]))
    | some n => if n ≤ i.length then some (.d1 (i.take n)) else none

end Arr

namespace Fl
variable {K : Type} [LinearOrder K]

/-- `np.nanmax` of a non-empty array (`runtime.py` L145): a reduction with `np.fmax`. -/
def nanmax : List (Fl K) → Fl K
  | [] => nan
  | a :: l => l.foldl fmax a

/-- `np.nanmin` of a non-empty array (`runtime.py` L176): a reduction with `np.fmin`. -/
def nanmin : List (Fl K) → Fl K
  | [] => nan
  | a :: l => l.foldl fmin a

/-- `np.argmax` of an array without NaN: the scan keeps the first position of the largest entry
seen so far; `b` is that entry, `i` its position, `k` the next position
(`runtime.py` L152, inside `np.nanargmax`). -/
def scanMax (b : Fl K) (i k : ℕ) : List (Fl K) → ℕ
  | [] => i
  | a :: l => if b.lt a then scanMax a k (k + 1) l else scanMax b i (k + 1) l

/-- `np.argmin` of an array without NaN (`runtime.py` L181, inside `np.nanargmin`). -/
def scanMin (b : Fl K) (i k : ℕ) : List (Fl K) → ℕ
  | [] => i
  | a :: l => if a.lt b then scanMin a k (k + 1) l else scanMin b i (k + 1) l

/-- `np.nanargmax` (`runtime.py` L152): NaN is replaced by `-inf` before the search; `none` is the
`ValueError` if all entries are NaN. -/
def nanargmax (l : List (Fl K)) : Option ℕ :=
  if l.all isNan then none
  else
    match l.map fun a => if a.isNan then ninf else a with
    | [] => none
    | a :: l => some (scanMax a 0 1 l)

/-- `np.nanargmin` (`runtime.py` L181): NaN is replaced by `inf` before the search. -/
def nanargmin (l : List (Fl K)) : Option ℕ :=
  if l.all isNan then none
  else
    match l.map fun a => if a.isNan then pinf else a with
    | [] => none
    | a :: l => some (scanMin a 0 1 l)

/-- `max_(a, nargout=2)` of a non-empty array (`runtime.py` L131-L157). -/
def max2 (l : List (Fl K)) : Option (Fl K × ℕ) := (nanargmax l).map fun i => (nanmax l, i)

/-- `min_(a, nargout=2)` of a non-empty array (`runtime.py` L159-L186). -/
def min2 (l : List (Fl K)) : Option (Fl K × ℕ) := (nanargmin l).map fun i => (nanmin l, i)

end Fl
end Sqpdfo
