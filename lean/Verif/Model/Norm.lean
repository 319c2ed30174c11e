import Verif.Model.Runtime
import Mathlib.Analysis.Real.Sqrt
import Mathlib.Data.Matrix.Mul

/-!
# `norm_` (`runtime.py` L19-L31, L313-L338)

The norm of everything in the code is taken with `norm_`, for arrays of the shapes `(n,)`, `(n,1)`, `(1,n)` and for matrices.  The largest
singular value is a parameter.  Arithmetic is exact; arrays with more than two dimensions do not occur.
-/

namespace Sqpdfo

/-- The argument `order`: `2`, `numpy.inf` or `'fro'` (`runtime.py` L313). -/
inductive NormOrd where
  | two
  | inf
  | fro
deriving DecidableEq

/-- The largest singular value of a matrix (inside `np.linalg.norm`, `runtime.py` L335-L338). -/
abbrev SigmaMax := ∀ r c : ℕ, Matrix (Fin r) (Fin c) ℝ → ℝ

namespace Arr

/-- `isvector_or_scalar_` (`runtime.py` L19-L31): not empty, and all dimensions but one are 1. -/
def isVec {α : Type} (a : Arr α) : Bool := !a.isEmpty && decide (a.shape.length - a.shape.count 1 ≤ 1)

/-- The numbers in memory order (`reshape`, `runtime.py` L330-L332). -/
def flat {α : Type} : Arr α → List α
  | .d1 l => l
  | .d2 _ rows => rows.flatten

/-- `A.reshape(1,-1)` (`runtime.py` L330). -/
def toRow {α : Type} (a : Arr α) : Arr α := .d2 a.flat.length [a.flat]

/-- `A.reshape(-1,1)` (`runtime.py` L332). -/
def toCol {α : Type} (a : Arr α) : Arr α := .d2 1 (a.flat.map fun x => [x])

end Arr

/-- The rows of a two-dimensional array as a matrix (`runtime.py` L335-L338). -/
def rowsMat (c : ℕ) (rows : List (List ℝ)) : Matrix (Fin rows.length) (Fin c) ℝ := fun i j => (rows.getD i []).getD j 0

/-- `abs(x).max()` for numbers that are not negative (inside `np.linalg.norm`, `runtime.py` L335-L338). -/
noncomputable def listMax (l : List ℝ) : ℝ := l.foldl max 0

/-- `np.linalg.norm(A, order)` of a non-empty array (`runtime.py` L335-L338): vector norms in one dimension, matrix norms in two;
`none` is the `ValueError` for `'fro'` in one dimension. -/
noncomputable def npNorm (sig : SigmaMax) (a : Arr ℝ) (o : NormOrd) : Option ℝ :=
  match a, o with
  | .d1 l, .two => some (Real.sqrt (l.map fun x => x * x).sum)
  | .d1 l, .inf => some (listMax (l.map fun x => |x|))
  | .d1 _, .fro => none
  | .d2 c rows, .two => some (sig rows.length c (rowsMat c rows))
  | .d2 _ rows, .inf => some (listMax (rows.map fun r => (r.map fun x => |x|).sum))
  | .d2 _ rows, .fro => some (Real.sqrt (rows.map fun r => (r.map fun x => x * x).sum).sum)

/-- `norm_(A, order)` (`runtime.py` L313-L338): 0 for an empty array; vectors are made rows for the order 2 and columns for the order `inf`
first. -/
noncomputable def normU (sig : SigmaMax) (a : Arr ℝ) (o : NormOrd) : Option ℝ :=
  if a.isEmpty then some 0
  else
    let b := if a.isVec then (match o with
      | .two => a.toRow
      | .inf => a.toCol
      | .fro => a) else a
    npNorm sig b o

end Sqpdfo
