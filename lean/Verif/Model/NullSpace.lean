import Verif.Model.SolveTR

/-! # Null space of the constraint gradients

`null_` (`/repo/sqpdfo/runtime.py` L463-L471) as used by the tangent step (`/repo/sqpdfo/sqpdfo_solve_TR_bc.py` L311).  The singular value decomposition
is a parameter: the list `s` of singular values and the square matrix `vh`, rows indexed by `Fin (n + q)`. -/

namespace Sqpdfo
open Matrix

/-- The positions at which `null_mask` is true: singular values that are at most `eps`, and the padding (`runtime.py` L468-L469). -/
def nullIdx (N : ℕ) (eps : ℝ) (s : List ℝ) [DecidablePred fun v : ℝ => v ≤ eps] : List (Fin N) :=
  (List.finRange N).filter fun i =>
    match s[i.1]? with
    | some v => decide (v ≤ eps)
    | none => true

/-- `null_` with the default `eps = 1e-15`: the selected rows of `vh`, transposed (`runtime.py` L463-L471). -/
noncomputable def nullSvd {n q : ℕ} (svd : List (VS n q → ℝ) → List ℝ × Matrix (Fin (n + q)) (VS n q) ℝ) (rows : List (VS n q → ℝ)) :
    (d : ℕ) × Matrix (VS n q) (Fin d) ℝ :=
  let idx := nullIdx (n + q) (1 / 10 ^ 15) (svd rows).1
  ⟨idx.length, fun x j => (svd rows).2 idx[j] x⟩

end Sqpdfo
