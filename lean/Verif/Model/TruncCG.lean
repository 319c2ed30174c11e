import Mathlib.Analysis.Real.Sqrt
import Mathlib.Data.Matrix.Mul

/-! # Steihaug's truncated conjugate gradient solver

Vectors are `Fin n → ℝ`, `⬝ᵥ` is the dot product.  Exact arithmetic; the printing branches
(`info.plevel`) are dropped.  The global iteration counter `set_iter/get_iter` is the argument
`iter`. -/

namespace Sqpdfo
open Matrix
variable {n : ℕ}

/-- `comp_dir_in_delta` (`sqpdfo_truncated_cg.py` L159-L182): the point and the step length. -/
noncomputable def compDir (dc dn : Fin n → ℝ) (δ : ℝ) : (Fin n → ℝ) × ℝ :=
  let dir := dn - dc
  let dirInner := dir ⬝ᵥ dir
  if dirInner = 0 then (dc, 0)
  else
    let bb := dc ⬝ᵥ dir
    let dcInner := dc ⬝ᵥ dc - δ ^ 2
    if dcInner ≥ 0 then (dc, 0)
    else
      let t := (Real.sqrt (bb ^ 2 - dirInner * dcInner) - bb) / dirInner
      (dc + t • dir, t)

/-- The loop variables `x`, `g`, `g2`, `g2_`, `d` (`sqpdfo_truncated_cg.py` L47-L52, L94-L145). -/
structure CGState (n : ℕ) where
  x : Fin n → ℝ
  g : Fin n → ℝ
  g2 : ℝ
  g2p : ℝ
  d : Fin n → ℝ

/-- The result `x` and `info` (`sqpdfo_truncated_cg.py` L149-L155); `curv` is `None` if no direction was computed.
`trace` (not in the code) lists the values taken by `x`, in order. -/
structure CGOut (n : ℕ) where
  x : Fin n → ℝ
  flag : ℤ
  iter : ℕ
  prec : ℝ
  curv : Option ℝ
  trace : List (Fin n → ℝ)

/-- `sqpdfo_truncated_cg.py` L96-L99: the new direction. -/
noncomputable def cgDir (iter : ℕ) (s : CGState n) : Fin n → ℝ :=
  if iter = 1 then - s.g else - s.g + (s.g2 / s.g2p) • s.d

/-- The loop (`sqpdfo_truncated_cg.py` L75-L147); `iter` is the value of the counter after L77.  `curv` and `trace`
are accumulated. -/
noncomputable def cgLoop (A : Matrix (Fin n) (Fin n) ℝ) (δ tol : ℝ) (maxIter : ℕ)
    (iter : ℕ) (s : CGState n) (curv : Option ℝ) (trace : List (Fin n → ℝ)) : CGOut n :=
  if s.g2 ≤ tol * tol then
    { x := s.x, flag := 0, iter := iter, prec := Real.sqrt s.g2, curv := curv, trace := trace }
  else if iter > maxIter then
    { x := s.x, flag := -1, iter := maxIter, prec := Real.sqrt s.g2, curv := curv, trace := trace }
  else
    let d := cgDir iter s
    let Ad := A *ᵥ d
    let dAd := d ⬝ᵥ Ad
    let curv' := some (dAd / (d ⬝ᵥ d))
    if dAd ≤ 0 then
      let x := (compDir s.x (s.x + d) δ).1
      { x := x, flag := 2, iter := iter, prec := Real.sqrt s.g2, curv := curv',
        trace := trace ++ [x] }
    else
      let α := - (s.g ⬝ᵥ d) / dAd
      let xx := s.x + α • d
      if xx ⬝ᵥ xx > δ * δ then
        let x := (compDir s.x xx δ).1
        { x := x, flag := 1, iter := iter, prec := Real.sqrt s.g2, curv := curv',
          trace := trace ++ [x] }
      else
        let g := s.g + α • Ad
        cgLoop A δ tol maxIter (iter + 1)
          { x := xx, g := g, g2 := g ⬝ᵥ g, g2p := s.g2, d := d } curv' (trace ++ [xx])
termination_by maxIter + 1 - iter

/-- `sqpdfo_truncated_cg_` (`sqpdfo_truncated_cg.py` L17-L155). -/
noncomputable def truncCG (A : Matrix (Fin n) (Fin n) ℝ) (b : Fin n → ℝ) (δ tol : ℝ)
    (maxIter : ℕ) : CGOut n :=
  cgLoop A δ tol maxIter 1
    { x := 0, g := -b, g2 := (-b) ⬝ᵥ (-b), g2p := 0, d := 0 } none [0]

end Sqpdfo
