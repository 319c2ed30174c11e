import Mathlib.Data.Matrix.Mul
import Mathlib.Algebra.Order.Field.Basic

/-! # Polynomials in the sub-basis monomials

Index-exact models of `bcdfo_evalZ_`, `bcdfo_evalP_`, `bcdfo_gradP_`, `bcdfo_hessP_`.
Arrays are functions `ℕ → K` internally (with explicit lengths); the functions visible from
outside take and return `Fin _ → K`.  Only one point and one polynomial are treated; the code
applies the same operations to every column/row. -/

namespace Sqpdfo
open Matrix
variable {K : Type} [Field K] {n q : ℕ}

/-- An array seen as a function on all indices (0 outside; the loops below stay inside) (`bcdfo_gradP.py` L66-L67). -/
def ext (x : Fin n → K) : ℕ → K := fun i => if h : i < n then x ⟨i, h⟩ else 0

/-- `bcdfo_evalZ.py` L72-L78: the subdiagonals; `c` counts the remaining values of `k`. -/
def zSub (n : ℕ) (x : ℕ → K) : ℕ → ℕ → ℕ → List K
  | 0, _, _ => []
  | c + 1, k, nquad =>
    let nsd := min (n - k) nquad
    let part := if nsd > 0 then (List.range nsd).map (fun j => x (k + j) * x j) else []
    let nquad := nquad - nsd
    if nquad = 0 then part else part ++ zSub n x c (k + 1) nquad

/-- `bcdfo_evalZ_` (`bcdfo_evalZ.py` L58-L79) for one column `x` of length `n`. -/
def evalZ (n : ℕ) (x : ℕ → K) (q : ℕ) : List K :=
  let nlin := min (n + 1) q
  let nquad := q - nlin
  let nlin := nlin - 1
  if q = 1 then [1]
  else if q ≤ n + 1 then 1 :: (List.range nlin).map x
  else
    let ndiag := min n nquad
    let z := 1 :: (List.range n).map x ++ (List.range ndiag).map (fun j => 1 / 2 * x j ^ 2)
    let nquad := nquad - ndiag
    if nquad > 0 then z ++ zSub n x (n - 1) 1 nquad else z

/-- `P.dot(Z)`, with `P` read from index `off` on (`bcdfo_evalP.py` L53-L55). -/
def dotFrom (P : ℕ → K) : ℕ → List K → K
  | _, [] => 0
  | off, z :: zs => P off * z + dotFrom P (off + 1) zs

/-- `bcdfo_evalP_` (`bcdfo_evalP.py`, last five lines).  `scale` is the vector of scaling
factors, of the same length as `P`; with `shift_Y` the code reads `scale[1]` (`bcdfo_evalP.py` L52-L56). -/
def evalP (P : Fin q → K) (x xbase : Fin n → K) (scale : Fin q → K) (shift : Bool) : K :=
  if shift then dotFrom (ext P) 0 (evalZ n (fun i => (ext x i - ext xbase i) * ext scale 1) q)
  else dotFrom (ext P) 0 (evalZ n (ext x) q)

/-- `g[a:a+m] = g[a:a+m] + v[0:m]` (`bcdfo_gradP.py` L77, L85-L86). -/
def addSlice (g : ℕ → K) (a m : ℕ) (v : ℕ → K) : ℕ → K :=
  fun r => if a ≤ r ∧ r < a + m then g r + v (r - a) else g r

/-- `bcdfo_gradP.py` L81-L90: the subdiagonal loop, `c` remaining values of `i`. -/
def gSub (n : ℕ) (P x : ℕ → K) : ℕ → ℕ → ℕ → ℕ → (ℕ → K) → ℕ → K
  | 0, _, _, _, g => g
  | c + 1, i, k, nquad, g =>
    let nsd := min (n - i - 1) nquad
    let g' := if nsd > 0 then
        addSlice (addSlice g (i + 1) nsd (fun j => P (k + j) * x j)) 0 nsd
          (fun j => P (k + j) * x (i + 1 + j))
      else g
    let k' := if nsd > 0 then k + nsd else k
    let nquad' := if nsd > 0 then nquad - nsd else nquad
    if nquad' = 0 then g' else gSub n P x c (i + 1) k' nquad' g'

/-- `bcdfo_gradP_` (`bcdfo_gradP.py` L61-L91) for arrays `P` (length `p1`) and `x` (length `n`)
that are already scaled and shifted. -/
def gradRaw (n p1 : ℕ) (P x : ℕ → K) : ℕ → K :=
  let ng := min n (p1 - 1)
  let g : ℕ → K := fun r => if r < ng then P (1 + r) else 0
  let nquad := p1 - n - 1
  if nquad > 0 then
    let ndiag := min nquad n
    let g := addSlice g 0 ndiag (fun j => P (n + 1 + j) * x j)
    let nquad := nquad - ndiag
    if nquad > 0 then gSub n P x (n - 1) 0 (2 * n + 1) nquad g else g
  else g

/-- `bcdfo_gradP_`: with `shift_Y` the coefficients are multiplied by the scaling vector and the
point is shifted (`bcdfo_gradP.py` L63-L65). -/
def gradP (P : Fin q → K) (x xbase : Fin n → K) (scale : Fin q → K) (shift : Bool) : Fin n → K :=
  fun r =>
    if shift then
      gradRaw n q (fun i => ext P i * ext scale i) (fun i => ext x i - ext xbase i) r
    else gradRaw n q (ext P) (ext x) r

/-- `H[a,b] = v` (`bcdfo_hessP.py` L83-L84). -/
def setEntry (H : ℕ → ℕ → K) (a b : ℕ) (v : K) : ℕ → ℕ → K :=
  fun r s => if r = a ∧ s = b then v else H r s

/-- `bcdfo_hessP.py` L80-L82: the inner loop over `j`. -/
def hRow (P : ℕ → K) (i k nsd : ℕ) (H : ℕ → ℕ → K) : ℕ → ℕ → K :=
  (List.range nsd).foldl
    (fun H j => setEntry (setEntry H (i + j + 1) j (P (k + j))) j (i + j + 1) (P (k + j))) H

/-- `bcdfo_hessP.py` L77-L86: the subdiagonal loop. -/
def hSub (n : ℕ) (P : ℕ → K) : ℕ → ℕ → ℕ → ℕ → (ℕ → ℕ → K) → ℕ → ℕ → K
  | 0, _, _, _, H => H
  | c + 1, i, k, nquad, H =>
    let nsd := min (n - i - 1) nquad
    let H' := if nsd > 0 then hRow P i k nsd H else H
    let k' := if nsd > 0 then k + nsd else k
    let nquad' := if nsd > 0 then nquad - nsd else nquad
    if nquad' = 0 then H' else hSub n P c (i + 1) k' nquad' H'

/-- `bcdfo_hessP_` (`bcdfo_hessP.py` L64-L91) for an already scaled array `P`. -/
def hessRaw (n p1 : ℕ) (P : ℕ → K) : ℕ → ℕ → K :=
  let nquad := p1 - n - 1
  if nquad > 0 then
    let ndiag := min nquad n
    let H : ℕ → ℕ → K := fun r s => if r = s ∧ r < ndiag then P (n + 1 + r) else 0
    let nquad := nquad - ndiag
    if nquad > 0 then hSub n P (n - 1) 0 (2 * n + 1) nquad H else H
  else fun _ _ => 0

/-- `bcdfo_hessP_` (`bcdfo_hessP.py` L64-L91). -/
def hessP (n : ℕ) (P : Fin q → K) (scale : Fin q → K) (shift : Bool) :
    Matrix (Fin n) (Fin n) K :=
  fun r s =>
    if shift then hessRaw n q (fun i => ext P i * ext scale i) r s
    else hessRaw n q (ext P) r s

end Sqpdfo
