import Mathlib.Data.Matrix.Mul
import Mathlib.Algebra.Order.Field.Basic

/-! # Convexification and condition repair

The decompositions computed by numpy (`eigvalsh`, `eigh`, `svd`) and the condition number are
arguments; the theorems state what they assume of them. -/

namespace Sqpdfo
open Matrix
variable {K : Type} [Field K] [LinearOrder K] {ι : Type} [Fintype ι] [DecidableEq ι]

/-- `d[d < ZERO] = EPS` (`sqpdfo_check_convex.py` L36-L39): `ZERO = 1e-10`, `EPS = 1e-9`. -/
def liftEig (d : K) : K := if d < 1 / 10 ^ 10 then 1 / 10 ^ 9 else d

/-- `sqpdfo_check_convex_` (`sqpdfo_check_convex.py` L20-L44): `ev` are the eigenvalues from
`eigvalsh`, `d`, `v` the result of `eigh`.  Warnings for NaN/Inf entries are not modelled. -/
def checkConvex (ev d : ι → K) (v A : Matrix ι ι K) :
    Matrix ι ι K :=
  if ∃ i, ev i < 0 then v * (diagonal (fun i => liftEig (d i)) * vᵀ) else A

/-- `Sdiag[a] = 1e-07` where `Sdiag < 1e-07` (`sqpdfo_check_cond.py` L38-L39). -/
def liftSing (s : K) : K := if s < 1 / 10 ^ 7 then 1 / 10 ^ 7 else s

/-- `sqpdfo_check_cond_` (`sqpdfo_check_cond.py` L19-L48) for a matrix without NaN/Inf entries:
`cond` is the condition number, `U`, `S`, `Vh` the singular value decomposition, `nrm` is
`norm_(·, inf)`.  The result is the matrix and `badcond`. -/
def checkCond (nrm : Matrix ι ι K → K) (cond thr : K) (S : ι → K)
    (U Vh A : Matrix ι ι K) : Matrix ι ι K × Bool :=
  if cond > thr then
    let V := Vhᵀ
    let B := (V * (diagonal (fun i => liftSing (S i)) * Uᵀ))ᵀ
    if nrm (B - Bᵀ) > 1 / 10 ^ 14 then ((1 / 2 : K) • (B + Bᵀ), true) else (B, true)
  else (A, false)

end Sqpdfo
