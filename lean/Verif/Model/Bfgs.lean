import Mathlib.Data.Matrix.Mul
import Mathlib.Algebra.Order.Field.Basic
import Verif.Model.Status

/-! # The BFGS update -/

namespace Sqpdfo
open Matrix
variable {K : Type} [Field K] [LinearOrder K] {n : ℕ}

/-- The result of `sqpdfo_bfgs_update_`: the matrix, Powell's coefficient `pc` and
`info.flag` (`sqpdfo_bfgs_update.py` L78). -/
structure BfgsOut (K : Type) (n : ℕ) where
  H : Matrix (Fin n) (Fin n) K
  pc : K
  flag : ℕ

/-- The assembly of the new matrix (`sqpdfo_bfgs_update.py` L68-L76): `y`, `ys` possibly
corrected; with `first` the matrix is first set to `para*I`. -/
def bfgsAssemble (H : Matrix (Fin n) (Fin n) K) (y s : Fin n → K) (first : Bool) :
    Matrix (Fin n) (Fin n) K :=
  let ys := y ⬝ᵥ s
  let para := (y ⬝ᵥ y) / ys
  let H1 : Matrix (Fin n) (Fin n) K := if first then para • 1 else H
  let Hs : Fin n → K := if first then para • s else H *ᵥ s
  let sHs := s ⬝ᵥ Hs
  H1 - (1 / sHs) • vecMulVec Hs Hs + (1 / ys) • vecMulVec y y

/-- `sqpdfo_bfgs_update_` (`sqpdfo_bfgs_update.py` L26-L78), `values.fail_unexpected = 30`.
`norm_(s) == 0` is the test `s = 0`. Messages are not modelled. -/
def bfgsUpdate (H : Matrix (Fin n) (Fin n) K) (y s : Fin n → K) (first : Bool) :
    BfgsOut K n :=
  if s = 0 then ⟨H, 1, 30⟩
  else
    let ys := y ⬝ᵥ s
    let Hs := H *ᵥ s
    let sHs := s ⬝ᵥ Hs
    if sHs ≤ 0 then ⟨H, 1, 30⟩
    else if ys < 1 / 5 * sHs then
      let pc := (1 - 1 / 5) * sHs / (sHs - ys)
      let y' := pc • y + (1 - pc) • Hs
      if y' ⬝ᵥ s ≤ 0 then ⟨H, pc, 30⟩
      else ⟨bfgsAssemble H y' s first, pc, 0⟩
    else if ys ≤ 0 then ⟨H, 1, 30⟩
    else ⟨bfgsAssemble H y s first, 1, 0⟩

end Sqpdfo
