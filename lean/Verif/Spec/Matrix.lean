import Mathlib.Data.Matrix.Mul
import Mathlib.Algebra.Order.Field.Basic

/-! # Matrix notions used in the statements -/

namespace Sqpdfo.Spec
open Matrix
variable {K : Type} [Field K] [LinearOrder K] {ι : Type} [Fintype ι]

/-- Symmetric positive definite. -/
def SymPD (H : Matrix ι ι K) : Prop :=
  (∀ i j, H i j = H j i) ∧ ∀ v : ι → K, v ≠ 0 → 0 < v ⬝ᵥ H *ᵥ v

/-- Symmetric positive semidefinite. -/
def SymPSD (H : Matrix ι ι K) : Prop :=
  (∀ i j, H i j = H j i) ∧ ∀ v : ι → K, 0 ≤ v ⬝ᵥ H *ᵥ v

/-- `μ` is an eigenvalue of `A`. -/
def IsEigenvalue (A : Matrix ι ι K) (μ : K) : Prop :=
  ∃ v : ι → K, v ≠ 0 ∧ A *ᵥ v = μ • v

end Sqpdfo.Spec
