import Mathlib.Algebra.Order.Field.Basic
import Mathlib.Data.Matrix.Mul

/-! # Optimality measures and projected gradient

Vectors are functions `Fin n → K`.  Constraint rows are indexed by `Fin m ⊕ Fin ns`: first the
`m = me - nbr_slacks` equalities, then the `ns = nbr_slacks` inequality rows which carry a
slack variable (this is the order in `info.ce`, `info.ae`). -/

namespace Sqpdfo

variable {K : Type} [Field K] [LinearOrder K] {n m ns : ℕ}

/-- The input of `sqpdfo_optimality_`. `lmB` is `lm[0:n]`, `lmE` is `lm[n:n+me]`
(there are no separate inequality values: `info.ci` is always empty) (`sqpdfo_optimality.py` L15-L30). -/
structure OptimIn (K : Type) (n m ns : ℕ) where
  x : Fin n → K
  lb : Fin n → K
  ub : Fin n → K
  g : Fin n → K
  ce : Fin m ⊕ Fin ns → K
  ae : Matrix (Fin m ⊕ Fin ns) (Fin n) K
  sl : Fin ns → K
  lmB : Fin n → K
  lmE : Fin m ⊕ Fin ns → K

/-- `hh1` (`sqpdfo_optimality.py` L47, `sqpdfo_compute_multiplier.py` L48): zero rows for the
equalities and `-2*diag(sl)` for the inequality rows. -/
def slackBlock (m : ℕ) (sl : Fin ns → K) : Matrix (Fin m ⊕ Fin ns) (Fin ns) K
  | .inl _, _ => 0
  | .inr k, j => if k = j then -2 * sl k else 0

/-- `gconstraints = concatenate((info.ae,hh1),axis=1)` (`sqpdfo_optimality.py` L48). -/
def slackJac (ae : Matrix (Fin m ⊕ Fin ns) (Fin n) K) (sl : Fin ns → K) :
    Matrix (Fin m ⊕ Fin ns) (Fin n ⊕ Fin ns) K
  | r, .inl i => ae r i
  | r, .inr j => slackBlock m sl r j

/-- `bounds` (`sqpdfo_optimality.py` L30): components within `1e-5` of a bound. -/
def nearBound (I : OptimIn K n m ns) (i : Fin n) : Prop :=
  |I.lb i - I.x i| < 1 / 100000 ∨ |I.ub i - I.x i| < 1 / 100000

instance (I : OptimIn K n m ns) (i : Fin n) : Decidable (nearBound I i) := by
  unfold nearBound; infer_instance

/-- `info.glag` after the bounds contribution (`sqpdfo_optimality.py` L27-L41). -/
def glagBounds (I : OptimIn K n m ns) : Fin n → K := fun i =>
  if nearBound I i then I.g i + I.lmB i else I.g i

/-- `info.glag` (`sqpdfo_optimality.py` L45-L53): with slacks the gradient is extended by zeros, the product with the
extended Jacobian is added and the first `n` components are kept. -/
def glag (I : OptimIn K n m ns) : Fin n → K :=
  if m + ns > 0 then
    if ns > 0 then
      let ext : Fin n ⊕ Fin ns → K := Sum.elim (glagBounds I) (fun _ => 0)
      let full := ext + (slackJac I.ae I.sl).transpose.mulVec I.lmE
      fun i => full (.inl i)
    else glagBounds I + I.ae.transpose.mulVec I.lmE
  else glagBounds I

/-- `feas` (`sqpdfo_optimality.py` L57-L60): the constraint values, minus `[0; sl**2]` with slacks. -/
def feas (I : OptimIn K n m ns) : Fin m ⊕ Fin ns → K :=
  if ns > 0 then fun r => I.ce r - Sum.elim (fun _ => 0) (fun k => I.sl k ^ 2) r
  else I.ce

/-- One component of `bcdfo_projgrad_` (`bcdfo_projgrad.py` L29-L34). -/
def projComp (g x l u : K) : K :=
  if g < 0 then - min |u - x| (-g) else min |l - x| g

/-- `bcdfo_projgrad_` (`bcdfo_projgrad.py` L25-L37): the projected gradient and its infinity norm, accumulated by
`max`.  The sizes of `bl`, `bu`, `x`, `g` agree (`n = min(n, size(bl))` has no effect). -/
def projGrad (g x l u : Fin n → K) : K × (Fin n → K) :=
  let gn := fun i => projComp (g i) (x i) (l i) (u i)
  ((List.finRange n).foldl (fun acc i => max acc |gn i|) 0, gn)

end Sqpdfo
