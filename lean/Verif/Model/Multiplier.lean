import Verif.Model.Fl
import Verif.Model.Optimality
import Verif.Model.Convex

/-! # Least-squares multipliers

`sqpdfo_compute_multiplier_` (`sqpdfo_compute_multiplier.py` L11-L174).  Rows of `A` are indexed
by `(Fin n ⊕ Fin ns) ⊕ (Fin m ⊕ Fin ns)`: bounds on the variables, slack variables, constraints
(equalities, then inequality rows with slacks).  The size checks of `lb`, `ub` (flag 30) are
typed away; an empty bound array is `none`.  The condition check is switched off in the code
(L127).  The bounded least-squares solver `blls_` is a parameter. -/

namespace Sqpdfo
open Matrix
variable {K : Type} [Field K] [LinearOrder K] {n m ns : ℕ}

/-- Row index of `A` (`sqpdfo_compute_multiplier.py` L96-L101). -/
abbrev MRow (n m ns : ℕ) := (Fin n ⊕ Fin ns) ⊕ (Fin m ⊕ Fin ns)

/-- `A = [I; gconstraints]` (`sqpdfo_compute_multiplier.py` L43-L49, L96). -/
def multA (ae : Matrix (Fin m ⊕ Fin ns) (Fin n) K) (sl : Fin ns → K) :
    Matrix (MRow n m ns) (Fin n ⊕ Fin ns) K
  | .inl i, j => if i = j then 1 else 0
  | .inr r, j => slackJac ae sl r j

/-- `-v` (`sqpdfo_compute_multiplier.py` L100). -/
def Fl.neg : Fl K → Fl K
  | .nan => .nan
  | .pinf => .ninf
  | .ninf => .pinf
  | .fin q => .fin (-q)

/-- `abs(x - b) < dxmin` for a bound that may be infinite (`sqpdfo_compute_multiplier.py` L113-L117). -/
def nearFl (x : K) (b : Fl K) (dxmin : K) : Bool :=
  match b with
  | .fin b => decide (|x - b| < dxmin)
  | _ => false

/-- The bounds used (`sqpdfo_compute_multiplier.py` L77-L92): an empty array means no bounds. -/
def useBnd (dflt : Fl K) (b : Option (Fin n → Fl K)) (i : Fin n) : Fl K :=
  match b with
  | none => dflt
  | some b => b i

/-- Input of the multiplier computation (`sqpdfo_compute_multiplier.py` L37-L92). -/
structure MultIn (K : Type) (n m ns : ℕ) where
  x : Fin n → K
  lb : Option (Fin n → Fl K)
  ub : Option (Fin n → Fl K)
  inf : Fl K
  dxmin : K
  g : Fin n → K
  ae : Matrix (Fin m ⊕ Fin ns) (Fin n) K
  sl : Fin ns → K

/-- `lo[i] == 0` after `sqpdfo_compute_multiplier.py` L98-L121 (otherwise `lo[i] == -inf`). -/
def loZero (I : MultIn K n m ns) : MRow n m ns → Bool
  | .inl (.inl i) =>
    let lb := useBnd I.inf.neg I.lb i
    let ub := useBnd I.inf I.ub i
    lb.le I.inf.neg || (ub.lt I.inf && nearFl (I.x i) ub I.dxmin)
  | .inl (.inr _) => true
  | .inr _ => false

/-- `up[i] == 0` after `sqpdfo_compute_multiplier.py` L98-L121 (otherwise `up[i] == inf`). -/
def upZero (I : MultIn K n m ns) : MRow n m ns → Bool
  | .inl (.inl i) =>
    let lb := useBnd I.inf.neg I.lb i
    let ub := useBnd I.inf I.ub i
    I.inf.le ub || (I.inf.neg.lt lb && nearFl (I.x i) lb I.dxmin)
  | .inl (.inr _) => true
  | .inr _ => false

/-- `lo[i] != up[i]`: the component is not deleted (`sqpdfo_compute_multiplier.py` L150-L162). -/
def MFree (I : MultIn K n m ns) (i : MRow n m ns) : Prop := ¬ (loZero I i = true ∧ upZero I i = true)

instance (I : MultIn K n m ns) (i : MRow n m ns) : Decidable (MFree I i) := by
  unfold MFree; infer_instance

/-- `glocal` (`sqpdfo_compute_multiplier.py` L43-L47): the gradient extended by zeros. -/
def gExt (I : MultIn K n m ns) : Fin n ⊕ Fin ns → K := Sum.elim I.g (fun _ => 0)

/-- The result `lm` over all rows (`sqpdfo_compute_multiplier.py` L164-L169) for the solution `s` of the reduced problem;
deleted components are 0. -/
def lmAll (I : MultIn K n m ns) (s : {i // MFree I i} → K) : MRow n m ns → K := fun i =>
  if h : MFree I i then s ⟨i, h⟩ else 0

/-- The returned multipliers of the bounds, `lm[0:n]` (`sqpdfo_compute_multiplier.py` L166-L172). -/
def lmB (I : MultIn K n m ns) (s : {i // MFree I i} → K) : Fin n → K := fun i =>
  lmAll I s (.inl (.inl i))

/-- The returned multipliers of the constraints, `lm[n:n+me]` (the slack components are removed,
`sqpdfo_compute_multiplier.py` L171-L172). -/
def lmE (I : MultIn K n m ns) (s : {i // MFree I i} → K) : Fin m ⊕ Fin ns → K := fun r =>
  lmAll I s (.inr r)

/-- The matrix handed to `blls_`: `A Aᵀ` after `check_convex`, reduced to the free rows
(`sqpdfo_compute_multiplier.py` L123-L162).  `ev`, `d`, `v` are the eigenvalues and eigenvectors of `A Aᵀ`. -/
def multAA (I : MultIn K n m ns) (ev d : MRow n m ns → K)
    (v : Matrix (MRow n m ns) (MRow n m ns) K) :
    Matrix {i // MFree I i} {i // MFree I i} K :=
  (checkConvex ev d v (multA I.ae I.sl * (multA I.ae I.sl)ᵀ)).submatrix Subtype.val Subtype.val

/-- The right-hand side handed to `blls_`: `-(A g)`, reduced (`sqpdfo_compute_multiplier.py` L143-L165). -/
def multRhs (I : MultIn K n m ns) : {i // MFree I i} → K := fun i =>
  - (multA I.ae I.sl *ᵥ gExt I) i.1

/-- The bound arrays built by the callers (`sqpdfo_main.py` L249-L254 and the copies at L571, L1050,
L1474; `sqpdfo_solve_TR_bc.py` L435-L440): the bound where `x` is within `1e-5` of it, infinite
elsewhere. -/
def callerLb (lb x : Fin n → K) : Fin n → Fl K := fun i =>
  if |lb i - x i| < 1 / 100000 then .fin (lb i) else .ninf

/-- See `callerLb` (`sqpdfo_main.py` L250-L254). -/
def callerUb (ub x : Fin n → K) : Fin n → Fl K := fun i =>
  if |ub i - x i| < 1 / 100000 then .fin (ub i) else .pinf

end Sqpdfo
