import Mathlib.Data.Matrix.Mul
import Mathlib.Algebra.Order.Field.Basic
import Mathlib.Data.List.FinRange

/-! # Bounded linear least squares

`blls_` (`blls.py` L7-L429), `verbose = 0`.  Bounds may be infinite (`none`).  The norm and the
solution `pinv_(A[:,free]).dot(rhs)` of the least-squares problem in the free variables are
parameters.  Arithmetic is exact. -/

namespace Sqpdfo
variable {K : Type} [Field K] [LinearOrder K] {m n : ℕ}

/-- The input and the kernels.  `pinv free rhs` has a component for each variable, only those in
`free` are used (`blls.py` L6, L49-L62). -/
structure BllsIn (K : Type) (m n : ℕ) where
  A : Matrix (Fin m) (Fin n) K
  b : Fin m → K
  lb : Fin n → Option K
  ub : Fin n → Option K
  nrmM : (Fin m → K) → K
  nrmN : (Fin n → K) → K
  pinv : List (Fin n) → (Fin m → K) → Fin n → K

/-- `max_(v,lb)` for one component (`blls.py` L82). -/
def atLeast (lo : Option K) (v : K) : K :=
  match lo with
  | none => v
  | some l => max v l

/-- `min_(v,ub)` for one component (`blls.py` L82). -/
def atMost (hi : Option K) (v : K) : K :=
  match hi with
  | none => v
  | some u => min v u

/-- `min_(max_(v,lb),ub)` (`blls.py` L82, L88, L155, L263). -/
def BllsIn.clip (p : BllsIn K m n) (v : Fin n → K) : Fin n → K :=
  fun i => atMost (p.ub i) (atLeast (p.lb i) (v i))

/-- `A.dot(s) - b` (`blls.py` L85, L184, L233). -/
def BllsIn.resid (p : BllsIn K m n) (s : Fin n → K) : Fin m → K := p.A.mulVec s - p.b

/-- `A.T.dot(res)` (`blls.py` L87, L152). -/
def BllsIn.grad (p : BllsIn K m n) (res : Fin m → K) : Fin n → K := p.A.transpose.mulVec res

/-- The optimality measure (`blls.py` L88-L89, L383). -/
def BllsIn.measure (p : BllsIn K m n) (s : Fin n → K) (res : Fin m → K) : K :=
  p.nrmN (p.clip (s - p.grad res) - s)

/-- Tolerances (`blls.py` L54-L61). -/
def cFeas : K := 1 / 10 ^ 12
/-- `epsconv` (`blls.py` L55). -/
def cConv : K := 1 / 10 ^ 10
/-- `epsres` (`blls.py` L56). -/
def cRes : K := 1 / 10 ^ 11
/-- `epsdzer` (`blls.py` L58). -/
def cDzer : K := 1 / 10 ^ 14
/-- `armijor` (`blls.py` L61). -/
def cArmijo : K := 1 / 100

/-- The loop variables.  `tiny` is not in the code: it records whether a step length was computed
for a direction with a nonzero component of a free variable below `epsdzer`.  `trials`,
`subs`, `backs` are not in the code either: they count passes of the inner loops (`blls.py` L70-L98). -/
structure BState (K : Type) (m n : ℕ) where
  s : Fin n → K
  res : Fin m → K
  resn : K
  atlb : List (Fin n)
  atub : List (Fin n)
  nuns : ℕ
  natlbt : List (Fin n)
  natubt : List (Fin n)
  kb : ℕ
  tiny : Bool
  trials : ℕ
  subs : ℕ
  backs : ℕ

/-- `free` (`blls.py` L176-L177, L349-L350): all indices but those at bounds. -/
def BState.free (S : BState K m n) : List (Fin n) :=
  (List.finRange n).filter fun i => decide (i ∉ S.atlb ∧ i ∉ S.atub)

/-- Projected Armijo search (`blls.py` L154-L164): pass `kc`, `r` more are allowed. -/
def cauchy (p : BllsIn K m n) (s g : Fin n → K) : ℕ → ℕ → K → ℕ × (Fin n → K)
  | r, kc, α =>
    let stry := p.clip (s - α • g)
    let dtry := stry - s
    let ltry := g ⬝ᵥ dtry
    let qtry := ltry + 1 / 2 * p.nrmM (p.A.mulVec dtry) ^ 2
    if qtry ≤ cArmijo * ltry then (kc, stry)
    else match r with
      | 0 => (kc, stry)
      | r + 1 => cauchy p s g r (kc + 1) (1 / 2 * α)

/-- `abs(x - bound) <= epsfeas` (`blls.py` L171-L172). -/
def nearB (bd : Option K) (x : K) : Bool :=
  match bd with
  | none => false
  | some l => decide (|x - l| ≤ cFeas)

/-- `x < lb` (`blls.py` L237, L258). -/
def belowB (lo : Option K) (x : K) : Bool :=
  match lo with
  | none => false
  | some l => decide (x < l)

/-- `x > ub` (`blls.py` L238, L259). -/
def aboveB (hi : Option K) (x : K) : Bool :=
  match hi with
  | none => false
  | some u => decide (x > u)

/-- Value of a bound; only used for finite ones (`blls.py` L181-L182, L231-L232). -/
def bval (bd : Option K) : K :=
  match bd with
  | none => 0
  | some l => l

/-- Components at bounds are set to the bounds, first the lower ones (`blls.py` L181-L183, L230-L232). -/
def putBounds (p : BllsIn K m n) (atlb atub : List (Fin n)) (v : Fin n → K) : Fin n → K :=
  fun i => if i ∈ atub then bval (p.ub i) else if i ∈ atlb then bval (p.lb i) else v i

/-- `rhs` (`blls.py` L223-L227); an index that occurs twice in `atlb` is subtracted twice. -/
def BllsIn.rhs (p : BllsIn K m n) (atlb atub : List (Fin n)) : Fin m → K := fun j =>
  p.b j - (atlb.map fun i => p.A j i * bval (p.lb i)).sum
    - (atub.map fun i => p.A j i * bval (p.ub i)).sum

/-- Backtracking beyond the Cauchy point (`blls.py` L251-L313): pass `kb`; `r` passes remain.  The second
component is `found`. -/
def backtrack (p : BllsIn K m n) (ssub : Fin n → K) (rred : K) :
    ℕ → ℕ → K → BState K m n → BState K m n × Bool
  | 0, _, _, S => (S, false)
  | r + 1, kb, α, S =>
    let tr : Fin n → K := fun i => (1 - α) * S.s i + α * ssub i
    let natlbt := S.free.filter fun i => belowB (p.lb i) (tr i)
    let natubt := S.free.filter fun i => aboveB (p.ub i) (tr i)
    let S := { S with natlbt := natlbt, natubt := natubt, kb := kb, backs := S.backs + 1 }
    if natlbt.length + natubt.length = 0 then (S, false)
    else
      let stry := p.clip tr
      let rtry := p.resid stry
      let rtryn := p.nrmM rtry
      if rtryn ≤ S.resn - cArmijo * α * rred then
        ({ S with
          s := stry
          res := rtry
          resn := rtryn
          atlb := S.atlb ++ natlbt
          atub := S.atub ++ natubt }, true)
      else backtrack p ssub rred r (kb + 1) (1 / 2 * α) S

/-- `min_(alpha, (bound - s)/dtry)` (`blls.py` L330, L333). -/
def stepTo (bd : Option K) (s d α : K) : K :=
  match bd with
  | none => α
  | some l => min α ((l - s) / d)

/-- The largest step towards the subspace minimiser (`blls.py` L326-L333). -/
def maxStep (p : BllsIn K m n) (free : List (Fin n)) (s d : Fin n → K) : K :=
  free.foldl (fun α i =>
    if d i ≥ cDzer then stepTo (p.ub i) (s i) (d i) α
    else if d i ≤ - cDzer then stepTo (p.lb i) (s i) (d i) α
    else α) 1

/-- The step to the boundary (`blls.py` L334-L353, L364-L366). The sets get `natlbt`, `natubt` of the last
backtracking pass, although `natlb`, `natub` are computed. -/
def blockStep (p : BllsIn K m n) (ssub : Fin n → K) (rsubo : Fin m → K) (S : BState K m n) :
    BState K m n :=
  let dtry := ssub - S.s
  let α := maxStep p S.free S.s dtry
  let rsub := (1 - α) • S.res + α • rsubo
  { S with
    tiny := S.tiny || S.free.any fun i => decide (dtry i ≠ 0 ∧ |dtry i| < cDzer)
    s := S.s + α • dtry
    res := rsub
    resn := p.nrmM rsub
    atlb := S.atlb ++ S.natlbt
    atub := S.atub ++ S.natubt }

/-- Count a pass (not in the code) (`blls.py` L215). -/
def BState.countSub (S : BState K m n) : BState K m n := { S with subs := S.subs + 1 }

/-- The nested subspace search (`blls.py` L215-L380): `r` passes remain. -/
def subLoop (p : BllsIn K m n) : ℕ → BState K m n → BState K m n
  | 0, S => S
  | r + 1, S =>
    let S := S.countSub
    let ssub := putBounds p S.atlb S.atub (p.pinv S.free (p.rhs S.atlb S.atub))
    let rsubo := p.resid ssub
    let rsubon := p.nrmM rsubo
    if (S.free.filter fun i => belowB (p.lb i) (ssub i)).length +
        (S.free.filter fun i => aboveB (p.ub i) (ssub i)).length > 0 then
      let nback := 4 * (1 - S.nuns)
      let B := backtrack p ssub (rsubon - S.resn) nback 1 1 S
      -- `dtry` was computed before the backtracking, which leaves `s` alone if not successful
      if B.2 then B.1
      else
        let S := if B.1.kb ≥ nback then { B.1 with nuns := B.1.nuns + 1 } else B.1
        subLoop p r (blockStep p ssub rsubo S)
    else { S with s := ssub, res := rsubo, resn := rsubon }

/-- One iteration (`blls.py` L152-L383): the new state and `opt`; `none`: the Cauchy point
computation failed. -/
def bllsIter (p : BllsIn K m n) (S : BState K m n) : Option (BState K m n × K) :=
  let g := p.grad S.res
  let c := cauchy p S.s g 14 1 ((p.nrmN g / p.nrmM (p.A.mulVec g)) ^ 2)
  if c.1 ≥ 15 then none
  else
    let atlb := (List.finRange n).filter fun i => nearB (p.lb i) (c.2 i)
    let atub := (List.finRange n).filter fun i => nearB (p.ub i) (c.2 i)
    let s := putBounds p atlb atub c.2
    let S := { S with
      s := s
      res := p.resid s
      resn := p.nrmM (p.resid s)
      atlb := atlb
      atub := atub
      trials := S.trials + c.1 }
    if S.free.length = 0 ∨ S.resn ≤ cRes then some (S, 0)
    else
      let S := subLoop p n S
      some (S, p.measure S.s S.res)

/-- The result: state, `opt`, `exitc` before the last test, number of iterations (`blls.py` L430). -/
structure BRes (K : Type) (m n : ℕ) where
  st : BState K m n
  opt : K
  exitc : ℤ
  nit : ℕ

/-- The main loop (`blls.py` L140-L403): `r` iterations remain. -/
def bllsLoop (p : BllsIn K m n) : ℕ → BRes K m n → BRes K m n
  | 0, R => R
  | r + 1, R =>
    let R := { R with nit := R.nit + 1 }
    match bllsIter p R.st with
    | none => { R with exitc := -1 }
    | some (S, opt) =>
      let R := { R with st := S, opt := opt }
      if opt ≤ cConv ∨ S.resn ≤ cRes then R else bllsLoop p r R

/-- `blls_` (`blls.py` L68-L89, L133-L140, L408-L411). -/
def blls (p : BllsIn K m n) : BRes K m n :=
  let s := p.clip (p.pinv (List.finRange n) p.b)
  let res := p.resid s
  let opt := p.measure s res
  let S : BState K m n := ⟨s, res, p.nrmM res, [], [], 0, [], [], 0, false, 0, 0, 0⟩
  let maxit := if opt ≤ cConv ∨ S.resn ≤ cRes then 0 else 2 * n
  let R := bllsLoop p maxit ⟨S, opt, 0, 0⟩
  if R.exitc = 0 ∧ R.nit ≥ 2 * n then { R with exitc := 1 } else R

end Sqpdfo
