import Mathlib.Data.List.FinRange
import Mathlib.Data.List.Sort
import Mathlib.Data.Matrix.Block
import Mathlib.Logic.Equiv.Fin.Basic
import Verif.Model.TRMSbc
import Verif.Model.TruncCG

/-! # The composite step

`sqpdfo_solve_TR_bc_` (`sqpdfo_solve_TR_bc.py` L13-L586), `verbose = 0`, `lls_solver = 'bcdfo'` (L215),
`check_condition = 0` (L193), without fixed variables (`indfree` is the identity: partly fixed variables
make the set-up crash).  `n` variables, `m` equations, `q` inequalities with slack variables.  Vectors in the
space of variables and slacks are functions on `Fin n ⊕ Fin q`.  Arithmetic is exact. -/

namespace Sqpdfo
open Matrix
variable {K : Type} [Field K] [LinearOrder K] {n m q : ℕ}

/-- Variables and slack variables (`sqpdfo_solve_TR_bc.py` L42, L208-L213). -/
abbrev VS (n q : ℕ) := Fin n ⊕ Fin q

/-- The kernels: those of `bcdfo_solve_TR_MS_bc_`; `sqpdfo_check_convex_`; the tangent step and
`active_t` (`sqpdfo_solve_TR_bc.py` L306-L324: null space and truncated CG in the radius given) as a function of the rows, the
Hessian, the gradient and the radius; the multipliers of bounds and constraints at a point (L442-L444). -/
structure STKer (K : Type) (n m q : ℕ) where
  bc : BCKer K (n + q)
  cvx : Matrix (VS n q) (VS n q) K → Matrix (VS n q) (VS n q) K
  tang : List (VS n q → K) → Matrix (VS n q) (VS n q) K → (VS n q → K) → K → (VS n q → K) × Bool
  mult : (Fin n → K) → (Fin n → K) × (Fin m ⊕ Fin q → K)

/-- `norm_` of a vector with any index set (`sqpdfo_solve_TR_bc.py` L184, L250-L253). -/
def STKer.nrm {ι : Type} [Fintype ι] (k : STKer K n m q) (v : ι → K) : K := k.bc.sq (v ⬝ᵥ v)

/-- The arguments and global variables (`sqpdfo_solve_TR_bc.py` L24-L52). -/
structure STIn (K : Type) (n m q : ℕ) where
  x : Fin n → K
  sl : Fin q → K
  lb : VS n q → K
  ub : VS n q → K
  δ : K
  M : Matrix (Fin n) (Fin n) K
  g : Fin n → K
  ce : Fin m ⊕ Fin q → K
  ae : Fin m ⊕ Fin q → Fin n → K
  lm : (Fin n → K) × (Fin m ⊕ Fin q → K)
  precR : K
  thr : K

/-- A row of `constraints` and `gconstraints` (`sqpdfo_solve_TR_bc.py` L96-L104, L132-L143). -/
structure Row (K : Type) (n q : ℕ) where
  c : K
  a : VS n q → K

/-- `constraints`, `gconstraints` with the slack parts (`sqpdfo_solve_TR_bc.py` L96-L104). -/
def eqRow (I : STIn K n m q) (r : Fin m ⊕ Fin q) : Row K n q :=
  { c := I.ce r - Sum.elim (fun _ => 0) (fun j => I.sl j ^ 2) r
    a := Sum.elim (I.ae r) (fun j => if r = .inr j then - 2 * I.sl j else 0) }

/-- All constraints in order (`sqpdfo_solve_TR_bc.py` L96-L104). -/
def eqRows (I : STIn K n m q) : List (Row K n q) :=
  (List.finRange m).map (fun i => eqRow I (.inl i)) ++ (List.finRange q).map (fun j => eqRow I (.inr j))

/-- The row of a bound on variable `i` (`sqpdfo_solve_TR_bc.py` L131-L132). -/
def bndRow (i : Fin n) : Row K n q := { c := 0, a := fun v => if v = .inl i then 1 else 0 }

/-- The first `n` components of `gradlag` (`sqpdfo_solve_TR_bc.py` L112-L122). -/
def gradLag (I : STIn K n m q) : Fin n → K := fun i =>
  I.g i + (if |I.lb (.inl i) - I.x i| < 1 / 10 ^ 5 ∨ |I.ub (.inl i) - I.x i| < 1 / 10 ^ 5 then I.lm.1 i
    else 0) + ∑ r, I.ae r i * I.lm.2 r

/-- Rows of the bounds that are active at the start (`sqpdfo_solve_TR_bc.py` L124-L146). -/
def activeRows (I : STIn K n m q) : List (Row K n q) :=
  (List.finRange n).flatMap fun i =>
    (if I.x i - gradLag I i ≤ I.lb (.inl i) ∧ |I.x i - I.lb (.inl i)| < 1 / 10 ^ 5 then [bndRow i]
      else []) ++
    (if I.x i - gradLag I i ≥ I.ub (.inl i) ∧ |I.x i - I.ub (.inl i)| < 1 / 10 ^ 5 then [bndRow i]
      else [])

/-- The variables of the loop over the active set (`sqpdfo_solve_TR_bc.py` L106-L161). -/
structure STState (K : Type) (n m q : ℕ) where
  x : Fin n → K
  g : VS n q → K
  rows : List (Row K n q)
  fix : List (Fin n)
  δ : K
  slnew : Fin q → K
  rpred : K
  lm : (Fin n → K) × (Fin m ⊕ Fin q → K)
  iter : ℕ

/-- The returned tuple (`lm_computed` is 0, `info` is not changed but for `info.flag = 0`); `passes` is
`iter_active` (`sqpdfo_solve_TR_bc.py` L586). -/
structure STOut (K : Type) (n m q : ℕ) where
  xnew : Fin n → K
  δ : K
  rpred : K
  actR : Bool
  actT : Bool
  lm : (Fin n → K) × (Fin m ⊕ Fin q → K)
  slnew : Fin q → K
  passes : ℕ

/-- `gconstraints.T.dot(constraints)` (`sqpdfo_solve_TR_bc.py` L179). -/
def rowsGrad (rows : List (Row K n q)) : VS n q → K := fun v => (rows.map fun r => r.c * r.a v).sum

/-- `gconstraints.T.dot(gconstraints)` (`sqpdfo_solve_TR_bc.py` L189). -/
def rowsHess (rows : List (Row K n q)) : Matrix (VS n q) (VS n q) K := fun v w =>
  (rows.map fun r => r.a v * r.a w).sum

/-- `norm_(constraints + gconstraints.dot(r))` (`sqpdfo_solve_TR_bc.py` L250-L253). -/
def rowsNorm (k : STKer K n m q) (rows : List (Row K n q)) (r : VS n q → K) : K :=
  k.bc.sq (rows.map fun w => (w.c + w.a ⬝ᵥ r) ^ 2).sum

/-- The problem of the restoration step (`sqpdfo_solve_TR_bc.py` L187-L222). -/
def restIn (k : STKer K n m q) (I : STIn K n m q) (S : STState K n m q) : BCIn K (n + q) :=
  { g0 := rowsGrad S.rows ∘ finSumFinEquiv.symm
    H := (k.cvx (rowsHess S.rows)).submatrix finSumFinEquiv.symm finSumFinEquiv.symm
    lb := (fun v => I.lb v - Sum.elim S.x I.sl v) ∘ finSumFinEquiv.symm
    ub := (fun v => I.ub v - Sum.elim S.x I.sl v) ∘ finSumFinEquiv.symm
    Δ0 := S.δ
    εD := I.precR }

/-- The restoration step `r_sl`, `active_r` and the new `rpred` (`sqpdfo_solve_TR_bc.py` L179-L293).  The strings
`'error'`, `'limit'` and `'boundary'` are never returned by the solver, so `info_r.flag` depends on the
length only. -/
def restoration (k : STKer K n m q) (I : STIn K n m q) (S : STState K n m q) :
    Option ((VS n q → K) × Bool × K) :=
  if S.iter = 1 ∧ k.nrm (rowsGrad S.rows) > 1 / 10 ^ 14 then
    match trmsBc k.bc (restIn k I S) with
    | none => none
    | some o =>
      let r := o.s ∘ finSumFinEquiv
      some (r, decide (S.δ - k.nrm (r ∘ Sum.inl) < 1 / 10 ^ 8),
        S.rpred + (rowsNorm k S.rows 0 - rowsNorm k S.rows r))
  else some (0, false, S.rpred)

/-- The Hessian with zeros for the slacks (`sqpdfo_solve_TR_bc.py` L150-L154). -/
def bigM (I : STIn K n m q) : Matrix (VS n q) (VS n q) K := fromBlocks I.M 0 0 0

/-- The tangent step `t_sl` and `active_t` (`sqpdfo_solve_TR_bc.py` L304-L343). -/
def tangent (k : STKer K n m q) (I : STIn K n m q) (S : STState K n m q) (r : VS n q → K) :
    (VS n q → K) × Bool :=
  if S.rows.length < n + q then
    k.tang (S.rows.map Row.a) (bigM I) (S.g + bigM I *ᵥ r) S.δ
  else (0, false)

/-- New slacks (`sqpdfo_solve_TR_bc.py` L356-L370). -/
def trialSlack (I : STIn K n m q) (S : STState K n m q) (r t : VS n q → K) : Fin q → K := fun j =>
  let s := if S.iter = 1 then I.sl j + r (.inr j) + t (.inr j) else S.slnew j + t (.inr j)
  let s := if s > I.ub (.inr j) then s - t (.inr j) else s
  if s < I.lb (.inr j) then s - t (.inr j) else s

/-- The scan of the bounds (`sqpdfo_solve_TR_bc.py` L376-L414): the active variables found so far and the first violated one. -/
def scan (I : STIn K n m q) (y : Fin n → K) : List (Fin n) → List (Fin n) → List (Fin n) × Option (Fin n)
  | [], act => (act, none)
  | i :: l, act =>
    if y i - I.lb (.inl i) < - I.thr then (act, some i)
    else if |y i - I.lb (.inl i)| < 1 / 10 ^ 7 then scan I y l (act ++ [i])
    else if y i - I.ub (.inl i) > I.thr then (act, some i)
    else if |y i - I.ub (.inl i)| < 1 / 10 ^ 7 then scan I y l (act ++ [i])
    else scan I y l act

/-- `divisor` (`sqpdfo_solve_TR_bc.py` L543-L548). -/
def divisor (d : K) : K := if d < 1 / 10 ^ 15 ∧ d > - (1 / 10 ^ 15) then 1 / 10 ^ 15 else d

/-- The candidates for `minratio` (`sqpdfo_solve_TR_bc.py` L534-L550). -/
def ratios (I : STIn K n m q) (xr t : VS n q → K) : List K :=
  let vs : List (VS n q) := (List.finRange n).map .inl ++ (List.finRange q).map .inr
  ((vs.map fun v => (I.ub v - xr v, divisor (t v))) ++
    (vs.map fun v => (- I.lb v - - xr v, divisor (- t v)))).filterMap fun p =>
      if p.2 > 0 then some (p.1 / p.2) else none

/-- `minratio` (`sqpdfo_solve_TR_bc.py` L550-L558); 0 for an empty list, which only happens if there are no variables. -/
def minRatio (I : STIn K n m q) (xr t : VS n q → K) : K :=
  match ratios I xr t with
  | [] => 0
  | a :: l => max 0 (l.foldl min a)

/-- The update after a violated bound (`sqpdfo_solve_TR_bc.py` L525-L584). -/
def shorten (k : STKer K n m q) (I : STIn K n m q) (r t : VS n q → K) (S : STState K n m q) :
    STState K n m q :=
  let xr : VS n q → K := Sum.elim S.x I.sl + r
  let ts := minRatio I xr t • t
  let step := r + ts
  let w := bigM I *ᵥ step
  { S with
    x := fun i => S.x i + r (.inl i) + ts (.inl i)
    slnew := fun j => if S.iter = 1 then I.sl j + r (.inr j) + ts (.inr j)
      else S.slnew j + ts (.inr j)
    g := S.g + w
    rows := (S.rows.take (m + q)).map (fun a => { a with a := a.a + w }) ++ S.rows.drop (m + q)
    δ := S.δ - 1 / 2 * k.nrm (step ∘ Sum.inl) }

/-- Position of the first smallest multiplier of the fixed bounds (`sqpdfo_solve_TR_bc.py` L448). -/
def minPos (f : Fin n → K) : List (Fin n) → ℕ × K
  | [] => (0, 0)
  | a :: l =>
    let p := minPos f l
    if l = [] ∨ f a ≤ p.2 then (0, f a) else (p.1 + 1, p.2)

/-- The decision for a zero step (`sqpdfo_solve_TR_bc.py` L424-L509) after the limit test: the new state and `finished`. -/
def zeroStep (k : STKer K n m q) (xnew : Fin n → K) (act : List (Fin n)) (S : STState K n m q) :
    STState K n m q × Bool :=
  if S.fix = [] then (S, true)
  else
    let lm := k.mult xnew
    let p := minPos lm.1 S.fix
    let S := { S with lm := lm }
    if p.2 < 0 then
      let rows := S.rows.take (m + q)
      if act.length = S.fix.length ∧ act.insertionSort (· ≤ ·) = S.fix.insertionSort (· ≤ ·) then
        ({ S with rows := rows ++ (S.fix.eraseIdx p.1).map bndRow, fix := S.fix.eraseIdx p.1 }, true)
      else ({ S with rows := rows ++ act.map bndRow, fix := act }, false)
    else (S, true)

/-- The end of a pass (`sqpdfo_solve_TR_bc.py` L424-L584), after the scan of the bounds: the result, or the next state. -/
def stEnd (k : STKer K n m q) (I : STIn K n m q) (r t : VS n q → K) (actR actT : Bool) (xnew : Fin n → K)
    (act : List (Fin n)) (viol : Option (Fin n)) (S : STState K n m q) : STOut K n m q ⊕ STState K n m q :=
  let out := fun (S : STState K n m q) =>
    (⟨xnew, S.δ, S.rpred, actR, actT, S.lm, S.slnew, S.iter⟩ : STOut K n m q)
  let upd := fun S => if viol.isSome then shorten k I r t S else S
  if k.nrm (fun i : Fin n => r (.inl i) + t (.inl i)) ≤ 1 / 10 ^ 16 then
    if S.iter ≥ 10 * n ∨ S.δ < 1 / 10 ^ 8 then .inl (out S)
    else
      let z := zeroStep k xnew act S
      if z.2 then .inl (out (upd z.1)) else .inr (upd z.1)
  else if viol.isSome then .inr (upd S)
  else .inl (out S)

/-- The trial point `x + r + t` (`sqpdfo_solve_TR_bc.py` L354). -/
def trialX (S : STState K n m q) (r t : VS n q → K) : Fin n → K := fun i =>
  S.x i + r (.inl i) + t (.inl i)

/-- The state after the scan of the bounds (`sqpdfo_solve_TR_bc.py` L356-L414). -/
def afterScan (I : STIn K n m q) (S : STState K n m q) (r t : VS n q → K) (rpred : K)
    (viol : Option (Fin n)) : STState K n m q :=
  { S with
    rpred := rpred
    slnew := trialSlack I S r t
    rows := S.rows ++ viol.toList.map bndRow
    fix := S.fix ++ viol.toList }

/-- One pass of the loop over the active set (`sqpdfo_solve_TR_bc.py` L165-L584): the result, or the next state; `none` if the
restoration step is undefined (not reached, `C44`). -/
def stPass (k : STKer K n m q) (I : STIn K n m q) (S : STState K n m q) :
    Option (STOut K n m q ⊕ STState K n m q) :=
  match restoration k I S with
  | none => none
  | some (r, actR, rpred) =>
    let t := tangent k I S r
    let sc := scan I (trialX S r t.1) (List.finRange n) []
    some (stEnd k I r t.1 actR t.2 (trialX S r t.1) sc.1 sc.2 (afterScan I S r t.1 rpred sc.2))

/-- The loop over the active set with at most `f` passes (`sqpdfo_solve_TR_bc.py` L163-L584). -/
def stLoop (k : STKer K n m q) (I : STIn K n m q) : ℕ → STState K n m q → Option (STOut K n m q)
  | 0, _ => none
  | f + 1, S =>
    match stPass k I S with
    | none => none
    | some (.inl o) => some o
    | some (.inr S) => stLoop k I f { S with iter := S.iter + 1 }

/-- The start of the loop (`sqpdfo_solve_TR_bc.py` L96-L163). -/
def stStart (I : STIn K n m q) : STState K n m q :=
  { x := I.x, g := Sum.elim I.g (fun _ => 0), rows := eqRows I ++ activeRows I, fix := [], δ := I.δ
    slnew := 0, rpred := 0, lm := I.lm, iter := 1 }

/-- `sqpdfo_solve_TR_bc_` with constraints.  The code has no limit on the number of passes; that the limit
used here is never reached is part of `C44` (`sqpdfo_solve_TR_bc.py` L96-L586). -/
def solveTR (k : STKer K n m q) (I : STIn K n m q) : Option (STOut K n m q) :=
  stLoop k I (11 * n + q + 1) (stStart I)

/-- `sqpdfo_solve_TR_bc_` without constraints (`sqpdfo_solve_TR_bc.py` L67-L87): trial point and `active_t`. -/
def solveTR0 (k : BCKer K n) (x lb ub g : Fin n → K) (M : Matrix (Fin n) (Fin n) K) (δ : K) :
    Option ((Fin n → K) × Bool) :=
  match trmsBc k ⟨g, M, fun i => lb i - x i, fun i => ub i - x i, δ, 1 / 10 ^ 7⟩ with
  | none => none
  | some o => some (x + o.s, ! decide (k.nrm o.s < δ))

/-- The tangent step of the code (`sqpdfo_solve_TR_bc.py` L306-L324): `null` gives a basis of the null space of the rows (columns of the
matrix), `prec` is `prec_t`. -/
noncomputable def cgTang (null : List (VS n q → ℝ) → (d : ℕ) × Matrix (VS n q) (Fin d) ℝ) (prec : ℝ) (m : ℕ)
    (rows : List (VS n q → ℝ)) (M : Matrix (VS n q) (VS n q) ℝ) (g : VS n q → ℝ) (δ : ℝ) :
    (VS n q → ℝ) × Bool :=
  let Z := (null rows).2
  let o := truncCG (Zᵀ * (M * Z)) (- (Zᵀ *ᵥ g)) δ prec (20 * (n + q - (m + q)))
  (Z *ᵥ o.x, decide (o.flag = 1 ∨ o.flag = 2))

end Sqpdfo
