import Mathlib.Algebra.Order.Field.Basic
import Mathlib.Data.List.Forall2

/-! # Operations on the interpolation set

Points are elements of an abstract type `P` with a distance `dist` into the ordered field `K`.
`F` is the type of factorisations, `build : List P → F` is `bcdfo_build_QR_of_Y_`
(it returns `QZ, RZ, xbase, scale`), which is always called with the complete set. -/

namespace Sqpdfo

variable {P C F K : Type}

/-- The data kept for the interpolation set in `sqpdfo_main_`: points, their indices in the
history, objective values, columns of inequality and equality values (`[]` for an empty
array) and the factorisation (`sqpdfo_main.py` L168-L197). -/
structure IntSet (P C F K : Type) where
  Y : List P
  ind : List ℕ
  fY : List K
  ciY : List C
  ceY : List C
  fac : F
deriving DecidableEq

/-- Exchange of two entries (`y=copy(Y[:,ii]); Y[:,ii]=copy(Y[:,jj]); Y[:,jj]=y`), `none` is
an `IndexError` (`sqpdfo_swap_in_Y.py` L70-L78). -/
def swapL {α : Type} (l : List α) (i j : ℕ) : Option (List α) :=
  match l[i]?, l[j]? with
  | some a, some b => some ((l.set i b).set j a)
  | _, _ => none

/-- The same for arrays that are skipped if empty (`if not isempty_(ciY)`) (`sqpdfo_swap_in_Y.py` L79-L86). -/
def swapOpt {α : Type} (l : List α) (i j : ℕ) : Option (List α) :=
  if l = [] then some [] else swapL l i j

/-- `sqpdfo_swap_in_Y_` (`sqpdfo_swap_in_Y.py` L47-L90). -/
def swapInY (build : List P → F) [DecidableEq C] (i j : ℕ) (s : IntSet P C F K) :
    Option (IntSet P C F K) :=
  if i = j then some s
  else
    let ii := if i > j then j else i
    let jj := if i > j then i else j
    match swapL s.Y ii jj, swapL s.ind ii jj, swapL s.fY ii jj, swapOpt s.ciY ii jj,
      swapOpt s.ceY ii jj with
    | some Y, some ind, some fY, some ciY, some ceY => some ⟨Y, ind, fY, ciY, ceY, build Y⟩
    | _, _, _, _, _ => none

section order
variable [Field K] [LinearOrder K]

/-- First index of the smallest entry of a list (`np.nanargmin`), with the entry; `none` for
the empty list.  NaN entries cannot occur here since recorded values are numbers (C07)
(`sqpdfo_find_smallf.py` L114, `runtime.py` L175-L181). -/
def argMin : List K → Option (ℕ × K)
  | [] => none
  | a :: l =>
    match argMin l with
    | none => some (0, a)
    | some (i, b) => if b < a then some (i + 1, b) else some (0, a)

/-- Does the comparison `Y[:,i] < xl[indfree]`, `Y[:,i] > xu[indfree]`
(`sqpdfo_find_smallf.py` L92) find nothing?  The shapes `(n,)` and `(n,1)` are broadcast to
`(n,n)`, so that every component is compared with every bound. -/
def insideTest (xl xu y : List K) : Bool :=
  xl.all (fun l => y.all fun v => !decide (v < l)) &&
    xu.all (fun u => y.all fun v => !decide (v > u))

/-- `ind_insideBounds` (`sqpdfo_find_smallf.py` L89-L97): the index itself for a point that
passes the test and 0 for the others.  Dummy points do not occur in this version of the code
(`dstatus` is only ever set to 0). -/
def indInside (xl xu : List K) (Y : List (List K)) : List ℕ :=
  (List.range Y.length).map fun i =>
    match Y[i]? with
    | some y => if insideTest xl xu y then i else 0
    | none => 0

/-- `meritY = fY + int(sigma)*norm_ceY` (`sqpdfo_find_smallf.py` L99-L110), given the norms of the constraint columns
(with the squared slacks subtracted where slacks exist).  The norms are only used if some
entry of `ceY` is nonzero (`anyCe`), otherwise 0.  `trunc` is Python's `int`. -/
def meritY (trunc : K → K) (sigma : K) (anyCe : Bool) (fY nrmCe : List K) : List K :=
  List.zipWith (fun f c => f + trunc sigma * c) fY
    (if anyCe then nrmCe else nrmCe.map fun _ => 0)

/-- The selection of the best point of `sqpdfo_find_smallf_` (`sqpdfo_find_smallf.py` L112-L128): the position to be
exchanged with position 0, or `none`. `merit[ind_insideBounds]` raises if an index is too
large, which cannot happen when `merit` has an entry per point; then `mapM` is `none` and
no exchange is reported here. -/
def smallfChoice (merit : List K) (ind : List ℕ) : Option ℕ :=
  match ind.mapM (fun i => merit[i]?) with
  | none => none
  | some vals =>
    match argMin vals, merit[0]? with
    | some (imin, fmin), some m0 => if imin ≠ 1 ∧ fmin < m0 then some imin else none
    | _, _ => none

/-- The state changed by `sqpdfo_find_smallf_`: the set, `fx`, `i_xbest`, `info.f` (`sqpdfo_find_smallf.py` L119-L139). -/
structure SmallfSt (P C F K : Type) where
  s : IntSet P C F K
  fx : K
  ixbest : ℕ
  infoF : K
deriving DecidableEq

/-- `sqpdfo_find_smallf_` (`sqpdfo_find_smallf.py` L76-L139) after the selection (`shift_Y = 1`). -/
def findSmallf (build : List P → F) [DecidableEq C] (choice : Option ℕ)
    (t : SmallfSt P C F K) : Option (SmallfSt P C F K) :=
  match choice with
  | some imin =>
    match swapInY build 0 imin t.s with
    | none => none
    | some s =>
      match s.fY[0]?, s.ind[0]? with
      | some f, some i => some ⟨s, f, i, f⟩
      | _, _ => none
  | none =>
    match t.s.fY[0]? with
    | some f => some { t with infoF := f }
    | none => none

/-! ### Inclusion of a new point -/

/-- The `criterion` argument of `bcdfo_include_in_Y_` (`bcdfo_include_in_Y.py` L132-L143). -/
inductive Crit where
  | weighted
  | standard
  | distance
deriving DecidableEq

/-- `cv` in `bcdfo_include_in_Y_` (`bcdfo_include_in_Y.py` L131-L143): `d` is the distance of `Y[:,j]` to the new
point (if `succ`) or to the base point, `l` the value of the Lagrange polynomial. -/
def critVal (c : Crit) (d l : K) : K :=
  match c with
  | .weighted => d ^ 2 * |l|
  | .standard => |l|
  | .distance => d

/-- The loop over the suitable points (`bcdfo_include_in_Y.py` L128-L146): the first maximiser of a positive
criterion, starting with `crit_val = 0`, `pos = -1` (`none`). -/
def pickMax (cv : ℕ → K) : List ℕ → Option ℕ → K → Option ℕ
  | [], pos, _ => pos
  | j :: js, pos, best => if cv j > best then pickMax cv js (some j) (cv j) else pickMax cv js pos best

/-- `cv` for position `j` (`bcdfo_include_in_Y.py` L130-L143), given the values `L` of the Lagrange polynomials. -/
def candCrit (dist : P → P → K) (crit : Crit) (ref : P) (L : ℕ → K) (Y : List P) (j : ℕ) : K :=
  match Y[j]? with
  | some y => critVal crit (dist y ref) (L j)
  | none => 0

/-- `bcdfo_include_in_Y_` (`bcdfo_include_in_Y.py` L115-L150).  `lval j` is the value of the
`j`-th Lagrange polynomial at the new point for `j` in the choice set; `bcdfo_evalL_` leaves
the other entries 0.  `ref` is the new point if `succ = 1`, else the base point. The result is
the position, or `none` for -1, together with the new set. -/
def includeInY (dist : P → P → K) (build : List P → F) (lval : ℕ → K) (choice : List ℕ)
    (thr : K) (crit : Crit) (x ref : P) (Y : List P) (fac : F) :
    Option ℕ × List P × F :=
  if choice = [] then (none, Y, fac)
  else
    let L : ℕ → K := fun j => if j ∈ choice then lval j else 0
    let suitable := (List.range Y.length).filter fun j => decide (|L j| > thr)
    if suitable = [] then (none, Y, fac)
    else
      match pickMax (candCrit dist crit ref L Y) suitable none 0 with
      | none => (none, Y, fac)
      | some pos => (some pos, Y.set pos x, build (Y.set pos x))

/-! ### Repair of the geometry -/

/-- The local state of `bcdfo_repair_Y_`: points, factorisation, distances to the base point,
list of replaced indices (`bcdfo_repair_Y.py` L181-L192). -/
structure RepSt (P F K : Type) where
  Y : List P
  fac : F
  d : List K
  replaced : List ℕ
deriving DecidableEq

variable (dist : P → P → K) (build : List P → F) (propose : F → List P → ℕ → P × K)

/-- `Y[:,j] = y` with a rebuilt factorisation and `d[j] = norm(y - Y[:,0])`
(`bcdfo_repair_Y.py` L216-L219, L266-L268); the list of replaced indices is given. -/
def RepSt.put (st : RepSt P F K) (j : ℕ) (y : P) (replaced : List ℕ) : RepSt P F K :=
  let Y := st.Y.set j y
  { Y := Y
    fac := build Y
    d := st.d.set j (match Y[0]? with | some b => dist y b | none => 0)
    replaced := replaced }

/-- Replacement of the far points (`bcdfo_repair_Y.py` L203-L220). `order` lists `jsorted` with the *initial*
distances `dsorted`, in decreasing order; the loop ends at the first point that is not far. -/
def farLoop (thr : K) : List (ℕ × K) → RepSt P F K → RepSt P F K
  | [], st => st
  | (j, dj) :: l, st =>
    if dj > thr then
      farLoop thr l (st.put dist build j (propose st.fac st.Y j).1 (st.replaced ++ [j]))
    else st

/-- The search for the best replacement of a round (`bcdfo_repair_Y.py` L231-L248): strictly larger improvements
than the best so far, starting with 0, over `j = 1, …, p-1`. -/
def bestRepl (prop : ℕ → P × K) : List ℕ → Option (ℕ × P) → K → Option (ℕ × P) × K
  | [], b, m => (b, m)
  | j :: js, b, m =>
    if (prop j).2 > m then bestRepl prop js (some (j, (prop j).1)) (prop j).2
    else bestRepl prop js b m

/-- `max_(d)` for a nonempty list (0 for the empty one, which has no points) (`bcdfo_repair_Y.py` L252, L270). -/
def maxOf : List K → K
  | [] => 0
  | [a] => a
  | a :: l => max a (maxOf l)

/-- The result of `bcdfo_repair_Y_`: final state, `maximprove`, `Y_radius`, and the number of
rounds made (`bcdfo_repair_Y.py` L262, L277). -/
structure RepRes (P F K : Type) where
  st : RepSt P F K
  maximprove : K
  radius : K
  rounds : ℕ
deriving DecidableEq

/-- The rounds (`bcdfo_repair_Y.py` L230-L270), `k` rounds left of `max_improve_loops = 20`.  `last` is
`maximprove` of the previous round, returned after the last one.  If no improvement is
positive then `maximprove = 0`, which is below `closethr` for the value `1.2` used; for
`closethr ≤ 0` the code would use `jmax`, `ymax` of an earlier round, the model stops
instead. -/
def rounds (closethr : K) : ℕ → ℕ → K → RepSt P F K → RepRes P F K
  | 0, r, last, st => ⟨st, last, maxOf st.d, r⟩
  | k + 1, r, _, st =>
    let b := bestRepl (propose st.fac st.Y) ((List.range st.Y.length).tail) none 0
    match b.1 with
    | none => ⟨st, if st.replaced = [] then 0 else b.2, maxOf st.d, r + 1⟩
    | some (j, y) =>
      if b.2 < closethr ∨ j = 0 then
        ⟨st, if st.replaced = [] then 0 else b.2, maxOf st.d, r + 1⟩
      else
        rounds closethr k (r + 1) b.2
          (st.put dist build j y (if j ∈ st.replaced then st.replaced else st.replaced ++ [j]))

/-- The distances computed at the start (`bcdfo_repair_Y.py` L190-L192): `d[0] = 0`. -/
def dists (Y : List P) : List K :=
  match Y with
  | [] => []
  | b :: l => 0 :: l.map fun y => dist y b

/-- `bcdfo_repair_Y_` (`bcdfo_repair_Y.py` L177-L277) with `hardcons = 0`.  `order` is the result `jsorted` of
sorting the distances in decreasing order; the order of equal distances is left open. -/
def repairY (closethr far : K) (order : List ℕ) (Y : List P) (fac : F) : RepRes P F K :=
  let d := dists dist Y
  let st := farLoop dist build propose far
    (order.map fun j => (j, match d[j]? with | some v => v | none => 0)) ⟨Y, fac, d, []⟩
  rounds dist build propose closethr 20 0 0 st

end order
end Sqpdfo
