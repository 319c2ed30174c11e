import Verif.Model.Eval
import Verif.Model.Bounds

/-!
# Initial sampling

`/repo/sqpdfo/sqpdfo_prelim.py`, L266-L422: build the initial simplex, evaluate it, and start
again with a smaller radius if a value is below `-1e25`.
-/

namespace Sqpdfo
variable {K : Type} [Field K] [LinearOrder K]

/-- How one pass over the initial points ends (`sqpdfo_prelim.py` L355-L378). -/
inductive SampleRes (P K : Type) where
  /-- an exception escapes -/
  | crash
  /-- an evaluation reported a failure: `return` (`sqpdfo_prelim.py` L361-L366) -/
  | failed (s : EvSt P K)
  /-- a value with `|fX[i]| > 1e25`: `break` (`sqpdfo_prelim.py` L370-L371) -/
  | broke (s : EvSt P K)
  /-- all points evaluated: `getfY = 0` (`sqpdfo_prelim.py` L376-L377) -/
  | full (s : EvSt P K)

/-- `abs(v) > 1e25` (`sqpdfo_prelim.py` L370). -/
def tooBig : Fl K → Bool
  | .nan => false
  | .pinf => true
  | .ninf => true
  | .fin q => decide (big < |q|)

/-- The loop `for i in range(0,cur_degree)` (`sqpdfo_prelim.py` L355-L378); `i` is the index of the next point.
`ind_Y`, always `0..i`, is not carried along. -/
def samplePass {P : Type} (U : User P K) : List P → ℕ → EvSt P K → SampleRes P K
  | [], _, s => .full s
  | y :: ys, i, s =>
    match augmX U (.fin big) y i s with
    | none => .crash
    | some s =>
      if s.flag ≠ 0 then .failed s
      else
        match s.fX[i]? with
        | none => .crash
        | some v => if tooBig v then .broke s else samplePass U ys (i + 1) s

/-- `10 * max_(...)`/`10 * min_(...)` of a nonempty list (`sqpdfo_prelim.py` L382). -/
def maxList : List K → Option K
  | [] => none
  | a :: as => some (as.foldl max a)

/-- See `maxList` (`sqpdfo_prelim.py` L383). -/
def minList : List K → Option K
  | [] => none
  | a :: as => some (as.foldl min a)

/-- The finite numbers of a list of recorded constraint columns (they are all finite by
C07) (`sqpdfo_prelim.py` L382-L383). -/
def finVals (ce : List (List (Fl K))) : List K :=
  ce.flatten.filterMap fun v => match v with | .fin q => some q | _ => none

/-- `ceX[ceX>=1e25] = 10 * max_(ceX[ceX<1e25])` (`sqpdfo_prelim.py` L382).  If no entry is selected on the left
nothing happens; if some entry is selected but there is none below `1e25`, `max_` returns an
empty array and the assignment raises (`none`). -/
def replaceHuge (ce : List (List (Fl K))) : Option (List (List (Fl K))) :=
  if (finVals ce).any (fun q => decide (big ≤ q)) then
    match maxList ((finVals ce).filter fun q => decide (q < big)) with
    | none => none
    | some M => some (ce.map (·.map fun v =>
        match v with | .fin q => if big ≤ q then .fin (10 * M) else .fin q | v => v))
  else some ce

/-- `ceX[ceX<=-1e25] = 10 * min_(ceX[ceX>-1e25])` (`sqpdfo_prelim.py` L383). -/
def replaceHugeNeg (ce : List (List (Fl K))) : Option (List (List (Fl K))) :=
  if (finVals ce).any (fun q => decide (q ≤ -big)) then
    match minList ((finVals ce).filter fun q => decide (-big < q)) with
    | none => none
    | some M => some (ce.map (·.map fun v =>
        match v with | .fin q => if q ≤ -big then .fin (10 * M) else .fin q | v => v))
  else some ce

/-- How the initial sampling ends (`sqpdfo_prelim.py` L361-L417). -/
inductive InitRes (K : Type) where
  /-- an exception escapes -/
  | crash
  /-- return with a nonzero `info.flag` -/
  | failed (s : EvSt (List K) K)
  /-- `Delta0` is negligible: return with `info.flag` still 0 (`sqpdfo_prelim.py` L402-L417) -/
  | stalled (s : EvSt (List K) K)
  /-- interpolation set complete: final radius and evaluation state -/
  | done (Δ : K) (s : EvSt (List K) K)
  /-- not a result of the code: the `while` loop is still running -/
  | running

/-- `stallfact = 10 * eps` (`sqpdfo_prelim.py` L73-L74). -/
def stallfact : K := 10 * (2220446049250313 / 10 ^ 31)

/-- The loop `while (getfY)` (`sqpdfo_prelim.py` L268-L417), at most `fuel` passes.  `nx` is `norm_(x0)`.  The
history is emptied at the start of each pass (L347-L353), the call counter is not. -/
def initLoop (U : User (List K) K) (x0 : List K) (nx : K) :
    ℕ → K → EvSt (List K) K → InitRes K
  | 0, _, _ => .running
  | fuel + 1, Δ, s =>
    let s := { s with X := [], fX := [], ceX := [] }
    match samplePass U (simplex x0 Δ) 0 s with
    | .crash => .crash
    | .failed s => .failed s
    | .full s =>
      match replaceHuge s.ceX with
      | none => .crash
      | some c => match replaceHugeNeg c with
        | none => .crash
        | some c => .done Δ { s with ceX := c }
    | .broke s =>
      match replaceHuge s.ceX with
      | none => .crash
      | some c => match replaceHugeNeg c with
        | none => .crash
        | some c =>
          let Δ' := (1 / 100) * Δ
          if Δ' < stallfact * nx then .stalled { s with ceX := c }
          else initLoop U x0 nx fuel Δ' { s with ceX := c }

end Sqpdfo
