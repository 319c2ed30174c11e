import Verif.Model.Options
import Verif.Model.InitSet

/-!
# Entry of `optimize`: arguments, process state and set-up

`/repo/sqpdfo/sqpdfo.py` L76-L290 and `/repo/sqpdfo/sqpdfo_prelim.py` L37-L499; process-wide
variables of `/repo/sqpdfo/sqpdfo_global_variables.py`.
-/

namespace Sqpdfo

/-- A function argument: `None`, a Python function, or anything else (for which
`set_filename_f`/`set_filename_cons` call `sys.exit`, `sqpdfo_global_variables.py` L74-L91). -/
inductive FunArg where
  | missing
  | fn
  | notFn
deriving DecidableEq

/-- The start point as an array with `rows` and `cols` (a list of `k` numbers becomes one row,
`sqpdfo.py` L110-L111; a one-dimensional array counts as one column, `runtime.py` L197-L212).
Arrays with more than two dimensions are not modelled. -/
inductive X0Arg (K : Type) where
  | missing
  | mat (rows cols : ℕ) (data : List K)
deriving DecidableEq

/-- A bound vector: `None`, a column (also made from a list, `sqpdfo.py` L114-L119), or an array of another
shape (comparisons of its rows raise).  An empty list stands for infinite bounds
(`sqpdfo_prelim.py` L157-L160) and is treated like `None`. -/
inductive BndArg (K : Type) where
  | missing
  | col (l : List K)
  | bad
deriving DecidableEq

/-- The options argument: `None`, an instance, or a class used as a namespace (`sqpdfo.py` L123-L128). -/
inductive OptArg where
  | missing
  | inst (o : Opts)
  | cls (o : Opts)
deriving DecidableEq

/-- The arguments of `sqpdfo_` (`sqpdfo.py` L14); `me`, `mi` with `None` already replaced by 0 (L87-L90). -/
structure Args (K : Type) where
  opts : OptArg
  f : FunArg
  x0 : X0Arg K
  lb : BndArg K
  ub : BndArg K
  me : ℕ
  mi : ℕ
  c : FunArg
  li : Option (List K)
  ui : Option (List K)

/-- The process-wide variables that `optimize` reads back (`nbr_slacks`, `slacks`) (`sqpdfo_global_variables.py` L99-L105, L134-L138). -/
structure Globals (K : Type) where
  nbrSlacks : ℕ
  slacks : List K
deriving DecidableEq

/-- Values at import time (`sqpdfo_global_variables.py` L34-L38). -/
def Globals.fresh {K : Type} : Globals K := ⟨0, []⟩

variable {K : Type} [Field K] [LinearOrder K]

/-- `sqpdfo.py` L134-L143: the number of slack variables.  The loop runs over the original `mi + me`
indices and adds one per two-sided constraint.  `none` = `IndexError` (bounds too short). -/
def slackCount (mi me : ℕ) (li ui : List K) : Option ℕ :=
  (List.range (mi + me)).foldlM (fun acc i => do
    let l ← li[i]?
    let u ← ui[i]?
    return if l < u then (if l > -10 ^ 7 ∧ u < 10 ^ 7 then acc + 1 else acc) else acc) mi

/-- Default bounds of the constraints (`sqpdfo.py` L134-L137). -/
def ciBounds (a : Args K) : List K × List K :=
  (a.li.getD (List.replicate (a.mi + a.me) (-10 ^ 9)),
   a.ui.getD (List.replicate (a.mi + a.me) (10 ^ 9)))

/-- What the argument checks of `sqpdfo_` (`sqpdfo.py` L76-L148) produce. -/
inductive ArgRes (K : Type) where
  /-- `return x, lm, info` with the initial `info.flag = 1` -/
  | ret1
  /-- `sys.exit` or another exception -/
  | raised
  /-- continue: column start point data, its shape, extended bounds -/
  | ok (rows cols : ℕ) (x0 : List K) (lb ub : BndArg K)

/-- A default bound vector with the entries `v` (`sqpdfo.py` L112-L113, L116-L117):
`v * ones_like(x0).T`, a column if `x0` has one row, otherwise an array of another shape.
(One-dimensional arrays, which the model treats as columns, give usable bounds in the code
if there are no inequalities.) -/
def defaultBnd (rows cols : ℕ) (v : K) : BndArg K :=
  if rows = 1 then .col (List.replicate cols v) else .bad

/-- The bound vector after `sqpdfo.py` L112-L119. -/
def normBnd (rows cols : ℕ) (v : K) : BndArg K → BndArg K
  | .missing => defaultBnd rows cols v
  | .col [] => .col (List.replicate (max rows cols) v)
  | b => b

/-- `sqpdfo.py` L147-L148. -/
def extendBnd (v : K) (mi : ℕ) : BndArg K → BndArg K
  | .col l => .col (l ++ List.replicate mi v)
  | b => b

/-- The argument checks of `sqpdfo_` (`sqpdfo.py` L76-L148, L186-L187). -/
def checkArgs (a : Args K) (g : Globals K) : ArgRes K × Globals K :=
  match a.f with
  | .missing => (.ret1, g)
  | .notFn => (.raised, g)
  | .fn =>
  if a.c = .missing ∧ a.me + a.mi > 0 then (.ret1, g)
  else if a.c = .notFn then (.raised, g)
  else
  match a.x0 with
  | .missing => (.ret1, g)
  | .mat rows cols data =>
    let lb := normBnd rows cols (-10 ^ 20) a.lb
    let ub := normBnd rows cols (10 ^ 20) a.ub
    let (r, c) := if rows = 1 ∧ cols > 1 then (cols, rows) else (rows, cols)
    if a.mi = 0 then (.ok r c data lb ub, g)
    else
      let (li, ui) := ciBounds a
      match slackCount a.mi a.me li ui with
      | none => (.raised, g)
      | some k =>
        let g := { g with nbrSlacks := k, slacks := List.replicate k 0 }
        if lb = .bad ∨ ub = .bad then (.raised, g)
        else (.ok r c data (extendBnd 0 k lb) (extendBnd (10 ^ 20) k ub), g)

/-- The working copy of the options (`copy`, `sqpdfo.py` L123-L128, `sqpdfo_prelim.py` L63,
`sqpdfo_options.py` L20): a new object for an instance, the same object for a class. -/
def OptArg.dict : OptArg → Opts
  | .missing => Opts.empty
  | .inst o => o
  | .cls o => o

/-- The object that the caller still holds after the working object has become `o'` (`sqpdfo.py` L123-L128, `sqpdfo_options.py` L16-L20). -/
def OptArg.after (a : OptArg) (o' : Opts) : OptArg :=
  match a with
  | .missing => .missing
  | .inst o => .inst o
  | .cls _ => .cls o'

/-- The initial slacks (`sqpdfo_prelim.py` L489-L499): `min(sqrt(ce), sqrt(ub))` for positive
`ce`, else 0.  Python's negative index `-ns+i` into vectors of length `len` is
`len - ns + i`, an `IndexError` (`none`) if `ns > len`. -/
def initSlacks (sqrt : K → K) (ns : ℕ) (ce ub : List K) : Option (List K) :=
  (List.range ns).mapM fun i =>
    if ns ≤ ce.length then
      match ce[ce.length - ns + i]? with
      | none => none
      | some c =>
        if c > 0 then
          if ns ≤ ub.length then
            match ub[ub.length - ns + i]? with
            | none => none
            | some u => some (min (sqrt c) (sqrt u))
          else none
        else some 0
    else none

/-- What the set-up hands over to the main loop (`sqpdfo.py` L275-L282). -/
structure MainIn (K : Type) where
  opts : Opts
  Δ : K
  ev : EvSt (List K) K
  lb : List K
  ub : List K
  nbrSlacks : ℕ
  slacks : List K

/-- How the set-up ends (`sqpdfo.py` L76-L321). -/
inductive SetupRes (K : Type) where
  /-- `return` with this status -/
  | ret (flag : ℕ)
  /-- an exception escapes -/
  | crash
  /-- the initial sampling is still running (not a result of the code) -/
  | running
  | go (i : MainIn K)

/-- Everything observable after the set-up: result, process variables, caller's options
object, calls of the user's functions (`sqpdfo.py` L76-L321). -/
structure Setup (K : Type) where
  res : SetupRes K
  g : Globals K
  opts : OptArg
  w : World (List K)

/-- The empty call log (`sqpdfo_func.py` L31-L41). -/
def World.empty {P : Type} : World P := ⟨[], []⟩

/-- The finite entries of the first recorded constraint column, `info.ce = ceY[:,[0]]`
(`sqpdfo_prelim.py` L473-L485; recorded values are finite, C07). -/
def firstCe (s : EvSt (List K) K) : List K :=
  match s.ceX with
  | [] => []
  | c :: _ => c.filterMap fun v => match v with | .fin q => some q | _ => none

/-- The bounds part with possibly too short bound vectors: the loop reads `lb[j]`, `ub[j]` in
order, so crossed bounds before the missing entry still return status 2 (`sqpdfo_prelim.py` L176-L262). -/
def boundsPart (n : ℕ) (x0 : List K) (lb ub : List K) : Option (BoundsRes K) :=
  let vs := (List.zip (List.zip lb ub) x0).map fun p => (⟨p.1.1, p.1.2, p.2⟩ : Var K)
  let vs := vs.take n
  if vs.length < n then
    match boundsLoop vs 1 with
    | none => some .flag2
    | some _ => none
  else some (checkBounds vs)

/-- The set-up: `checkArgs`, then `sqpdfo_prelim_` (`sqpdfo_prelim.py` L37-L499), and the first use of its results
in `sqpdfo_` (`sqpdfo.py` L296: a stalled sampling leaves `normgx = None`, so `mu0 * normgx` raises).
Partly fixed variables raise before the first call of the user's function
(`sqpdfo_augmX_evalf.py` L82-L84: `X[:,m]` on a one-dimensional empty array, or a shape
mismatch).  `nrm` is the Euclidean norm.  The model computations (`sqpdfo_prelim.py` L435-L485) are assumed not to
raise, the initial multiplier and optimality (`sqpdfo_prelim.py` L563-L593) belong to the main part.  The call log of
a sampling that raises is not tracked. -/
def setup (U : User (List K) K) (sqrt : K → K) (nrm : List K → K) (fuel : ℕ)
    (a : Args K) (g : Globals K) : Setup K :=
  match checkArgs a g with
  | (.ret1, g) => ⟨.ret 1, g, a.opts, .empty⟩
  | (.raised, g) => ⟨.crash, g, a.opts, .empty⟩
  | (.ok r c x0 lb ub, g) =>
    match validate a.opts.dict with
    | .error (.rejected o) => ⟨.ret 1, g, a.opts.after o, .empty⟩
    | .error (.crash o) => ⟨.crash, g, a.opts.after o, .empty⟩
    | .ok o =>
      let oa := a.opts.after o
      if c ≠ 1 then ⟨.ret 1, g, oa, .empty⟩
      else if r < 1 then ⟨.ret 1, g, oa, .empty⟩
      else
        match lb, ub with
        | .col lb, .col ub =>
          match boundsPart r x0 lb ub with
          | none => ⟨.crash, g, oa, .empty⟩
          | some .flag2 => ⟨.ret 2, g, oa, .empty⟩
          | some (.ok Δ ys) =>
            if ys.any (·.2) then ⟨.crash, g, oa, .empty⟩
            else
              let x := ys.map (·.1)
              match initLoop U x (nrm x) fuel Δ ⟨[], [], [], 0, .nan, 0, .empty⟩ with
              | .crash => ⟨.crash, g, oa, .empty⟩
              | .running => ⟨.running, g, oa, .empty⟩
              | .failed s => ⟨.ret s.flag, g, oa, s.w⟩
              | .stalled s => ⟨.crash, g, oa, s.w⟩
              | .done Δ s =>
                if g.nbrSlacks > 0 then
                  match initSlacks sqrt g.nbrSlacks (firstCe s) ub with
                  | none => ⟨.crash, g, oa, s.w⟩
                  | some sl =>
                    ⟨.go ⟨o, Δ, s, lb, ub, g.nbrSlacks, sl⟩, { g with slacks := sl }, oa, s.w⟩
                else ⟨.go ⟨o, Δ, s, lb, ub, 0, []⟩, g, oa, s.w⟩
        | _, _ => ⟨.crash, g, oa, .empty⟩

/-- The result of a call of `optimize` (`sqpdfo.py` L377). -/
inductive OptRes (R : Type) where
  | ret (flag : ℕ)
  | crash
  | running
  | result (r : R)
deriving DecidableEq

/-- `optimize`: set-up followed by the main part, which is a parameter: any computation from
the data handed over, that may change the slack values (`set_slacks`), not their number
(`nbr_slacks` is only written by `sqpdfo.py` L145). -/
def optimize {R : Type} (main : MainIn K → R × List K) (U : User (List K) K) (sqrt : K → K)
    (nrm : List K → K) (fuel : ℕ) (a : Args K) (g : Globals K) : OptRes R × Globals K :=
  let s := setup U sqrt nrm fuel a g
  match s.res with
  | .ret fl => (.ret fl, s.g)
  | .crash => (.crash, s.g)
  | .running => (.running, s.g)
  | .go i =>
    let (r, sl) := main i
    (.result r, if s.g.nbrSlacks > 0 then { s.g with slacks := sl } else s.g)

end Sqpdfo
