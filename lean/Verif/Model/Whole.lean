import Verif.Model.Entry
import Verif.Model.Main
import Verif.Model.Multiplier
import Mathlib.Data.Rat.Cast.Defs

/-!
# A whole call of `optimize`

`/repo/sqpdfo/sqpdfo.py` L76-L377: set-up (`Model/Entry.lean`), what the end of `sqpdfo_prelim_` reads of the options (initial
printing and initial optimality, `sqpdfo_prelim.py` L501-L617), main loop (`Model/Main.lean`), results.
-/

namespace Sqpdfo
variable {K F : Type} [Field K] [LinearOrder K]

/-- Attributes of the options object that the code reads although `sqpdfo_options_` neither checks them nor sets a default: `tol`
(`sqpdfo_prelim.py` L550), `df1` (L557), `bfgs_restart` (`sqpdfo_computeHessian.py` L58-L59).  `true`: the user has set the attribute (to
something usable). -/
structure Extra where
  tol : Bool
  df1 : Bool
  bfgsRestart : Bool
deriving DecidableEq

/-- Exceptions at a read of an option after the validation (`sqpdfo_prelim.py` L546-L561). -/
inductive LateRaise where
  /-- `AttributeError` at `options.tol[0]` (`sqpdfo_prelim.py` L550) -/
  | tol
  /-- `'%4i' % options.miter` for NaN or infinity (`sqpdfo_prelim.py` L552) -/
  | miter
  /-- `'%4i' % options.msimul` for NaN or infinity (`sqpdfo_prelim.py` L553) -/
  | msimul
  /-- `AttributeError` at `options.df1` (`sqpdfo_prelim.py` L557) -/
  | df1
  /-- `IndexError`: without bounds and constraints there are no multipliers (`lm0 = array([])`, `sqpdfo.py` L182), but the initial
  optimality reads them (`sqpdfo_optimality.py` L37-L41) -/
  | lm
  /-- `AttributeError` at `options.bfgs_restart` (`sqpdfo_computeHessian.py` L58) -/
  | bfgsRestart
deriving DecidableEq

/-- A finite number (`sqpdfo_prelim.py` L552-L553). -/
def Fl.isFin {K : Type} : Fl K → Bool
  | .fin _ => true
  | _ => false

/-- The options are numbers of `K` in the comparisons with values of the run (`sqpdfo_main.py` L283-L284). -/
def Fl.cast : Fl ℚ → Fl K
  | .nan => .nan
  | .pinf => .pinf
  | .ninf => .ninf
  | .fin q => .fin (q : K)

/-- `options.verbose >= 4` after the validation (`sqpdfo_prelim.py` L530). -/
def Opts.verbose4 (o : Opts) : Bool :=
  match o.verbose with
  | some v => decide (4 ≤ v)
  | none => false

/-- `'%4i' % v` raises `OverflowError` or `ValueError` for infinities and NaN (`sqpdfo_prelim.py` L552-L553). -/
def printsAsInt : Option (Fl ℚ) → Bool
  | some v => v.isFin
  | none => false

/-- The number of variables with a bound (`sqpdfo_prelim.py` L163): a lower bound above `-options.inf` or an upper bound below
`options.inf`.  `bs` are the bounds of the variables. -/
def nbBounds (inf : Fl K) (bs : List (K × K)) : ℕ :=
  bs.countP fun b => inf.neg.lt (.fin b.1) || (Fl.fin b.2).lt inf

/-- Some component of the start point is within `1e-5` of a bound (`sqpdfo_optimality.py` L30). -/
def nearAny (bs : List (K × K)) (x : List K) : Bool :=
  (List.zip bs x).any fun p => decide (|p.1.1 - p.2| < 1 / 100000) || decide (|p.1.2 - p.2| < 1 / 100000)

/-- The reads of the options in the initial printing (`sqpdfo_prelim.py` L529-L561) and the initial optimality (L576-L577), in the order of
the code; `mi = 0` (L459).  There is at least one variable. -/
def lateRaise (o : Opts) (ex : Extra) (nb me : ℕ) (near : Bool) : Option LateRaise :=
  if o.verbose4 then
    if nb + me = 0 ∧ ex.tol = false then some .tol
    else if printsAsInt o.miter = false then some .miter
    else if printsAsInt o.msimul = false then some .msimul
    else if nb + me = 0 ∧ ex.df1 = false then some .df1
    else if nb + me = 0 then some .lm
    else none
  else if nb + me = 0 ∧ near = true then some .lm
  else none

/-- The read of the options in `sqpdfo_computeHessian_` (`sqpdfo_computeHessian.py` L34-L58, `null_step` is 0). -/
def hessRaise (o : Opts) (ex : Extra) : Option LateRaise :=
  if o.hessApprox = some (.code Status.bfgs) ∧ ex.bfgsRestart = false then some .bfgsRestart else none

/-- The numerical kernels of a run (`sqpdfo_main.py` L1-L25). -/
structure Kernels (K F : Type) where
  nrm : List K → K
  sqrt : K → K
  trunc : K → K
  order : List K → List ℕ
  build : List (List K) → F
  model : F → List K → List K → List (List K) → Grads K

/-- `options.final_degree` after the validation (`sqpdfo_main.py` L199-L204). -/
def finalDegOf : Option PyName → Option FinalDeg
  | some (.code k) =>
    if k = Status.quadratic then some .quadratic
    else if k = Status.diagonal then some .diagonal
    else if k = Status.linear then some .linear
    else none
  | _ => none

/-- A tolerance as a number; the main loop is modelled for finite tolerances only (`sqpdfo_main.py` L283-L284). -/
def tolOf : Option (Fl ℚ) → Option K
  | some (.fin q) => some (q : K)
  | _ => none

/-- The number of rows of `ceX` (`sqpdfo_prelim.py` L473). -/
def ceRows (ev : EvSt (List K) K) : ℕ :=
  match ev.ceX with
  | [] => 0
  | c :: _ => c.length

/-- The number of variables, length of the first evaluated point (`sqpdfo_prelim.py` L137). -/
def dimOf (ev : EvSt (List K) K) : ℕ :=
  match ev.X with
  | [] => 0
  | x :: _ => x.length

/-- What the main loop is given (`sqpdfo.py` L275-L319, `sqpdfo_main.py` L134-L210).  `none`: a tolerance is not a finite number, or the
BFGS mode without the attribute `bfgs_restart` (outside of the model of the loop). -/
def envOf (k : Kernels K F) (U : User (List K) K) (ex : Extra) (i : MainIn K) : Option (Env K F) :=
  match tolOf i.opts.tolGrad, tolOf i.opts.tolFeas, tolOf i.opts.tolBnds, i.opts.miter, i.opts.msimul,
    finalDegOf i.opts.finalDegree, hessRaise i.opts ex with
  | some tg, some tf, some tb, some mi, some ms, some fd, none => some {
      miter := mi.cast
      msimul := ms.cast
      tolGrad := tg
      tolFeas := tf
      tolBnds := tb
      verbose4 := i.opts.verbose4
      n := dimOf i.ev
      me := ceRows i.ev
      ns := i.nbrSlacks
      finalDeg := fd
      regression := decide (i.opts.whichmodel = some (.code Status.regression))
      lb := i.lb
      ub := i.ub
      nrm := k.nrm
      sqrt := k.sqrt
      trunc := k.trunc
      order := k.order
      build := k.build
      model := k.model
      U := U }
  | _, _, _, _, _, _, _ => none

/-- How a call ends (`sqpdfo.py` L275-L377). -/
inductive CallRes (K F : Type) where
  /-- `return` from the set-up with this status and these calls of the user's functions -/
  | early (flag : ℕ) (w : World (List K))
  /-- an exception escapes from the set-up or from the end of `sqpdfo_prelim_` -/
  | raised
  /-- an exception escapes from the main loop -/
  | crash (c : Crash)
  /-- not a result of the code: the given number of passes is used up -/
  | running
  /-- outside of the model of the loop (`envOf`) -/
  | outside
  /-- regular end: returned point `X[:,i_xbest]` and final state (`sqpdfo.py` L306-L343) -/
  | done (x : List K) (s : MSt K F)

/-- The bounds of the variables (`sqpdfo_prelim.py` L161-L163). -/
def varBounds (i : MainIn K) : List (K × K) := (List.zip i.lb i.ub).take (dimOf i.ev)

/-- `options.inf` after the validation (`sqpdfo_prelim.py` L161-L163). -/
def infOf (o : Opts) : Fl K :=
  match o.inf with
  | some v => v.cast
  | none => .pinf

/-- The exception, if any, between sampling and main loop (`sqpdfo_prelim.py` L530-L614). -/
def prelimRaise (ex : Extra) (i : MainIn K) : Option LateRaise :=
  lateRaise i.opts ex (nbBounds (infOf i.opts) (varBounds i)) (ceRows i.ev)
    (match i.ev.X with
      | [] => false
      | x :: _ => nearAny (varBounds i) x)

/-- The main part, from the data of the set-up (`sqpdfo.py` L292-L345). -/
def runMain (k : Kernels K F) (U : User (List K) K) (ex : Extra) (os : List (Orc K F)) (i : MainIn K) : CallRes K F :=
  match prelimRaise ex i with
  | some _ => .raised
  | none =>
    match envOf k U ex i with
    | none => .outside
    | some e =>
      match mainInit e i.Δ i.slacks i.ev with
      | none => .raised
      | some s0 =>
        match mainLoop e os s0 with
        | .running _ => .running
        | .crash c => .crash c
        | .done t =>
          match t.ev.X[t.ixbest]? with
          | none => .crash .index
          | some x => .done x t

/-- A whole call: at most `fuel` rounds of sampling, one oracle of kernel results per pass of the main loop (`sqpdfo.py` L76-L377). -/
def call (k : Kernels K F) (U : User (List K) K) (fuel : ℕ) (os : List (Orc K F)) (a : Args K) (ex : Extra) (g : Globals K) :
    CallRes K F :=
  let s := setup U k.sqrt k.nrm fuel a g
  match s.res with
  | .ret fl => .early fl s.w
  | .crash => .raised
  | .running => .running
  | .go i => runMain k U ex os i

end Sqpdfo
