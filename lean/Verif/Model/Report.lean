import Verif.Model.Whole

/-!
# The report at the end of a call

`/repo/sqpdfo/sqpdfo_finish.py` L12-L57 and `/repo/sqpdfo/sqpdfo.py` L343-L377.  Not modelled: the layout, the rounding to the printed number of
digits, and the multipliers in the tables.
-/

namespace Sqpdfo
variable {K F : Type} [Field K] [LinearOrder K]

/-- Where `fprintf_` writes for an integer file identifier (`runtime.py` L358-L364): screen, standard error output, or nowhere (then a warning
is printed instead of the text). -/
inductive Sink where
  | screen
  | err
  | nowhere
deriving DecidableEq

/-- `fprintf_` with an integer file identifier (`runtime.py` L358-L364). -/
def sinkOf (fout : Int) : Sink :=
  if fout = 1 then .screen else if fout = 2 then .err else .nowhere

/-- A line of the table of the variables (`sqpdfo.py` L353-L369): number, lower bound, value, upper bound.  Without any bound the values are
printed alone.  The entries are `none` beyond the end of a vector (in the code the vectors have `n` components). -/
structure VarRow (K : Type) where
  i : ℕ
  lb : Option K
  x : Option K
  ub : Option K
deriving DecidableEq

/-- The tables (`sqpdfo.py` L352-L376); `moreVars` and `moreCe`: the table ends with dots. -/
structure Tables (K : Type) where
  vars : List (VarRow K)
  moreVars : Bool
  ces : List (ℕ × Option (Fl K))
  moreCe : Bool
deriving DecidableEq

/-- The report (`sqpdfo_finish.py` L12-L57, `sqpdfo.py` L352-L376).  `feasn` is printed only if there are bounds or constraints. -/
structure Report (K : Type) where
  sink : Sink
  code : ℕ
  text : String
  f : K
  glagn : K
  feasn : Option K
  nit : ℕ
  evals : ℕ
  tables : Option (Tables K)
deriving DecidableEq

/-- The lines of the table of the variables (`sqpdfo.py` L353-L369). -/
def varRows (nb n : ℕ) (lb ub x : List K) : List (VarRow K) :=
  (List.range (min n 40)).map fun i => if nb ≠ 0 then ⟨i, lb[i]?, x[i]?, ub[i]?⟩ else ⟨i, none, x[i]?, none⟩

/-- The lines of the table of the constraints (`sqpdfo.py` L370-L376), `ceX[i, i_xbest]`. -/
def ceLines (me : ℕ) (ceX : List (List (Fl K))) (best : ℕ) : List (ℕ × Option (Fl K)) :=
  if me ≠ 0 then (List.range (min me 40)).map fun i => (i, (ceX[best]?).bind fun c => c[i]?) else []

/-- The report for the returned point `x` and the final state (`sqpdfo.py` L341-L376).  `info_best` is `info` with `f = fx` (L341-L342); the
number of evaluations is `nsimul[1] + nsimul[3]`, the second is never changed; `options.verbose` is an integer after the validation. -/
def report (o : Opts) (nb me n : ℕ) (lb ub x : List K) (t : MSt K F) : Option (Report K) :=
  match o.verbose, o.fout with
  | some v, some p =>
    if v ≥ 1 then
      some {
        sink := sinkOf p
        code := t.ev.flag
        text := Status.message t.ev.flag
        f := t.fx
        glagn := t.glagn
        feasn := if nb + me > 0 then some t.feasn else none
        nit := t.niter
        evals := t.ev.nsimul
        tables :=
          if v > 2 then
            some { vars := varRows nb n lb ub x, moreVars := decide (n > 40), ces := ceLines me t.ev.ceX t.ixbest,
                   moreCe := decide (me > 40) }
          else none }
    else none
  | _, _ => none

/-- The report of a call; only a regular end reaches it (`sqpdfo.py` L285-L291 returns before it). -/
def callReport (k : Kernels K F) (U : User (List K) K) (fuel : ℕ) (os : List (Orc K F)) (a : Args K) (ex : Extra) (g : Globals K) :
    Option (Report K) :=
  match (setup U k.sqrt k.nrm fuel a g).res, call k U fuel os a ex g with
  | .go i, .done x t =>
    report i.opts (nbBounds (infOf i.opts) (varBounds i)) (ceRows i.ev) (dimOf i.ev) i.lb i.ub x t
  | _, _ => none

end Sqpdfo
