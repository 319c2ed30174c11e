import Verif.Model.Fl
import Verif.Model.Status

/-!
# Option validation: `/repo/sqpdfo/sqpdfo_options.py`

The options object is a Python object with attributes; an attribute may be missing
(`isfield_`, `runtime.py` L424-L428).  Validation mutates (a copy of) the object.
-/

namespace Sqpdfo

/-- Value of an attribute on which the code calls `.lower().replace(" ", "")`: a Python
string, or something else (for example the integer code written by an earlier
validation), for which `.lower` raises `AttributeError` (`sqpdfo_options.py` L49, L133-L135, L148-L154, L167-L171). -/
inductive PyName where
  | str (s : List Char)
  | code (k : ℕ)
deriving DecidableEq

/-- The options object; `none` = attribute missing.  Attributes read by
`sqpdfo_options_`.  Simplification: `fout` and `verbose` are Python integers (other types
raise `TypeError` or fail inside `fprintf_`); numeric options are `Fl` (`sqpdfo_options.py` L32-L183). -/
structure Opts where
  fout : Option Int
  verbose : Option Int
  algoDescent : Option PyName
  dxmin : Option (Fl ℚ)
  inf : Option (Fl ℚ)
  miter : Option (Fl ℚ)
  msimul : Option (Fl ℚ)
  tolGrad : Option (Fl ℚ)
  tolFeas : Option (Fl ℚ)
  tolBnds : Option (Fl ℚ)
  hessApprox : Option PyName
  whichmodel : Option PyName
  finalDegree : Option PyName
deriving DecidableEq

/-- How `sqpdfo_options_` can end without accepting: `return` with
`info.flag = fail_on_argument` (carrying the object mutated so far), or an escaping
Python exception (`sqpdfo_options.py` L58-L59). -/
inductive OptFail where
  | rejected (o : Opts)
  | crash (o : Opts)
deriving DecidableEq

/-- `s.lower().replace(" ", "")` (`sqpdfo_options.py` L49, L133, L148, L167).
ASCII lower-casing: no non-ASCII character lower-cases into one of the words compared. -/
def normName (s : List Char) : List Char :=
  (s.map Char.toLower).filter (fun c => c ≠ ' ')

/-- Result of checking a single attribute (`sqpdfo_options.py` L58-L59). -/
inductive FieldFail where
  | reject
  | raises
deriving DecidableEq

/-- Checks of a named option: unknown names are rejected, a missing attribute takes the
default, a non-string raises.  `sqpdfo_options.py` L48-61, L132-145, L147-164, L166-181. -/
def checkName (table : List (String × ℕ)) (default : ℕ) :
    Option PyName → Except FieldFail ℕ
  | none => .ok default
  | some (.code _) => .error .raises
  | some (.str s) =>
    match table.find? (fun e => normName s = e.1.toList) with
    | some e => .ok e.2
    | none => .error .reject

/-- Options which must not be `<= 0`: `sqpdfo_options.py` L63-70, L72-79, L81-88, L90-97. -/
def checkPos (default : Fl ℚ) : Option (Fl ℚ) → Except FieldFail (Fl ℚ)
  | none => .ok default
  | some v => if v.le (.fin 0) then .error .reject else .ok v

/-- `1e-5` (`sqpdfo_options.py` L106-L108). -/
def defTol : Fl ℚ := .fin (1 / 100000)

/-- Tolerances: `< 0` is rejected, `== 0` replaced by `1e-5`:
`sqpdfo_options.py` L99-108, L110-119, L121-130. -/
def checkTol : Option (Fl ℚ) → Except FieldFail (Fl ℚ)
  | none => .ok defTol
  | some v =>
    if v.lt (.fin 0) then .error .reject
    else if v.eq (.fin 0) then .ok defTol else .ok v

/-- Attach the current object to a field failure (`sqpdfo_options.py` L58-L59). -/
def liftField {α : Type} (o : Opts) : Except FieldFail α → Except OptFail α
  | .ok a => .ok a
  | .error .reject => .error (.rejected o)
  | .error .raises => .error (.crash o)

/-- `fout`: `sqpdfo_options.py` L32-38. -/
def fixFout : Option Int → Int
  | some v => if v < 0 then 1 else v
  | none => 1

/-- `verbose`: `sqpdfo_options.py` L40-46. -/
def fixVerbose : Option Int → Int
  | some v => if v < 0 ∨ v > 6 then 1 else v
  | none => 1

/-- `sqpdfo_options.py` L48-61. -/
def algoTable : List (String × ℕ) := [("powell", Status.powell), ("wolfe", Status.wolfe)]
/-- `sqpdfo_options.py` L132-145. -/
def hessTable : List (String × ℕ) := [("bfgs", Status.bfgs), ("model", Status.model)]
/-- `sqpdfo_options.py` L147-164. -/
def modelTable : List (String × ℕ) :=
  [("subbasis", Status.subbasis), ("frobnorm", Status.frobnorm),
   ("l2norm", Status.l2norm), ("regression", Status.regression)]
/-- `sqpdfo_options.py` L166-181. -/
def degreeTable : List (String × ℕ) :=
  [("linear", Status.linear), ("diagonal", Status.diagonal), ("quadratic", Status.quadratic)]

/-- `sqpdfo_options_` (`sqpdfo_options.py` L9-L183): the sequence of checks in source
order.  `.ok o` is the return with `info.flag = success`. Messages are not modelled. -/
def validate (o : Opts) : Except OptFail Opts := do
  let o := { o with fout := some (fixFout o.fout) }
  let o := { o with verbose := some (fixVerbose o.verbose) }
  let a ← liftField o (checkName algoTable Status.powell o.algoDescent)
  let o := { o with algoDescent := some (.code a) }
  let v ← liftField o (checkPos (.fin (1 / 100000000)) o.dxmin)
  let o := { o with dxmin := some v }
  let v ← liftField o (checkPos .pinf o.inf)
  let o := { o with inf := some v }
  let v ← liftField o (checkPos (.fin 1000) o.miter)
  let o := { o with miter := some v }
  let v ← liftField o (checkPos (.fin 1000) o.msimul)
  let o := { o with msimul := some v }
  let v ← liftField o (checkTol o.tolGrad)
  let o := { o with tolGrad := some v }
  let v ← liftField o (checkTol o.tolFeas)
  let o := { o with tolFeas := some v }
  let v ← liftField o (checkTol o.tolBnds)
  let o := { o with tolBnds := some v }
  let a ← liftField o (checkName hessTable Status.model o.hessApprox)
  let o := { o with hessApprox := some (.code a) }
  let a ← liftField o (checkName modelTable Status.subbasis o.whichmodel)
  let o := { o with whichmodel := some (.code a) }
  let a ← liftField o (checkName degreeTable Status.diagonal o.finalDegree)
  let o := { o with finalDegree := some (.code a) }
  return o

/-- An object without any attribute (`options_ is None`, `sqpdfo_options.py` L16-18). -/
def Opts.empty : Opts :=
  ⟨none, none, none, none, none, none, none, none, none, none, none, none, none⟩

end Sqpdfo
