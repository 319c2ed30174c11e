import Verif.Model.Fl
import Verif.Model.Status
import Mathlib.Algebra.Field.Defs
import Mathlib.Algebra.Order.Ring.Defs

/-!
# Evaluation of the user's functions

`/repo/sqpdfo/sqpdfo_func.py`, `/repo/sqpdfo/sqpdfo_evalfgh.py` (key 2) and
`/repo/sqpdfo/sqpdfo_augmX_evalf.py`.
-/

namespace Sqpdfo

/-- What a call of the user's objective can do: raise an exception, return a number, or
return something `numpy.isnan` cannot handle (for example `None`) (`sqpdfo_func.py` L31-L35). -/
inductive FOut (K : Type) where
  | raised
  | num (v : Fl K)
  | other

/-- What a call of the user's constraint function can do: raise (or return something that
`numpy.array(c).reshape(-1,1)` rejects), or return a list of numbers (`sqpdfo_func.py` L36-L41). -/
inductive COut (K : Type) where
  | raised
  | nums (vs : List (Fl K))

/-- The calls made so far to the user's functions (`sqpdfo_func.py` L31-L41). -/
structure World (P : Type) where
  logF : List P
  logC : List P

/-- The user's functions.  The answers may depend on all previous calls, so
non-deterministic user code is covered.  `c = none` is `cfunc == ''` (`sqpdfo_func.py` L22-L23, L31-L41). -/
structure User (P K : Type) where
  f : World P → P → FOut K
  c : Option (World P → P → COut K)

/-- Result of `sqpdfo_func_`: `msg` (truthy = error string), `f`, `c` (`sqpdfo_func.py` L42-L47). -/
structure SimOut (K : Type) where
  msg : Bool
  f : FOut K
  c : List (Fl K)

variable {P K : Type}

/-- `sqpdfo_func_` (`sqpdfo_func.py` L8-L47) and `sqpdfo_evalfgh_` with key 2
(`sqpdfo_evalfgh.py` L60-L65): both user functions are called once; an exception in `f`
gives `f = inf` and an error message, an exception in `c` gives an empty `c` and an error
message. -/
def sqpdfoFunc (U : User P K) (x : P) (w : World P) : SimOut K × World P :=
  let fo := U.f w x
  let w := { w with logF := w.logF ++ [x] }
  let (msgf, f) := match fo with
    | .raised => (true, FOut.num Fl.pinf)
    | o => (false, o)
  match U.c with
  | none => (⟨msgf, f, []⟩, w)
  | some cf =>
    let co := cf w x
    let w := { w with logC := w.logC ++ [x] }
    match co with
    | .raised => (⟨true, f, []⟩, w)
    | .nums vs => (⟨msgf, f, vs⟩, w)

/-- The data updated by `sqpdfo_augmX_evalf_`: stored points, recorded objective and
constraint values, `info.nsimul[1]`, `info.f`, `info.flag`, and the call log.  (`neval`
and the status vectors `xstatus`, `sstatus`, `dstatus` are not modelled: they are write-only
here.) (`sqpdfo_augmX_evalf.py` L56-L64, L187). -/
structure EvSt (P K : Type) where
  X : List P
  fX : List (Fl K)
  ceX : List (List (Fl K))
  nsimul : ℕ
  infoF : Fl K
  flag : ℕ
  w : World P

/-- `try: v[m] = a  except IndexError: v = append(v, a)` (`sqpdfo_augmX_evalf.py` L71-78, L164-167, L175-179; for
`X`, L91-94, the in-range case raises `ValueError` when n > 1, but every caller passes
`m` = number of columns). -/
def setOrAppend {α : Type} (v : List α) (m : ℕ) (a : α) : List α :=
  if m < v.length then v.set m a else v ++ [a]

variable [Field K] [LinearOrder K]

/-- `1e25`, the limit used for `fxmax` and constraint values (`sqpdfo_prelim.py` L358, `sqpdfo_augmX_evalf.py` L138-L139). -/
def big : K := 10 ^ 25

/-- `ce[ce > 1e25] = 1e25; ce[ce < -1e25] = -1e25` (`sqpdfo_augmX_evalf.py` L138-L139). -/
def clipCe (v : Fl K) : Fl K :=
  let v := if (Fl.fin big).lt v then .fin big else v
  if v.lt (.fin (-big)) then .fin (-big) else v

/-- `sqpdfo_augmX_evalf_` (`sqpdfo_augmX_evalf.py` L56-L187), for `nfix = 0` and `scaleX = 0` (the values used by
`sqpdfo.py` unless variables are fixed).  `none` = an exception escapes (`isnan` of a
non-number, `sqpdfo_augmX_evalf.py` L110).  The checks on `ci` and on the shape of `ce` (L148-L160) cannot fail,
because `ci` is the empty `dummy` and `ce` was reshaped to a column. `msg == 1` (L103) is never
true, because `msg` is 0 or a string. -/
def augmX (U : User P K) (fxmax : Fl K) (y : P) (m : ℕ) (s : EvSt P K) :
    Option (EvSt P K) :=
  let s := { s with X := setOrAppend s.X m y, nsimul := s.nsimul + 1 }
  let (o, w) := sqpdfoFunc U y s.w
  let s := { s with w := w }
  match o.f with
  | .other => none
  | .raised => none -- not produced by `sqpdfoFunc`
  | .num v =>
    let s := { s with infoF := v }
    if v.isNan then some { s with flag := Status.failOnSimul }
    else if v.isInf then some { s with flag := Status.failOnSimul }
    else if o.c.any Fl.isNan then some { s with flag := Status.failOnSimul }
    else
      let ce := o.c.map clipCe
      if o.msg then some { s with flag := Status.failOnSimul }
      else
        some { s with
          fX := setOrAppend s.fX m (fxmax.fmin v)
          ceX := if ce.isEmpty then s.ceX else setOrAppend s.ceX m ce }

/-- A sequence of evaluations at given points, each stored at the next free index, as done
by the callers (`sqpdfo_prelim.py`, `sqpdfo_main.py`: `m = m + 1` before each call);
evaluation stops when a failure is reported (`sqpdfo_prelim.py` L355-L359, `sqpdfo_main.py` L491-L520). -/
def evalSeq (U : User P K) (fxmax : Fl K) : List P → EvSt P K → Option (EvSt P K)
  | [], s => some s
  | y :: ys, s =>
    match augmX U fxmax y s.X.length s with
    | none => none
    | some s' => if s'.flag = Status.success then evalSeq U fxmax ys s' else some s'

end Sqpdfo
