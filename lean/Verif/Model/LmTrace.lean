import Verif.Model.History

/-!
# The multipliers in the main loop

The variable `lm` of `sqpdfo_main_` (`sqpdfo_main.py` L54, L256, L580, L696, L1057, L1480).  The functions compute its value while the
functions of `Model/Main.lean` compute the state.  `sqpdfo_compute_multiplier_` is a function `mu` of the iterate, of `info.g`, `info.ae`
and of the slacks; the bounds it is called with are built from the iterate and the constant bounds (`sqpdfo_main.py` L249-L254).  If it
fails, `mu` is the value returned together with the error.
-/

namespace Sqpdfo
variable {K F : Type} [Field K] [LinearOrder K]

/-- `sqpdfo_compute_multiplier_` with the bounds near the iterate (`sqpdfo_main.py` L249-L257; `sqpdfo_compute_multiplier.py` L37-L47). -/
abbrev Mult (K : Type) := List K → Grads K → List K → List K

/-- A call in the main loop (`sqpdfo_main.py` L256, L580). -/
def Mult.at (mu : Mult K) (s : MSt K F) : List K := mu s.x s.infoG s.sl

/-- The first half of a pass: convergence test and improvement of the set (`sqpdfo_main.py` L272-L639); see `pass`. -/
def firstHalf (e : Env K F) (o : Orc K F) (s : MSt K F) : PassRes K F :=
  if (s.glagn ≤ e.tolGrad ∧ s.feasn ≤ e.tolFeas ∧ s.compl ≤ e.tolBnds) ∨ s.delta < 1 / 10 ^ 10 ∨ s.pred = -1 then improve e o s
  else .cont s

/-- `lm` after the improvement of the set (`sqpdfo_main.py` L286-L639): the repaired set has new models, whose gradients are stored in
`info` (L562) before `lm` is computed (L580); the earlier exits (L316-L332, L452-L466) keep it. -/
def improveLm (e : Env K F) (mu : Mult K) (o : Orc K F) (s : MSt K F) (lm : List K) : List K :=
  if e.n + 1 ≤ s.cur then
    let pr := o.poisedness s.set.fac s.set.Y
    let s := { s with poised := pr.1, yradius := pr.2 }
    let errg := s.poised * s.yradius / cFactorCV
    if s.glagn ≤ e.tolGrad ∧ s.feasn ≤ e.tolFeas ∧ s.compl ≤ e.tolBnds ∧ errg ≤ cEps then lm
    else
      let s := { s with niter := s.niter + 1, epsCur := newEpsCur e s }
      let radius := repRadius s
      if tooSmall e s radius then lm
      else match repaired e o radius s with
        | .cont t => mu.at (t.newGx e).storeG
        | _ => lm
  else lm

/-- `lm` after the first half of a pass (`sqpdfo_main.py` L249-L639). -/
def firstLm (e : Env K F) (mu : Mult K) (o : Orc K F) (s : MSt K F) (lm : List K) : List K :=
  if (s.glagn ≤ e.tolGrad ∧ s.feasn ≤ e.tolFeas ∧ s.compl ≤ e.tolBnds) ∨ s.delta < 1 / 10 ^ 10 ∨ s.pred = -1 then improveLm e mu o s lm
  else lm

/-- The multipliers that the step computation gets (`sqpdfo_main.py` L249-L639, L699). -/
def handedLm (e : Env K F) (mu : Mult K) (o : Orc K F) (s : MSt K F) : List K :=
  let s := { s.measure o.k1 with ev := { s.ev with flag := Status.success } }
  firstLm e mu o s (mu.at s)

/-- `lm` after the decision about the trial point, which began with the gradients `old` in `info` and ended with `r`
(`sqpdfo_main.py` L845-L1490).  An accepted step (L1049-L1059) and a rejected one (L1474-L1482) compute `lm` at the new iterate before
`sqpdfo_computeHessian_` (L1064, L1487) stores the new gradients in `info`; `lm_computed` is always 0 (`sqpdfo_solve_TR_bc.py` L40).  If no
reduction is predicted (L1076-L1080) and for the returns (L864, L931, L1465) nothing is computed. -/
def decideLm (mu : Mult K) (old : Grads K) (lm : List K) : PassRes K F → List K
  | .cont t => if t.pred = -1 then lm else mu t.x old t.sl
  | _ => lm

/-- `lm` after the second half of a pass (`sqpdfo_main.py` L648-L1490).  `tl`: what the step computation makes of the multipliers it
gets; it returns others if it has looked for a bound to be released (`sqpdfo_solve_TR_bc.py` L442). -/
def stepLm (e : Env K F) (mu : Mult K) (tl : List K → List K) (o : Orc K F) (s : MSt K F) (lm : List K) : List K :=
  match globalise e s with
  | .cont s =>
    let s := { s with niter := s.niter + 1 }
    if o.tfail then tl lm
    else match (penalty o s).bind (evalTrial e o) with
      | .cont t => decideLm mu t.infoG (tl lm) (decideStep e o (stepNorm e o s) t)
      | _ => tl lm
  | _ => lm

/-- `lm` after a pass (`sqpdfo_main.py` L212-L1490): the returns for the limits (L216-L237) come before it is computed (L256). -/
def passLm (e : Env K F) (mu : Mult K) (tl : List K → List K) (o : Orc K F) (s : MSt K F) (lm : List K) : List K :=
  if e.miter.le (.fin s.niter) then lm
  else if e.msimul.le (.fin s.ev.nsimul) then lm
  else if o.k1.fail then mu.at s
  else
    match firstHalf e o { s.measure o.k1 with ev := { s.ev with flag := Status.success } } with
    | .cont t => stepLm e mu tl o t (handedLm e mu o s)
    | _ => handedLm e mu o s

/-- `lm` after some passes, and the value returned by `sqpdfo_main_` and `sqpdfo_` (`sqpdfo_main.py` L212-L1495; `sqpdfo.py` L377). -/
def mainLm (e : Env K F) (mu : Mult K) : List (Orc K F × (List K → List K)) → MSt K F → List K → List K
  | [], _, lm => lm
  | (o, tl) :: os, s, lm =>
    match pass e o s with
    | .cont t => mainLm e mu os t (passLm e mu tl o s lm)
    | _ => passLm e mu tl o s lm

end Sqpdfo
