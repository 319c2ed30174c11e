import Verif.Model.Whole

/-!
# The file `convhist.m`

`/repo/sqpdfo/sqpdfo_iter_printout.py` and its calls in `/repo/sqpdfo/sqpdfo_main.py`; header and end of the file in
`/repo/sqpdfo/sqpdfo.py` L268-L289, L323-L327.  The functions list the lines that are appended to the file while the functions of
`Model/Main.lean` compute.  The file can be opened and written (`fopen_` returns -1 otherwise and nothing is written).
-/

namespace Sqpdfo
variable {K F : Type} [Field K] [LinearOrder K]

/-- A line of the file (`sqpdfo_iter_printout.py` L14-L29): `info.niter`, `info.nsimul[1]` (`info.nsimul[3]` is never changed), `info.f`,
`info.glagn`, `info.feasn` (the last one only for constrained problems).  The column `merit` is not modelled, and the numbers are not
rounded to the printed digits. -/
structure HLine (K : Type) where
  niter : ℕ
  nsimul : ℕ
  f : Fl K
  glagn : K
  feasn : K
deriving DecidableEq

/-- What `sqpdfo_iter_printout_` writes (`sqpdfo_iter_printout.py` L14-L29). -/
def MSt.line (s : MSt K F) : HLine K := ⟨s.niter, s.ev.nsimul, s.ev.infoF, s.glagn, s.feasn⟩

/-- The state before the second convergence test (`sqpdfo_main.py` L468-L565), see `repairStage`. -/
def repaired (e : Env K F) (o : Orc K F) (radius : K) (s : MSt K F) : PassRes K F :=
  let fpr : K := if o.normgx ≤ cEps ∨ s.pred = -1 then 1 else 10
  let r := repairY e.dist e.build o.propose (6 / 5) (fpr * (1 + cEpsL) * radius)
    (e.order (dists e.dist s.set.Y)) s.set.Y s.set.fac
  let pr := if e.verbose4 then o.poisedness r.st.fac r.st.Y else (r.maximprove, r.radius)
  let s := { s with
    set := { s.set with Y := r.st.Y, fac := r.st.fac }
    poised := pr.1
    yradius := pr.2
    poisedModel := true }
  (evalReplaced e r.st.replaced s).bind (callSmallf e)

/-- Lines of the second convergence test (`sqpdfo_main.py` L588-L625). -/
def improveEndLines (e : Env K F) (k : Meas K) (s : MSt K F) : List (HLine K) :=
  if k.fail then []
  else
    let s := s.measure k
    let errg := s.poised * s.yradius / cFactorCV
    if s.glagn / cFactorCV ≤ e.tolGrad ∧ s.feasn / cFactorCV ≤ e.tolFeas ∧
        s.compl / cFactorCV ≤ e.tolBnds ∧ errg ≤ cEps ∧ e.n + 1 ≤ s.cur then
      [{ s with niter := s.niter + 1 }.line]
    else []

/-- Lines of the improvement of the set (`sqpdfo_main.py` L316-L341, L452-L462, L588-L625). -/
def improveLines (e : Env K F) (o : Orc K F) (s : MSt K F) : List (HLine K) :=
  if e.n + 1 ≤ s.cur then
    let pr := o.poisedness s.set.fac s.set.Y
    let s := { s with poised := pr.1, yradius := pr.2 }
    let errg := s.poised * s.yradius / cFactorCV
    if s.glagn ≤ e.tolGrad ∧ s.feasn ≤ e.tolFeas ∧ s.compl ≤ e.tolBnds ∧ errg ≤ cEps then
      [{ s with niter := s.niter + 1 }.line]
    else
      let s := { s with niter := s.niter + 1, epsCur := newEpsCur e s }
      let radius := repRadius s
      s.line :: (if tooSmall e s radius then [s.line]
        else match repaired e o radius s with
          | .cont t => improveEndLines e o.k2 (t.newGx e).storeG
          | _ => [])
  else []

/-- Lines of the decision about the trial point: only the return because of a small radius writes one, with the final state
(`sqpdfo_main.py` L1451-L1460). -/
def decideLines : PassRes K F → List (HLine K)
  | .ret t => if t.ev.flag = Status.stopOnSmallTR then [t.line] else []
  | _ => []

/-- Lines of the step (`sqpdfo_main.py` L672-L679, L1451-L1460). -/
def stepLines (e : Env K F) (o : Orc K F) (s : MSt K F) : List (HLine K) :=
  match globalise e s with
  | .cont s =>
    let s := { s with niter := s.niter + 1 }
    s.line :: (if o.tfail then []
      else match (penalty o s).bind (evalTrial e o) with
        | .cont t => decideLines (decideStep e o (stepNorm e o s) t)
        | _ => [])
  | _ => []

/-- Lines of a pass (`sqpdfo_main.py` L212-L1490). -/
def passLines (e : Env K F) (o : Orc K F) (s : MSt K F) : List (HLine K) :=
  if e.miter.le (.fin s.niter) then [s.line]
  else if e.msimul.le (.fin s.ev.nsimul) then [s.line]
  else if o.k1.fail then []
  else
    let s := { s.measure o.k1 with ev := { s.ev with flag := Status.success } }
    if (s.glagn ≤ e.tolGrad ∧ s.feasn ≤ e.tolFeas ∧ s.compl ≤ e.tolBnds) ∨
        s.delta < 1 / 10 ^ 10 ∨ s.pred = -1 then
      improveLines e o s ++ match improve e o s with
        | .cont s => stepLines e o s
        | _ => []
    else stepLines e o s

/-- Lines of the main loop (`sqpdfo_main.py` L212-L1495). -/
def mainLines (e : Env K F) : List (Orc K F) → MSt K F → List (HLine K)
  | [], _ => []
  | o :: os, s => passLines e o s ++ match pass e o s with
    | .cont s => mainLines e os s
    | _ => []

/-- The new content of the file: the header (`sqpdfo.py` L269-L272), these lines, and the closing bracket (L285-L289, L323-L327) if
`closed`. -/
structure HFile (K : Type) where
  lines : List (HLine K)
  closed : Bool

/-- `options.verbose < 4 and options.verbose >= 1` (`sqpdfo_iter_printout.py` L11). -/
def Opts.prints (o : Opts) : Bool :=
  match o.verbose with
  | some v => decide (1 ≤ v ∧ v < 4)
  | none => false

/-- The file after a call (`sqpdfo.py` L76-L327); `none`: it is left alone.  The local variable `verbose`, which decides about header and
closing bracket, is always 1 (`sqpdfo.py` L212). -/
def callFile (k : Kernels K F) (U : User (List K) K) (fuel : ℕ) (os : List (Orc K F)) (a : Args K) (ex : Extra) (g : Globals K) :
    Option (HFile K) :=
  match (checkArgs a g).1 with
  | .ret1 => none
  | .raised => none
  | .ok .. =>
    match (setup U k.sqrt k.nrm fuel a g).res with
    | .ret _ => some ⟨[], true⟩
    | .crash => some ⟨[], false⟩
    | .running => some ⟨[], false⟩
    | .go i =>
      match prelimRaise ex i, envOf k U ex i with
      | none, some e =>
        match mainInit e i.Δ i.slacks i.ev with
        | none => some ⟨[], false⟩
        | some s0 => some ⟨if i.opts.prints then mainLines e os s0 else [],
            match mainLoop e os s0 with
            | .done _ => true
            | _ => false⟩
      | _, _ => some ⟨[], false⟩

end Sqpdfo
