import Verif.Model.Eval
import Verif.Model.InitSet
import Verif.Model.InterpSet

/-! # The main loop

`sqpdfo_main_` (`sqpdfo_main.py` L28-L1494).  One pass of `while 1` is `pass`; the loop is
`mainLoop`.

Everything that decides about the interpolation data, the counters, the radius, the penalty
parameter and the exits is modelled.  Numerical results that only enter as numbers (norms of
the optimality measures, the trial step, predicted reductions, values of Lagrange polynomials,
proposals for improvement points) come from an oracle `Orc` that may be different in each pass
and is arbitrary.  Printing is dropped, except that the branch `options.verbose >= 4` that
changes the state is kept.  All variables are free (`nfix = 0`), `scaleX = 0`, `shift_Y = 1`,
`hardcons = 0`, `lSolver = 1`, `interpol_TR = 1`, `shrink_Delta = 1`, as set in `sqpdfo.py`;
`mi = 0`, since inequalities are turned into equalities with slacks (`sqpdfo.py` L130-L148).  Arithmetic is exact: the exit
for an infinite merit value (`sqpdfo_main.py` L856-L864) does not occur, and `xplus = x + s` (L765) is `xnew`.
`retval` (L798) is 0 whenever `info.flag` is 0. The model gradients are part of the state; they are recomputed by a
kernel at the places where the code does it.  Multipliers and Hessians enter only through the oracle; the flags
set while computing them at the end of a pass are overwritten at the top of the next one (L217, L229, L256). -/

namespace Sqpdfo
variable {K F : Type} [Field K] [LinearOrder K]

/-! ### Constants (`sqpdfo.py` L155-L259) -/

/-- `epsilon` (`sqpdfo.py` L209). -/
def cEps : K := 1 / 10 ^ 5
/-- `eta1` (`sqpdfo.py` L215). -/
def cEta1 : K := 1 / 10 ^ 4
/-- `eta2` (`sqpdfo.py` L216). -/
def cEta2 : K := 9 / 10
/-- `gamma1` (`sqpdfo.py` L217). -/
def cGamma1 : K := 1 / 100
/-- `gamma2` (`sqpdfo.py` L218). -/
def cGamma2 : K := 1 / 2
/-- `Deltamax` (`sqpdfo.py` L199, L206, L259). -/
def cDeltamax : K := 10 ^ 5
/-- `mu` (`sqpdfo.py` L234). -/
def cMu : K := 1 / 10
/-- `eps_TR` (`sqpdfo.py` L236). -/
def cEpsTR : K := 1 / 10 ^ 4
/-- `eps_L` (`sqpdfo.py` L237). -/
def cEpsL : K := 1 / 10 ^ 3
/-- `factor_CV` (`sqpdfo.py` L221). -/
def cFactorCV : K := 100
/-- `rho_factor` (`sqpdfo_main.py` L143). -/
def cRhoFactor : K := 3 / 10

/-- `options.final_degree` (`sqpdfo_main.py` L199-L204). -/
inductive FinalDeg where
  | linear
  | diagonal
  | quadratic
deriving DecidableEq

/-- Gradients of the models of the objective and of the constraints (`gx`, `gce`) (`sqpdfo_main.py` L547-L557). -/
structure Grads (K : Type) where
  g : List K
  a : List (List K)
deriving DecidableEq

/-- What stays fixed during a run: options, dimensions, bounds, the user's functions, and the
kernels `norm_`, `sqrt_`, `int`, sorting (`argsort`, decreasing), the factorisation, and the gradients of
the models (`sqpdfo_main.py` L28-L43, L139-L204). -/
structure Env (K F : Type) where
  miter : Fl K
  msimul : Fl K
  tolGrad : K
  tolFeas : K
  tolBnds : K
  /-- `options.verbose >= 4` -/
  verbose4 : Bool
  n : ℕ
  /-- number of rows of `ceX`: equalities and inequalities with slacks -/
  me : ℕ
  /-- `nbr_slacks` -/
  ns : ℕ
  finalDeg : FinalDeg
  /-- `whichmodel == 3` -/
  regression : Bool
  lb : List K
  ub : List K
  nrm : List K → K
  sqrt : K → K
  trunc : K → K
  order : List K → List ℕ
  build : List (List K) → F
  /-- gradients at the base point of the models computed from the factorisation, the base point, `fY` and `ceY`
  (`bcdfo_computeP_`, `bcdfo_gradP_`; of the further arguments of `bcdfo_computeP_` the models in use do not
  depend) -/
  model : F → List K → List K → List (List K) → Grads K
  U : User (List K) K

/-- `pfinal` (`sqpdfo_main.py` L199-L204). -/
def Env.pfinal (e : Env K F) : ℕ :=
  match e.finalDeg with
  | .linear => e.n + 1
  | .diagonal => 2 * e.n + 1
  | .quadratic => (e.n + 1) * (e.n + 2) / 2

/-- `norm_(y - z)` (`sqpdfo_main.py` L1170-L1190). -/
def Env.dist (e : Env K F) (y z : List K) : K := e.nrm (List.zipWith (· - ·) y z)

/-- The norms of the optimality measures after `sqpdfo_compute_multiplier_` and
`sqpdfo_optimality_`; `fail`: `info.flag` is nonzero (the only value set there is 30) (`sqpdfo_main.py` L256-L269). -/
structure Meas (K : Type) where
  fail : Bool
  glagn : K
  feasn : K
  compl : K

/-- The numerical results used in one pass (`sqpdfo_main.py` L212-L1495). -/
structure Orc (K F : Type) where
  /-- measures at the top of the pass (`sqpdfo_main.py` L256-L269) -/
  k1 : Meas K
  /-- `normgx` -/
  normgx : K
  /-- `bcdfo_poisedness_Y_` -/
  poisedness : F → List (List K) → K × K
  /-- `bcdfo_find_new_yj_` -/
  propose : F → List (List K) → ℕ → List K × K
  /-- measures after the improvement of the set (`sqpdfo_main.py` L580-L595) -/
  k2 : Meas K
  /-- `sqpdfo_solve_TR_bc_` reports 30 -/
  tfail : Bool
  /-- trial point `xnew` -/
  xnew : List K
  /-- `rpred` -/
  rpred : K
  /-- `active_r or active_t` -/
  active : Bool
  /-- trial slacks `slplus` -/
  slplus : List K
  /-- `qcost` (`sqpdfo_main.py` L729) -/
  qcost : K
  /-- `gx.T.dot(s)` (`sqpdfo_main.py` L761) -/
  gTs : K
  /-- values of the Lagrange polynomials at the trial point, for the three possible calls of
  `bcdfo_include_in_Y_` -/
  lval1 : ℕ → K
  lval2 : ℕ → K
  lval3 : ℕ → K

/-- The variables that live across passes (`sqpdfo_main.py` L139-L210). -/
structure MSt (K F : Type) where
  niter : ℕ
  /-- history, `info.nsimul[1]`, `info.f`, `info.flag`, log of the user calls -/
  ev : EvSt (List K) K
  m : ℕ
  /-- `Y`, `ind_Y`, `fY`, `ciY` (empty), `ceY`, `QZ/RZ/scale` -/
  set : IntSet (List K) (List K) F K
  /-- `cur_degree` -/
  cur : ℕ
  x : List K
  fx : K
  ixbest : ℕ
  delta : K
  sigma : K
  pred : K
  epsCur : K
  /-- `radius_has_been_rejected` -/
  rejected : Bool
  poisedModel : Bool
  f0 : K
  ce0n : K
  merit0 : K
  glagn : K
  feasn : K
  compl : K
  poised : K
  yradius : K
  /-- `info.ce` -/
  infoCe : List K
  /-- `ceplus`, kept from an earlier pass if `ceX` has no nonzero entry -/
  ceplus : List K
  /-- slacks `sl` -/
  sl : List K
  /-- `gx`, `gce` -/
  gx : Grads K
  /-- `info.g`, `info.ae`, set by `sqpdfo_computeHessian_` -/
  infoG : Grads K

/-- Exceptions that escape (`sqpdfo_main.py` L212-L1495). -/
inductive Crash where
  /-- `isnan` of something that is not a number (`sqpdfo_augmX_evalf.py` L110) -/
  | nonNumber
  /-- `fX[m]` after a failed evaluation of an improvement point (`sqpdfo_main.py` L514) -/
  | improvementFailed
  /-- wrong shapes or empty arrays in the constraint data -/
  | ceShape
  /-- an index error in the interpolation data -/
  | index
  /-- arithmetic with a recorded value that is not a number -/
  | value
  /-- the branch with random points (`sqpdfo_main.py` L384-L430); not modelled further, never reached (C49) -/
  | randomBranch
deriving DecidableEq

/-- How a pass, or a part of it, ends (`sqpdfo_main.py` L212-L1495). -/
inductive PassRes (K F : Type) where
  | cont (s : MSt K F)
  | ret (s : MSt K F)
  | crash (c : Crash)

/-- Sequencing (`sqpdfo_main.py` L212-L1495). -/
def PassRes.bind (r : PassRes K F) (k : MSt K F → PassRes K F) : PassRes K F :=
  match r with
  | .cont s => k s
  | .ret s => .ret s
  | .crash c => .crash c

/-- `return` with a status (`sqpdfo_main.py` L216-L225). -/
def MSt.stop (s : MSt K F) (flag : ℕ) : PassRes K F := .ret { s with ev := { s.ev with flag := flag } }

/-- A finite value (`sqpdfo_main.py` L657). -/
def Fl.val? : Fl K → Option K
  | .fin q => some q
  | _ => none

/-- A column of recorded constraint values as numbers (`sqpdfo_main.py` L157-L162). -/
def colK (c : List (Fl K)) : Option (List K) := c.mapM Fl.val?

/-- `ce - concatenate((zeros((len(ce)-nbr_slacks,1)),sl**2))` if there are slacks, else `ce`
(`sqpdfo_main.py` L158-L162, L651-L655, L850-L854); `none`: the shapes do not fit. -/
def resid (ns : ℕ) (ce sl : List K) : Option (List K) :=
  if ns = 0 then some ce
  else if ce.length < ns ∨ sl.length ≠ ns then none
  else some (List.zipWith (· - ·) ce (List.replicate (ce.length - ns) 0 ++ sl.map (· ^ 2)))

/-- The norm of the residual (`sqpdfo_main.py` L158-L162, L657). -/
def Env.resNorm (e : Env K F) (ce sl : List K) : Option K := (resid e.ns ce sl).map e.nrm

/-- The gradients of the models of the current set: `bcdfo_computeP_` and `bcdfo_gradP_` (`sqpdfo_main.py` L541-L557, L1009-L1030,
L1130-L1150, L1278-L1301, L1400-L1423). -/
def MSt.newGx (e : Env K F) (s : MSt K F) : MSt K F :=
  { s with gx := e.model s.set.fac s.x s.set.fY s.set.ceY }

/-- `sqpdfo_computeHessian_` (`sqpdfo_computeHessian.py` L47-L49, L78-L80) stores the gradients in `info`; the matrix `M` is not
modelled here. -/
def MSt.storeG (s : MSt K F) : MSt K F := { s with infoG := s.gx }

/-! ### Improvement of the interpolation set -/

/-- `eps_current` (`sqpdfo_main.py` L354-L365). -/
def newEpsCur (e : Env K F) (s : MSt K F) : K :=
  if s.pred = -1 then
    if s.feasn > e.tolFeas then cMu * s.delta else min (cMu * s.epsCur) cEps
  else cEps

/-- `radius` (`sqpdfo_main.py` L439-L447). -/
def repRadius (s : MSt K F) : K :=
  if s.pred = -1 then min s.delta s.epsCur
  else if s.glagn ≤ cFactorCV * cEps then min s.delta cEps
  else max s.delta s.epsCur

/-- `radius < stallfact * norm_(x) or radius < epsilon * 1e-5` (`sqpdfo_main.py` L452, L1451). -/
def tooSmall (e : Env K F) (s : MSt K F) (r : K) : Prop :=
  r < stallfact * e.nrm s.x ∨ r < cEps * (1 / 10 ^ 5)

instance (e : Env K F) (s : MSt K F) (r : K) : Decidable (tooSmall e s r) := by
  unfold tooSmall; infer_instance

/-- Evaluation of the replaced points (`sqpdfo_main.py` L491-L530).  The status of the evaluation is not tested
(`msg=='Error'` is never true); after a failure `fX[m]` raises. -/
def evalReplaced (e : Env K F) : List ℕ → MSt K F → PassRes K F
  | [], s => .cont s
  | j :: js, s =>
    match s.set.Y[j]?, s.set.ind[j]? with
    | some y, some _ =>
      let m := s.m + 1
      match augmX e.U (.fin big) y m s.ev with
      | none => .crash .nonNumber
      | some ev =>
        match ev.fX[m]? with
        | none => .crash .improvementFailed
        | some v =>
          match v.val? with
          | none => .crash .value
          | some v =>
            let s := { s with
              m := m
              ev := ev
              poisedModel := false
              set := { s.set with ind := s.set.ind.set j m, fY := s.set.fY.set j v } }
            if e.me > 0 then
              match (ev.ceX[m]?).bind colK with
              | none => .crash .ceShape
              | some c =>
                evalReplaced e js { s with set := { s.set with ceY := s.set.ceY.set j c } }
            else evalReplaced e js s
    | _, _ => .crash .index

/-- `ceY.any()`: some entry is nonzero (`sqpdfo_main.py` L789). -/
def anyNonzero (ce : List (List K)) : Bool := ce.any fun c => c.any fun v => decide (v ≠ 0)

/-- The call of `sqpdfo_find_smallf_` (`sqpdfo_main.py` L535-L538). -/
def callSmallf (e : Env K F) (s : MSt K F) : PassRes K F :=
  match (if anyNonzero s.set.ceY then s.set.ceY.mapM (fun c => e.resNorm c s.sl)
      else some (s.set.Y.map fun _ => 0)) with
  | none => .crash .ceShape
  | some nrms =>
    let merit := meritY e.trunc s.sigma (anyNonzero s.set.ceY) s.set.fY nrms
    let choice := smallfChoice merit (indInside e.lb e.ub s.set.Y)
    match findSmallf e.build choice ⟨s.set, s.fx, s.ixbest, s.fx⟩ with
    | none => .crash .index
    | some t =>
      match t.s.Y[0]? with
      | none => .crash .index
      | some x0 => .cont { s with
          set := t.s
          fx := t.fx
          ixbest := t.ixbest
          x := if choice.isSome then x0 else s.x
          ev := { s.ev with infoF := .fin t.infoF }
          infoCe := match t.s.ceY[0]? with
            | some c => c
            | none => s.infoCe }

/-- Store the measures in `info` (`sqpdfo_main.py` L267-L269, L593-L595). -/
def MSt.measure (s : MSt K F) (k : Meas K) : MSt K F :=
  { s with glagn := k.glagn, feasn := k.feasn, compl := k.compl }

/-- The second convergence test and the end of the improvement (`sqpdfo_main.py` L580-L639). -/
def improveEnd (e : Env K F) (k : Meas K) (radius : K) (s : MSt K F) : PassRes K F :=
  if k.fail then s.stop Status.failUnexpected
  else
    let s := s.measure k
    let errg := s.poised * s.yradius / cFactorCV
    if s.glagn / cFactorCV ≤ e.tolGrad ∧ s.feasn / cFactorCV ≤ e.tolFeas ∧
        s.compl / cFactorCV ≤ e.tolBnds ∧ errg ≤ cEps ∧ e.n + 1 ≤ s.cur then
      { s with niter := s.niter + 1 }.stop Status.success
    else .cont { s with delta := radius }

/-- Repair of the set with radius `radius`, evaluation and re-selection of the base point
(`sqpdfo_main.py` L468-L565), new models; the base point is never replaced by `bcdfo_repair_Y_` (C27), so `x` stays. -/
def repairStage (e : Env K F) (o : Orc K F) (radius : K) (s : MSt K F) : PassRes K F :=
  let fpr : K := if o.normgx ≤ cEps ∨ s.pred = -1 then 1 else 10
  let r := repairY e.dist e.build o.propose (6 / 5) (fpr * (1 + cEpsL) * radius)
    (e.order (dists e.dist s.set.Y)) s.set.Y s.set.fac
  let pr := if e.verbose4 then o.poisedness r.st.fac r.st.Y else (r.maximprove, r.radius)
  let s := { s with
    set := { s.set with Y := r.st.Y, fac := r.st.fac }
    poised := pr.1
    yradius := pr.2
    poisedModel := true }
  ((evalReplaced e r.st.replaced s).bind (callSmallf e)).bind fun s =>
    improveEnd e o.k2 radius (s.newGx e).storeG

/-- The block entered when the tolerances are met, the radius is tiny or the last step gave no
predicted reduction (`sqpdfo_main.py` L286-L639). -/
def improve (e : Env K F) (o : Orc K F) (s : MSt K F) : PassRes K F :=
  if e.n + 1 ≤ s.cur then
    let pr := o.poisedness s.set.fac s.set.Y
    let s := { s with poised := pr.1, yradius := pr.2 }
    let errg := s.poised * s.yradius / cFactorCV
    if s.glagn ≤ e.tolGrad ∧ s.feasn ≤ e.tolFeas ∧ s.compl ≤ e.tolBnds ∧ errg ≤ cEps then
      { s with niter := s.niter + 1 }.stop Status.success
    else
      let s := { s with niter := s.niter + 1, epsCur := newEpsCur e s }
      let radius := repRadius s
      if tooSmall e s radius then s.stop Status.stopOnSmallTR
      else repairStage e o radius s
  else .crash .randomBranch

/-! ### The step -/

/-- Memorise `f0`, `ce0n`, `merit0` unless the last step was rejected (`sqpdfo_main.py` L648-L663). -/
def globalise (e : Env K F) (s : MSt K F) : PassRes K F :=
  if s.rejected then .cont s
  else
    match s.ev.infoF.val? with
    | none => .crash .value
    | some f0 =>
      match e.resNorm s.infoCe s.sl with
      | none => .crash .ceShape
      | some c => .cont { s with f0 := f0, ce0n := c, merit0 := f0 + s.sigma * c }

/-- `sigmab` (`sqpdfo_main.py` L731-L734). -/
def sigmab (o : Orc K F) : K :=
  if o.rpred = 0 then 0 else o.qcost / ((1 - cRhoFactor) * o.rpred)

/-- Update of the penalty parameter (`sqpdfo_main.py` L736-L750). -/
def penalty (o : Orc K F) (s : MSt K F) : PassRes K F :=
  if s.sigma < sigmab o then
    let sg := max (sigmab o) (3 / 2 * s.sigma)
    if sg > 10 ^ 299 then { s with sigma := sg }.stop Status.failUnexpected
    else .cont { s with sigma := sg, merit0 := s.f0 + sg * s.ce0n }
  else .cont s

/-- Evaluation at the trial point (`sqpdfo_main.py` L769-L792): `m = m+1`, the history is extended; on failure
return; otherwise huge constraint values in the history are replaced and `ceplus` is taken, if
some constraint value of the history is nonzero. -/
def evalTrial (e : Env K F) (o : Orc K F) (s : MSt K F) : PassRes K F :=
  let m := s.m + 1
  match augmX e.U (.fin big) o.xnew m s.ev with
  | none => .crash .nonNumber
  | some ev =>
    let s := { s with m := m, ev := ev }
    if ev.flag ≠ 0 then .ret s
    else if (finVals ev.ceX).any (fun v => decide (v ≠ 0)) then
      match (replaceHuge ev.ceX).bind replaceHugeNeg with
      | none => .crash .ceShape
      | some ceX =>
        match (ceX[m]?).bind colK with
        | none => .crash .ceShape
        | some c => .cont { s with ev := { ev with ceX := ceX }, ceplus := c }
    else .cont s

/-- `pred` (`sqpdfo_main.py` L871-L889). -/
def newPred (o : Orc K F) (sigma : K) : K :=
  let p := - o.qcost + sigma * o.rpred
  let p := if o.rpred < 0 then -1 else p
  if p < 0 then -1 else if p = 0 then -1 else p

/-- The move of slacks away from zero (`sqpdfo_main.py` L982-L988, L1242-L1248, L1365-L1371). -/
def moveSl (e : Env K F) (ce sl : List K) : List K :=
  List.zipWith (fun s c => if s = 0 ∧ c > 1 / 100 then e.sqrt c else s) sl
    (ce.drop (e.me - e.ns))

/-- New radius after a successful step (`sqpdfo_main.py` L1033-L1043). -/
def succDelta (rho : K) (active : Bool) (norms delta : K) : K :=
  if rho ≥ cEta2 then
    if active = true ∧ delta < 5 then delta * 5
    else min (max (2 * norms) delta) cDeltamax
  else if active then delta * 2
  else min (max (2 * norms) delta) cDeltamax

/-- The trial point enters position `pos` of the set and becomes the base point
(`sqpdfo_main.py` L957-L1068). -/
def accepted (e : Env K F) (o : Orc K F) (fxplus rho norms : K) (pos : ℕ) (s : MSt K F) :
    PassRes K F :=
  let set := { s.set with
    ind := setOrAppend s.set.ind pos s.m
    fY := setOrAppend s.set.fY pos fxplus }
  if e.me > 0 ∧ s.ceplus.length ≠ e.me then .crash .ceShape
  else
    let set := if e.me > 0 then { set with ceY := setOrAppend set.ceY pos s.ceplus } else set
    let infoCe := if e.me > 0 then s.ceplus else s.infoCe
    let sl := if e.me > 0 ∧ e.ns > 0 then moveSl e infoCe o.slplus else s.sl
    match swapInY e.build 0 pos set with
    | none => .crash .index
    | some set =>
      match set.Y[0]? with
      | none => .crash .index
      | some x0 => .cont (MSt.newGx e { s with
          set := set
          infoCe := infoCe
          sl := sl
          x := x0
          fx := fxplus
          ixbest := s.m
          poisedModel := false
          delta := succDelta rho o.active norms s.delta
          rejected := false }).storeG

/-- The trial point replaces position `pos` in the block for rejected steps (far or close point,
`sqpdfo_main.py` L1213-L1301, L1336-L1423). -/
def replaceAt (e : Env K F) (o : Orc K F) (fxplus rho norms : K) (pos : ℕ) (s : MSt K F) :
    PassRes K F :=
  if e.me > 0 ∧ s.ceplus.length ≠ e.me then .crash .ceShape
  else
    let set := { s.set with
      ind := s.set.ind.set pos s.m
      fY := s.set.fY.set pos fxplus
      ceY := if e.me > 0 then s.set.ceY.set pos s.ceplus else s.set.ceY }
    if rho ≥ cEta1 then
      match swapInY e.build 0 pos set with
      | none => .crash .index
      | some set =>
        match set.Y[0]? with
        | none => .crash .index
        | some x0 =>
          let infoCe := match set.ceY[0]? with
            | some c => if e.me > 0 then c else s.infoCe
            | none => s.infoCe
          .cont (MSt.newGx e { s with
            set := set
            infoCe := infoCe
            sl := if e.me > 0 ∧ e.ns > 0 then moveSl e infoCe o.slplus else s.sl
            x := x0
            fx := fxplus
            ev := { s.ev with infoF := .fin fxplus }
            ixbest := s.m
            poisedModel := false
            delta := min (max (2 * norms) s.delta) cDeltamax })
    else .cont (MSt.newGx e { s with
      set := set
      delta := if s.delta > cEps then cGamma2 * s.delta else s.delta })

/-- `(eta2 - 1)*gTs / (fxplus - fx - gTs - eta2*curvature)` (`sqpdfo_main.py` L1437-L1439) with the results of a
division by zero. -/
def gamInter (fxplus fx gTs pred : K) : Fl K :=
  let num := (cEta2 - 1) * gTs
  let den := fxplus - fx - gTs - cEta2 * (- pred - gTs)
  if den = 0 then
    if num = 0 then .nan else if num > 0 then .pinf else .ninf
  else .fin (num / den)

/-- `max_(gamma1, min_(gam_inter, gamma2)) * min_(delta, norms)` (`sqpdfo_main.py` L1440-L1441). -/
def redDelta (g : Fl K) (delta norms : K) : K :=
  match Fl.fmax (.fin cGamma1) (Fl.fmin g (.fin cGamma2)) with
  | .fin q => q * min delta norms
  | _ => cGamma1 * min delta norms -- not reached

/-- End of a rejected step: `info.f = f0` (`sqpdfo_main.py` L1470), `sqpdfo_computeHessian_` (L1486-L1490). -/
def MSt.restoreF (s : MSt K F) : MSt K F :=
  MSt.storeG { s with ev := { s.ev with infoF := .fin s.f0 } }

/-- Positions of a list of distances that satisfy a test (`find_`) (`sqpdfo_main.py` L1201, L1317). -/
def findIdx (p : K → Bool) (d : List K) : List ℕ :=
  (List.range d.length).filter fun j =>
    match d[j]? with
    | some v => p v
    | none => false

/-- The radius is decreased (`sqpdfo_main.py` L1425-L1465). -/
def reduce (e : Env K F) (o : Orc K F) (fxplus norms : K) (s : MSt K F) : PassRes K F :=
  let s := { s with delta := redDelta (gamInter fxplus s.fx o.gTs s.pred) s.delta norms }
  if tooSmall e s s.delta then s.stop Status.stopOnSmallTR
  else .cont s.restoreF

/-- Distances used to define far and close points (`sqpdfo_main.py` L1173-L1186). -/
def farDists (e : Env K F) (rho : K) (xplus : List K) (s : MSt K F) : List K :=
  if rho ≥ cEta1 then s.set.Y.map fun y => e.dist y xplus
  else
    match s.set.Y with
    | [] => []
    | _ :: l => 0 :: l.map fun y => e.dist y s.x

/-- Can the set still grow (`sqpdfo_main.py` L935-L936, L1094-L1095)? -/
def growable (e : Env K F) (cur : ℕ) : Prop :=
  cur < e.pfinal ∨ (e.regression = true ∧ cur < e.pfinal + e.pfinal)

instance (e : Env K F) (cur : ℕ) : Decidable (growable e cur) := by
  unfold growable; infer_instance

/-- `bcdfo_augment_Y_` (`bcdfo_augment_Y.py` L140-L149): a fully quadratic set is left alone
unless it is used for regression. The result contains the new `cur_degree`. -/
def augmentY (e : Env K F) (xplus : List K) (Y : List (List K)) : ℕ × List (List K) × F :=
  if Y.length ≥ (e.n + 1) * (e.n + 2) / 2 ∧ e.regression = false then (Y.length, Y, e.build Y)
  else (Y.length + 1, Y ++ [xplus], e.build (Y ++ [xplus]))

/-- The trial point is added to the set although the step is rejected (`sqpdfo_main.py` L1094-L1158). -/
def augmentRejected (e : Env K F) (o : Orc K F) (fxplus : K) (s : MSt K F) : PassRes K F :=
  let a := augmentY e o.xnew (s.set.Y.take s.cur)
  if e.me > 0 ∧ s.ceplus.length ≠ e.me then .crash .ceShape
  else
    let set := { s.set with
      Y := a.2.1
      fac := a.2.2
      ind := setOrAppend s.set.ind (a.1 - 1) s.m
      fY := setOrAppend s.set.fY (a.1 - 1) fxplus
      ceY := if e.me > 0 then setOrAppend s.set.ceY (a.1 - 1) s.ceplus else s.set.ceY }
    .cont (MSt.newGx e { s with
      cur := a.1
      set := set
      poisedModel := false
      delta := if s.delta > cEps then cGamma2 * s.delta else s.delta })

/-- Replacement of a far or a close point, or reduction of the radius (`sqpdfo_main.py` L1165-L1465). -/
def replaceOrReduce (e : Env K F) (o : Orc K F) (fxplus rho norms : K) (s : MSt K F) :
    PassRes K F :=
  if s.poisedModel = false ∨ s.delta ≤ s.epsCur then
    let d := farDists e rho o.xnew s
    let fp := (1 + cEpsTR) * s.delta
    let ref := if rho ≥ cEta1 then o.xnew else s.x
    let far := includeInY e.dist e.build o.lval2 (findIdx (fun v => decide (v > fp)) d)
      (1 / 10 ^ 10) (if rho ≥ cEta1 then .weighted else .distance) o.xnew ref s.set.Y s.set.fac
    match far.1 with
    | some pos =>
      (replaceAt e o fxplus rho norms pos
        { s with set := { s.set with Y := far.2.1, fac := far.2.2 } }).bind fun s => .cont s.restoreF
    | none =>
      let d := if rho ≥ cEta1 then d else d.set 0 (2 * fp)
      let close := includeInY e.dist e.build o.lval3 (findIdx (fun v => decide (v ≤ fp)) d)
        (if rho ≥ cEta1 then 1 / 10 ^ 15 else 6 / 5) .standard o.xnew ref s.set.Y s.set.fac
      match close.1 with
      | some pos =>
        (replaceAt e o fxplus rho norms pos
          { s with set := { s.set with Y := close.2.1, fac := close.2.2 } }).bind
          fun s => .cont s.restoreF
      | none => reduce e o fxplus norms s
  else reduce e o fxplus norms s

/-- The block for rejected steps (`sqpdfo_main.py` L1080-L1470). -/
def rejectStep (e : Env K F) (o : Orc K F) (fxplus rho norms : K) (s : MSt K F) : PassRes K F :=
  let s := { s with rejected := true }
  if growable e s.cur ∧ rho < cEta1 then
    (augmentRejected e o fxplus s).bind fun s => .cont s.restoreF
  else replaceOrReduce e o fxplus rho norms s

/-- The decision about the trial point (`sqpdfo_main.py` L845-L1490). -/
def decideStep (e : Env K F) (o : Orc K F) (norms : K) (s : MSt K F) : PassRes K F :=
  match (s.ev.fX[s.m]?).bind Fl.val? with
  | none => .crash .value
  | some fxplus =>
    match e.resNorm s.ceplus o.slplus with
    | none => .crash .ceShape
    | some c =>
      let merit := fxplus + s.sigma * c
      let s := { s with pred := newPred o s.sigma }
      let rho := if s.pred = -1 then -1 else (s.merit0 - merit) / s.pred
      if s.pred = -1 then .cont s
      else if rho ≥ cEta1 then
        if merit ≥ s.merit0 then s.stop Status.failOnNonDecrease
        else if growable e s.cur then
          let a := augmentY e o.xnew (s.set.Y.take s.cur)
          accepted e o fxplus rho norms (a.1 - 1)
            { s with cur := a.1, set := { s.set with Y := a.2.1, fac := a.2.2 } }
        else
          let inc := includeInY e.dist e.build o.lval1 (List.range s.cur) (1 / 10 ^ 10) .distance
            o.xnew o.xnew s.set.Y s.set.fac
          match inc.1 with
          | some pos => accepted e o fxplus rho norms pos
              { s with set := { s.set with Y := inc.2.1, fac := inc.2.2 } }
          | none => rejectStep e o fxplus rho norms s
      else rejectStep e o fxplus rho norms s

/-- `norms` (`sqpdfo_main.py` L715-L720). -/
def stepNorm (e : Env K F) (o : Orc K F) (s : MSt K F) : K :=
  if e.ns > 0 then
    e.nrm (List.zipWith (· - ·) o.xnew s.x ++ List.zipWith (· - ·) o.slplus s.sl)
  else e.nrm (List.zipWith (· - ·) o.xnew s.x)

/-- The second half of a pass (`sqpdfo_main.py` L648-L1490). -/
def stepStage (e : Env K F) (o : Orc K F) (s : MSt K F) : PassRes K F :=
  (globalise e s).bind fun s =>
    let s := { s with niter := s.niter + 1 }
    if o.tfail then s.stop Status.failUnexpected
    else
      ((penalty o s).bind (evalTrial e o)).bind fun t => decideStep e o (stepNorm e o s) t

/-- One pass of the main loop (`sqpdfo_main.py` L212-L1490). -/
def pass (e : Env K F) (o : Orc K F) (s : MSt K F) : PassRes K F :=
  if e.miter.le (.fin s.niter) then s.stop Status.stopOnMaxIter
  else if e.msimul.le (.fin s.ev.nsimul) then s.stop Status.stopOnMaxSimul
  else if o.k1.fail then s.stop Status.failUnexpected
  else
    let s := { s.measure o.k1 with ev := { s.ev with flag := Status.success } }
    (if (s.glagn ≤ e.tolGrad ∧ s.feasn ≤ e.tolFeas ∧ s.compl ≤ e.tolBnds) ∨
        s.delta < 1 / 10 ^ 10 ∨ s.pred = -1 then improve e o s else .cont s).bind
      (stepStage e o)

/-- How the loop ends (`sqpdfo_main.py` L212-L1495). -/
inductive MainRes (K F : Type) where
  /-- `return` -/
  | done (s : MSt K F)
  | crash (c : Crash)
  /-- not a result of the code: the given number of passes is used up -/
  | running (s : MSt K F)

/-- The loop: one oracle per pass (`sqpdfo_main.py` L212-L1495). -/
def mainLoop (e : Env K F) : List (Orc K F) → MSt K F → MainRes K F
  | [], s => .running s
  | o :: os, s =>
    match pass e o s with
    | .cont s => mainLoop e os s
    | .ret s => .done s
    | .crash c => .crash c

/-- The state handed to the loop after a complete initial sampling with radius `D`
(`sqpdfo_prelim.py` L376-L387, L419-L422, L438-L482; `sqpdfo.py` L284-L312;
`sqpdfo_main.py` L139-L210).
`sl` are the initial slacks. `none`: a recorded value is not a number. -/
def mainInit (e : Env K F) (D : K) (sl : List K) (ev : EvSt (List K) K) : Option (MSt K F) :=
  match ev.fX.mapM Fl.val?, ev.ceX.mapM colK, ev.X[0]? with
  | some fY, some ceY, some x =>
    match fY[0]? with
    | none => none
    | some f => some {
        niter := 0
        ev := { ev with infoF := .fin f }
        m := ev.X.length - 1
        set := ⟨ev.X, List.range ev.X.length, fY, [], ceY, e.build ev.X⟩
        cur := e.n + 1
        x := x
        fx := f
        ixbest := 0
        delta := D
        sigma := 1
        pred := 0
        epsCur := cEps
        rejected := false
        poisedModel := true
        f0 := 0
        ce0n := 0
        merit0 := 0
        glagn := 0
        feasn := 0
        compl := 0
        poised := 0
        yradius := 0
        infoCe := match ceY[0]? with
          | some c => c
          | none => []
        ceplus := []
        sl := sl
        gx := e.model (e.build ev.X) x fY ceY
        infoG := e.model (e.build ev.X) x fY ceY }
  | _, _, _ => none

/-- Nothing evaluated yet (`sqpdfo_prelim.py` L66, L132, L347-L353). -/
def emptyEv : EvSt (List K) K := ⟨[], [], [], 0, .nan, 0, ⟨[], []⟩⟩

/-- The state at the first pass of the main loop: initial sampling around `x0` with radius `Δ`
(`sqpdfo_prelim.py` L266-L422) and `mainInit`; at most `fuel` rounds of sampling.  `none`: the
sampling does not end with a complete set. -/
def startState (e : Env K F) (x0 : List K) (fuel : ℕ) (Δ : K) (sl : List K) :
    Option (MSt K F) :=
  match initLoop e.U x0 (e.nrm x0) fuel Δ emptyEv with
  | .done D ev => mainInit e D sl ev
  | _ => none

end Sqpdfo
