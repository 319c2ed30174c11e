import Mathlib.Data.Finset.Card
import Mathlib.Data.Fintype.Basic
import Mathlib.Data.Sign.Basic
import Verif.Model.TRMS

/-! # The bound-constrained trust-region solver

`bcdfo_solve_TR_MS_bc_` (`bcdfo_solve_TR_MS_bc.py` L9-L473) with `stratLam = 1` (both callers) and
`verbose = 0`, for matrices with finite real entries (the error exits L95-L115 return the zero step)
and finite bounds (an infinite bound acts like a finite one of very large size: all its uses are
comparisons).  Arithmetic is exact and a division by zero in the update of `lambda` gives 0 (numpy: inf or
nan).  `ind_free` is a finite set of indices, `ind_active` its complement.  Positions within
`ind_free` are replaced by the indices themselves. -/

namespace Sqpdfo
open Matrix
variable {K : Type} [Field K] [LinearOrder K] {n : ℕ}

/-- The kernels: those of `bcdfo_solve_TR_MS_` for every nonempty set of free variables, the square root,
and `min(norm(H,inf), norm(H,'fro'))` (`bcdfo_solve_TR_MS_bc.py` L141, L201-L206, L224, L370, L399). -/
structure BCKer (K : Type) (n : ℕ) where
  ms : (fr : Finset (Fin n)) → fr.Nonempty → MSKer K fr
  sq : K → K
  hb : Matrix (Fin n) (Fin n) K → K

/-- `norm_(v)` (`bcdfo_solve_TR_MS_bc.py` L160, L193, L426). -/
def BCKer.nrm (k : BCKer K n) (v : Fin n → K) : K := k.sq (v ⬝ᵥ v)

/-- The arguments (`bcdfo_solve_TR_MS_bc.py` L71-L92). -/
structure BCIn (K : Type) (n : ℕ) where
  g0 : Fin n → K
  H : Matrix (Fin n) (Fin n) K
  lb : Fin n → K
  ub : Fin n → K
  Δ0 : K
  εD : K

/-- The messages (`bcdfo_solve_TR_MS_bc.py` L77, L351, L411, L423, L440). -/
inductive BCMsg
  | noFree | ms (m : MSMsg) | error4 | boundary | limit | interior | error7
  deriving DecidableEq, Repr

/-- `eps_bound` (`bcdfo_solve_TR_MS_bc.py` L72). -/
def epsBnd : K := 1 / 10 ^ 5

/-- `1e-10` (`bcdfo_solve_TR_MS_bc.py` L118, L147-L148). -/
def tinyBnd : K := 1 / 10 ^ 10

/-- `I[:,ind_free].dot(d)` (`bcdfo_solve_TR_MS_bc.py` L145, L242, L342). -/
def extFree (fr : Finset (Fin n)) (d : fr → K) : Fin n → K := fun i =>
  if h : i ∈ fr then d ⟨i, h⟩ else 0

/-- Members of `ind_g_crit` (`bcdfo_solve_TR_MS_bc.py` L118, L467). -/
def gCrit (I : BCIn K n) (fr : Finset (Fin n)) (g : Fin n → K) : Finset (Fin n) :=
  fr.filter fun i => (g i > 0 ∧ |I.lb i| ≤ tinyBnd) ∨ (g i < 0 ∧ I.ub i ≤ tinyBnd)

/-- Members of `ind_u_crit` (`bcdfo_solve_TR_MS_bc.py` L147, L244). -/
def uCrit (I : BCIn K n) (fr : Finset (Fin n)) (s : Fin n → K) : Finset (Fin n) :=
  fr.filter fun i => I.ub i - s i ≤ epsBnd ∧ I.ub i ≤ tinyBnd

/-- Members of `ind_l_crit` (`bcdfo_solve_TR_MS_bc.py` L148, L245). -/
def lCrit (I : BCIn K n) (fr : Finset (Fin n)) (s : Fin n → K) : Finset (Fin n) :=
  fr.filter fun i => s i - I.lb i ≤ epsBnd ∧ I.lb i ≥ - tinyBnd

/-- `find_` among the free variables, in increasing order (`bcdfo_solve_TR_MS_bc.py` L172-L173, L209-L210). -/
def freeList (fr : Finset (Fin n)) (p : Fin n → Prop) [DecidablePred p] : List (Fin n) :=
  (List.finRange n).filter fun i => decide (i ∈ fr ∧ p i)

/-- `out_of_ubound`, `out_of_lbound` (`bcdfo_solve_TR_MS_bc.py` L172-L173, L254-L255) and, with `c = eps_bound`, `out_of_uEpsbound`,
`out_of_lEpsbound` (L327-L328). -/
def outU (I : BCIn K n) (fr : Finset (Fin n)) (s : Fin n → K) (c : K) : List (Fin n) :=
  freeList fr fun i => I.ub i - s i < - c

/-- See the preceding definition (`bcdfo_solve_TR_MS_bc.py` L173, L255, L328). -/
def outL (I : BCIn K n) (fr : Finset (Fin n)) (s : Fin n → K) (c : K) : List (Fin n) :=
  freeList fr fun i => s i - I.lb i < - c

/-- `ind_u_active`, `ind_l_active` (`bcdfo_solve_TR_MS_bc.py` L209-L210, L335-L336). -/
def actU (I : BCIn K n) (fr : Finset (Fin n)) (s : Fin n → K) : List (Fin n) :=
  freeList fr fun i => |I.ub i - s i| ≤ epsBnd

/-- See the preceding definition (`bcdfo_solve_TR_MS_bc.py` L210, L336). -/
def actL (I : BCIn K n) (fr : Finset (Fin n)) (s : Fin n → K) : List (Fin n) :=
  freeList fr fun i => |s i - I.lb i| ≤ epsBnd

/-- First position of a best value (`max_`, `min_` with two results) (`bcdfo_solve_TR_MS_bc.py` L264, L271, L294, L300). -/
def firstBest (better : K → K → Bool) (f : Fin n → K) : List (Fin n) → Option (Fin n)
  | [] => none
  | a :: l => some (l.foldl (fun b i => if better (f i) (f b) then i else b) a)

/-- `min_(abs(...))` of a nonempty list (`bcdfo_solve_TR_MS_bc.py` L195-L199). -/
def minOf (f : Fin n → K) : List (Fin n) → Option K
  | [] => none
  | a :: l => some (l.foldl (fun b i => min b (f i)) (f a))

/-- The variables of the loop on `lambda` (`bcdfo_solve_TR_MS_bc.py` L177-L213). -/
structure HomState (K : Type) (n : ℕ) where
  lower : K
  upper : K
  lam : K
  back : Bool
  hard : Bool
  outs : Bool
  act : Bool
  initU : List (Fin n)
  initL : List (Fin n)
  nfact : ℕ

/-- How the loop on `lambda` ends (`bcdfo_solve_TR_MS_bc.py` L352, L409-L416). -/
inductive HomRes (K : Type) (n : ℕ)
  /-- `break` with `s_afterH` -/
  | found (s : Fin n → K) (lam : K) (nfact : ℕ)
  | error4 (lam : K) (nfact : ℕ)
  | limit (lam : K) (nfact : ℕ)
  /-- the loop condition fails or a variable is undefined; not reached (`C43`) -/
  | undef

/-- The data of the chosen component: `ind_b`, `norms_b`, `delta_b`, `sign_b` (`bcdfo_solve_TR_MS_bc.py` L258-L315). -/
structure Pick (K : Type) (n : ℕ) where
  i : Fin n
  norms : K
  delta : K
  sgn : SignType

/-- See the preceding definition (`bcdfo_solve_TR_MS_bc.py` L264-L268, L294-L298). -/
def pickU (I : BCIn K n) (s d : Fin n → K) (i : Fin n) : Pick K n :=
  ⟨i, |d i|, |I.ub i - s i|, SignType.sign (I.ub i - s i)⟩

/-- See the preceding definition (`bcdfo_solve_TR_MS_bc.py` L271-L275, L300-L304). -/
def pickL (I : BCIn K n) (s d : Fin n → K) (i : Fin n) : Pick K n :=
  ⟨i, |d i|, |I.lb i - s i|, SignType.sign (I.lb i - s i)⟩

/-- Choice among the candidates for the two sides; `better` is `>` outside and `<` inside (`bcdfo_solve_TR_MS_bc.py` L263-L315). -/
def pickB (I : BCIn K n) (better : K → K → Bool) (s d sd : Fin n → K) (us ls : List (Fin n)) :
    Option (Pick K n) :=
  match firstBest better (fun i => |I.ub i - sd i|) us,
      firstBest better (fun i => |sd i - I.lb i|) ls with
  | some u, some l =>
    some (if better |I.ub u - sd u| |sd l - I.lb l| then pickU I s d u else pickL I s d l)
  | some u, none => some (pickU I s d u)
  | none, some l => some (pickL I s d l)
  | none, none => none

/-- New `lambda` (`bcdfo_solve_TR_MS_bc.py` L371-L399) for the chosen component. -/
def homUpdate (k : BCKer K n) {fr : Finset (Fin n)} (m : MSKer K fr) (R : Matrix fr fr K) (d : Fin n → K)
    (b : Pick K n) (inside : Bool) (S : HomState K n) : HomState K n :=
  let upper := if inside then S.lam else S.upper
  let lower := if inside then S.lower else S.lam
  let es := d b.i
  let newton := decide (SignType.sign es = b.sgn)
  let w1 := m.solve Rᵀ fun i => if i.1 = b.i then 1 else 0
  let w2 := m.solve Rᵀ fun i => d i.1
  let new := if newton then S.lam + (b.norms - b.delta) / b.delta * (b.norms ^ 2 / (es * (w1 ⬝ᵥ w2)))
    else (lower + upper) / 2
  let upper := if newton = true ∧ S.back = false ∧ upper ≤ new then 2 * new else upper
  let range := thetaMS * (upper - lower)
  { S with
    lower := lower, upper := upper
    lam := if new > lower + range ∧ new ≤ upper - range then new
      else max (k.sq (lower * upper)) (lower + range) }

/-- `s_afterH` (`bcdfo_solve_TR_MS_bc.py` L342-L348). -/
def moveToBounds (I : BCIn K n) (fr : Finset (Fin n)) (s d sd : Fin n → K) : Fin n → K := fun i =>
  if i ∈ actL I fr sd then I.lb i
  else if i ∈ actU I fr sd then I.ub i
  else s i + d i

/-- `isempty_(out_of_uEpsbound) and isempty_(out_of_lEpsbound)` (`bcdfo_solve_TR_MS_bc.py` L329). -/
def nearAll (I : BCIn K n) (fr : Finset (Fin n)) (sd : Fin n → K) : Bool :=
  (outU I fr sd epsBnd).isEmpty && (outL I fr sd epsBnd).isEmpty

/-- No component is outside its bounds (`bcdfo_solve_TR_MS_bc.py` L259, L373). -/
def insideAll (I : BCIn K n) (fr : Finset (Fin n)) (sd : Fin n → K) : Bool :=
  (outU I fr sd 0).isEmpty && (outL I fr sd 0).isEmpty

/-- Some component is active (`bcdfo_solve_TR_MS_bc.py` L214, L337). -/
def someAct (I : BCIn K n) (fr : Finset (Fin n)) (sd : Fin n → K) : Bool :=
  !((actU I fr sd).isEmpty && (actL I fr sd).isEmpty)

/-- A round with a successful factorisation, after the computation of `d = s_deltaH` and `sd = s_duringH`
(`bcdfo_solve_TR_MS_bc.py` L254-L399). -/
def homRound (k : BCKer K n) (I : BCIn K n) {fr : Finset (Fin n)} (m : MSKer K fr) (s d sd : Fin n → K)
    (R : Matrix fr fr K) (S : HomState K n) : HomRes K n ⊕ HomState K n :=
  let inside := insideAll I fr sd
  let S := if inside then { S with outs := false } else
    { S with
      outs := true
      initU := S.initU ++ outU I fr sd 0
      initL := S.initL ++ outL I fr sd 0 }
  let pick := if inside then pickB I (fun a b => decide (a < b)) s d sd S.initU S.initL
    else pickB I (fun a b => decide (a > b)) s d sd (outU I fr sd 0) (outL I fr sd 0)
  match pick with
  | none => .inl .undef
  | some b =>
    if nearAll I fr sd = true ∧ someAct I fr sd = true then
      .inl (.found (moveToBounds I fr s d sd) S.lam S.nfact)
    else .inr (homUpdate k m R d b inside { S with
      back := S.back || nearAll I fr sd
      act := if nearAll I fr sd then someAct I fr sd else S.act })

/-- Components set to zero for one round (`bcdfo_solve_TR_MS_bc.py` L244-L245). -/
def critBoth (I : BCIn K n) (fr : Finset (Fin n)) (s : Fin n → K) : Finset (Fin n) :=
  uCrit I fr s ∪ lCrit I fr s

/-- `v` with zeros in the components of `c` (`bcdfo_solve_TR_MS_bc.py` L248-L253). -/
def zeroOn (c : Finset (Fin n)) (v : Fin n → K) : Fin n → K := fun i => if i ∈ c then 0 else v i

/-- The loop on `lambda` (`bcdfo_solve_TR_MS_bc.py` L213-L416) with `r` rounds left. -/
def homLoop (k : BCKer K n) (I : BCIn K n) {fr : Finset (Fin n)} (m : MSKer K fr) (g s : Fin n → K) :
    ℕ → HomState K n → HomRes K n
  | 0, S => .limit S.lam S.nfact
  | r + 1, S =>
    if S.act = true ∧ S.outs = false then .undef
    else
      match m.chol (I.H.submatrix Subtype.val Subtype.val + S.lam • (1 : Matrix fr fr K)) with
      | .nan => .error4 S.lam S.nfact
      | c =>
        let S := { S with nfact := S.nfact + 1 }
        match c, S.hard with
        | .ok R, false =>
          let d := extFree fr (m.solve (-R) (m.solve Rᵀ fun i => g i.1))
          match homRound k I m s (zeroOn (critBoth I fr (s + d)) d)
              (zeroOn (critBoth I fr (s + d)) (s + d)) R S with
          | .inl o => o
          | .inr S => homLoop k I m g s r S
        | _, _ =>
          homLoop k I m g s r
            { S with
              hard := false
              lower := S.lam
              lam := (1 - 1 / 2) * S.lam + 1 / 2 * S.upper }

/-- The variables of the main loop (`bcdfo_solve_TR_MS_bc.py` L77-L91). -/
structure BCState (K : Type) (n : ℕ) where
  s : Fin n → K
  g : Fin n → K
  fr : Finset (Fin n)
  Δ : K
  lam : K
  norms : K
  value : K
  gplus : Fin n → K
  nfact : ℕ
  neigd : ℕ
  msg : BCMsg

/-- The returned tuple, and whether the loop on `lambda` was undefined (`bcdfo_solve_TR_MS_bc.py` L430). -/
structure BCOut (K : Type) (n : ℕ) where
  s : Fin n → K
  lam : K
  norms : K
  value : K
  gplus : Fin n → K
  nfact : ℕ
  neigd : ℕ
  msg : BCMsg

/-- `return` (`bcdfo_solve_TR_MS_bc.py` L101, L165, L430, L448, L465). -/
def BCState.out (S : BCState K n) : BCOut K n :=
  ⟨S.s, S.lam, S.norms, S.value, S.gplus, S.nfact, S.neigd, S.msg⟩

/-- How the calls of the unconstrained solver end (`bcdfo_solve_TR_MS_bc.py` L131-L167). -/
inductive InnerRes (K : Type) (n : ℕ)
  /-- all variables are fixed: `return` (`bcdfo_solve_TR_MS_bc.py` L159-L165) -/
  | ret (o : BCOut K n)
  /-- a step without new fixed variables, with `hardcase` -/
  | step (after : Fin n → K) (hard : Bool) (S : BCState K n)
  /-- not a result of the code: the given number of calls is used up, or there are no free variables
  (not reached, `C43`) -/
  | more

/-- The inner loop (`bcdfo_solve_TR_MS_bc.py` L130-L167) with at most `r` calls. -/
def innerLoop (k : BCKer K n) (I : BCIn K n) : ℕ → BCState K n → InnerRes K n
  | 0, _ => .more
  | r + 1, S =>
    if h : S.fr.Nonempty then
      let o := trms (k.ms S.fr h) (fun i => S.g i.1) (I.H.submatrix Subtype.val Subtype.val) S.Δ I.εD
      let S := { S with
        lam := o.lam, nfact := S.nfact + o.nfact, neigd := S.neigd + o.neigd, msg := .ms o.msg
        gplus := S.gplus + extFree S.fr o.gplus }
      let after := S.s + extFree S.fr o.s
      let crit := critBoth I S.fr after
      if crit.Nonempty then
        let S := { S with fr := S.fr \ crit }
        if S.fr = ∅ then
          .ret { S with norms := k.nrm S.s, value := modelVal I.g0 I.H S.s }.out
        else innerLoop k I r S
      else .step after o.hard S
    else .more

/-- The homotopy from the step `after` (`bcdfo_solve_TR_MS_bc.py` L172-L210 and the loop). -/
def homotopy (k : BCKer K n) (I : BCIn K n) (S : BCState K n) (after : Fin n → K) (hard : Bool) :
    HomRes K n :=
  let us := outU I S.fr after 0
  let ls := outL I S.fr after 0
  let du := minOf (fun i => |I.ub i - S.s i|) us
  let dl := minOf (fun i => |I.lb i - S.s i|) ls
  let db := match du, dl with
    | some a, some b => min a b
    | some a, none => a
    | none, some b => b
    | none, none => 0
  if h : S.fr.Nonempty then homLoop k I (k.ms S.fr h) S.g S.s 100
    { lower := S.lam
      upper := max 0 (k.nrm S.g / db + k.hb I.H)
      lam := S.lam
      back := false
      hard := hard
      outs := true
      act := someAct I S.fr after
      initU := us, initL := ls
      nfact := S.nfact }
  else .undef

/-- Components within `eps_bound` of a bound (`bcdfo_solve_TR_MS_bc.py` L451). -/
def nearBnd (I : BCIn K n) (s : Fin n → K) : Finset (Fin n) :=
  Finset.univ.filter fun i => I.ub i - s i ≤ epsBnd ∨ s i - I.lb i ≤ epsBnd

/-- `norm_(g[ind_free],inf) <= 1e-05` (`bcdfo_solve_TR_MS_bc.py` L458-L459). -/
def critical (fr : Finset (Fin n)) (g : Fin n → K) : Prop := ∀ i ∈ fr, |g i| ≤ 1 / 10 ^ 5

instance (fr : Finset (Fin n)) (g : Fin n → K) : Decidable (critical fr g) := by
  unfold critical; infer_instance

/-- The end of a pass (`bcdfo_solve_TR_MS_bc.py` L432-L471) for the step `s`: `return`, or the next state. -/
def afterHom (k : BCKer K n) (I : BCIn K n) (s : Fin n → K) (S : BCState K n) :
    BCOut K n ⊕ BCState K n :=
  let S := { S with
    s := s, norms := k.nrm s, value := modelVal I.g0 I.H s, Δ := I.Δ0 - k.nrm s }
  if S.Δ < - epsBnd then .inl { S with msg := .error7 }.out
  else if S.Δ < 0 then .inl S.out
  else
    let S := { S with g := I.g0 + I.H *ᵥ s, fr := Finset.univ \ nearBnd I s }
    if S.fr.Nonempty ∧ critical S.fr S.g then .inl S.out
    else .inr { S with fr := S.fr \ gCrit I S.fr S.g }

/-- How a pass of the main loop ends (`bcdfo_solve_TR_MS_bc.py` L127-L473). -/
inductive BCPassRes (K : Type) (n : ℕ)
  | ret (o : BCOut K n)
  | next (S : BCState K n)
  /-- an undefined variable is used (not reached, `C43`) -/
  | bad

/-- A pass of the main loop (`bcdfo_solve_TR_MS_bc.py` L128-L471). -/
def bcPass (k : BCKer K n) (I : BCIn K n) (S : BCState K n) : BCPassRes K n :=
  match innerLoop k I n S with
  | .more => .bad
  | .ret o => .ret o
  | .step after hard S =>
    if insideAll I S.fr after = false then
      match homotopy k I S after hard with
      | .undef => .bad
      | .error4 lam nf => .ret { S with lam := lam, nfact := nf, msg := .error4 }.out
      | .limit lam nf => .ret { S with
          s := 0, norms := 0, lam := lam, nfact := nf, msg := .limit }.out
      | .found s lam nf =>
        match afterHom k I s { S with lam := lam, nfact := nf, msg := .boundary } with
        | .inl o => .ret o
        | .inr S => .next S
    else .ret { S with
      s := after, norms := k.nrm after, value := modelVal I.g0 I.H after, msg := .interior }.out

/-- The main loop (`bcdfo_solve_TR_MS_bc.py` L127-L471) with at most `r` passes; `none`: they are used up, or an undefined
variable is used (not reached, `C43`). -/
def bcLoop (k : BCKer K n) (I : BCIn K n) : ℕ → BCState K n → Option (BCOut K n)
  | 0, S => if S.fr = ∅ then some S.out else none
  | r + 1, S =>
    if S.fr = ∅ then some S.out
    else
      match bcPass k I S with
      | .bad => none
      | .ret o => some o
      | .next S => bcLoop k I r S

/-- The start (`bcdfo_solve_TR_MS_bc.py` L64-L123). -/
def bcStart (I : BCIn K n) : BCState K n :=
  { s := 0, g := I.g0, fr := Finset.univ \ gCrit I Finset.univ I.g0, Δ := I.Δ0, lam := 0, norms := 0
    value := 0, gplus := I.g0, nfact := 0, neigd := 0, msg := .noFree }

/-- `bcdfo_solve_TR_MS_bc_` (`bcdfo_solve_TR_MS_bc.py` L77-L473). -/
def trmsBc (k : BCKer K n) (I : BCIn K n) : Option (BCOut K n) := bcLoop k I n (bcStart I)

end Sqpdfo
