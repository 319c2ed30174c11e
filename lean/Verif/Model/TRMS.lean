import Mathlib.Data.Matrix.Mul
import Mathlib.Algebra.Order.Field.Basic

/-! # The Moré-Sorensen trust-region solver

`bcdfo_solve_TR_MS_` (`bcdfo_solve_TR_MS.py` L20-L339), `verbose = 0`, for matrices with finite real
entries (the error exits L81-L106 return the zero step).  Arithmetic is exact.  The kernels of numpy
are a parameter (`MSKer`): square root, Cholesky factorisation, linear solve, eigenvalue decomposition.
The indices of the variables are an arbitrary finite type. -/

namespace Sqpdfo
open Matrix
variable {K : Type} [Field K] [LinearOrder K] {ι : Type} [Fintype ι] [DecidableEq ι]

/-- The result `R, p` of `chol_` (`runtime.py` L289-L299): NaN entries, `p = 1`, or the factor. -/
inductive Chol (K ι : Type)
  | nan
  | fail
  | ok (R : Matrix ι ι K)

/-- The kernels.  `hb H` is `min(norm(H,inf), norm(H,'fro'))`; `eig H` are the eigenvectors (columns), the
eigenvalues and the position of the smallest one (`bcdfo_solve_TR_MS.py` L112-L119, L194, L211, L278-L282). -/
structure MSKer (K ι : Type) where
  sq : K → K
  hb : Matrix ι ι K → K
  chol : Matrix ι ι K → Chol K ι
  solve : Matrix ι ι K → (ι → K) → ι → K
  eig : Matrix ι ι K → Matrix ι ι K × (ι → K) × ι

/-- `norm_(v)` (`bcdfo_solve_TR_MS.py` L110, L214). -/
def MSKer.nrm (k : MSKer K ι) (v : ι → K) : K := k.sq (v ⬝ᵥ v)

/-- The messages (`bcdfo_solve_TR_MS.py` L83-L144, L230-L236, L274-L339). -/
inductive MSMsg
  | error4 | zeroRadius | zeroGradient | interior | boundary
  deriving DecidableEq, Repr

/-- The returned tuple (`bcdfo_solve_TR_MS.py` L339). -/
structure MSOut (K ι : Type) where
  s : ι → K
  lam : K
  norms : K
  value : K
  gplus : ι → K
  nfact : ℕ
  neigd : ℕ
  msg : MSMsg
  hard : Bool

/-- `g'*s + 0.5*s'*H*s` (`bcdfo_solve_TR_MS.py` L225-L226). -/
def modelVal (g : ι → K) (H : Matrix ι ι K) (s : ι → K) : K := g ⬝ᵥ s + 1 / 2 * (s ⬝ᵥ H *ᵥ s)

/-- `theta` (`bcdfo_solve_TR_MS.py` L65). -/
def thetaMS : K := 1 / 10 ^ 13

/-- `epsilon` (`bcdfo_solve_TR_MS.py` L66). -/
def epsMS : K := 1 / 10 ^ 12

/-- The loop variables (`bcdfo_solve_TR_MS.py` L108-L125, L178-L187). -/
structure MSState (K ι : Type) where
  lower : K
  upper : K
  lam : K
  s : ι → K
  norms : K
  nfact : ℕ

/-- `max_(sqrt_(lower*upper), lower + theta*(upper-lower))` (`bcdfo_solve_TR_MS.py` L181, L259). -/
def safeLam (k : MSKer K ι) (lower upper : K) : K :=
  max (k.sq (lower * upper)) (lower + thetaMS * (upper - lower))

/-- Start of the loop (`bcdfo_solve_TR_MS.py` L119-L120, L178-L181). -/
def msStart (k : MSKer K ι) (g : ι → K) (H : Matrix ι ι K) (Δ : K) : MSState K ι :=
  let lower := max 0 (k.nrm g / Δ - k.hb H)
  let upper := max 0 (k.nrm g / Δ + k.hb H)
  { lower := lower, upper := upper
    lam := if lower = 0 then 0 else safeLam k lower upper
    s := 0, norms := 0, nfact := 0 }

/-- `bcdfo_solve_TR_MS.py` L243-L259: Newton step on the secular equation after an unacceptable step `s`. -/
def msNewton (k : MSKer K ι) (Δ εD : K) (R : Matrix ι ι K) (S : MSState K ι) : MSState K ι :=
  let w := k.solve Rᵀ S.s
  let new := S.lam + (S.norms - Δ) / Δ * (S.norms ^ 2 / (w ⬝ᵥ w))
  let lower := if S.norms > (1 + εD) * Δ then S.lam else S.lower
  let upper := if S.norms > (1 + εD) * Δ then S.upper else S.lam
  let range := thetaMS * (upper - lower)
  { S with
    lower := lower, upper := upper
    lam := if new > lower + range ∧ new < upper - range then new else safeLam k lower upper }

/-- `bcdfo_solve_TR_MS.py` L264-L267: after a failed factorisation. -/
def msBisect (S : MSState K ι) : MSState K ι :=
  { S with
    nfact := S.nfact + 1
    lower := S.lam
    lam := (1 - 1 / 2) * S.lam + 1 / 2 * S.upper }

/-- `bcdfo_solve_TR_MS.py` L211-L214: the step for the current `lambda`. -/
def msSolve (k : MSKer K ι) (g : ι → K) (R : Matrix ι ι K) (S : MSState K ι) : MSState K ι :=
  let s := k.solve (-R) (k.solve Rᵀ g)
  { S with s := s, norms := k.nrm s, nfact := S.nfact + 1 }

/-- The exit with an acceptable step (`bcdfo_solve_TR_MS.py` L221-L239). -/
def msAccept (g : ι → K) (H : Matrix ι ι K) (Δ εD : K) (S : MSState K ι) : MSOut K ι :=
  { s := S.s, lam := S.lam, norms := S.norms, value := modelVal g H S.s
    gplus := g + H *ᵥ S.s, nfact := S.nfact, neigd := 0
    msg := if S.norms < (1 - εD) * Δ then .interior else .boundary
    hard := false }

/-- The exit with NaN entries in the factor (`bcdfo_solve_TR_MS.py` L196-L203). -/
def msNan (g : ι → K) (S : MSState K ι) : MSOut K ι :=
  { s := S.s, lam := S.lam, norms := S.norms, value := 0, gplus := g, nfact := S.nfact, neigd := 0
    msg := .error4, hard := false }

/-- The loop (`bcdfo_solve_TR_MS.py` L185-L272) with `r` rounds left: the result, or the state in which the pseudo-hard case
is entered. -/
def msLoop (k : MSKer K ι) (g : ι → K) (H : Matrix ι ι K) (Δ εD : K) :
    ℕ → MSState K ι → MSOut K ι ⊕ MSState K ι
  | 0, S => .inr S
  | r + 1, S =>
    match k.chol (H + S.lam • (1 : Matrix ι ι K)) with
    | .nan => .inl (msNan g S)
    | .ok R =>
      let S := msSolve k g R S
      if (S.lam ≤ epsMS ∧ S.norms ≤ (1 + εD) * Δ) ∨
          (S.norms ≥ (1 - εD) * Δ ∧ S.norms ≤ (1 + εD) * Δ) then
        .inl (msAccept g H Δ εD S)
      else
        let S := msNewton k Δ εD R S
        if S.upper - S.lower < thetaMS * max 1 S.upper then .inr S else msLoop k g H Δ εD r S
    | .fail =>
      let S := msBisect S
      if S.upper - S.lower < thetaMS * max 1 S.upper then .inr S else msLoop k g H Δ εD r S

/-- The largest diagonal entry of `D - mu*I` (`bcdfo_solve_TR_MS.py` L291-L292). -/
def maxShift (D : ι → K) (mu : K) : K :=
  if h : (Finset.univ : Finset ι).Nonempty then Finset.univ.sup' h (fun i => D i - mu) else 0

/-- Members of `ii` (`bcdfo_solve_TR_MS.py` L293). -/
def tinyDiag (D : ι → K) (mu : K) (i : ι) : Prop := |D i - mu| < 1 / 10 ^ 10 * maxShift D mu

instance (D : ι → K) (mu : K) : DecidablePred (tinyDiag D mu) := fun i => by
  unfold tinyDiag; infer_instance

/-- `scri` (`bcdfo_solve_TR_MS.py` L295-L303): `-V * Dinv * V'*g`, where `Dinv` is the inverse of the diagonal of `D - mu*I`
outside `ii` and 0 in `ii`. -/
def msScri (V : Matrix ι ι K) (D : ι → K) (mu : K) (g : ι → K) : ι → K :=
  if (∃ i, ¬ tinyDiag D mu i) ∧ (∃ i, tinyDiag D mu i) then
    - (V *ᵥ (fun i => (if tinyDiag D mu i then 0 else (D i - mu)⁻¹) * (Vᵀ *ᵥ g) i))
  else 0

/-- The larger root of `a*x^2 + 2*b*x + c` (`bcdfo_solve_TR_MS.py` L306-L307). -/
def bigRoot (k : MSKer K ι) (a b c : K) : K := (-b + k.sq (b ^ 2 - a * c)) / a

/-- `bcdfo_solve_TR_MS.py` L305-L310: the step of the pseudo-hard case. -/
def msHardStep (k : MSKer K ι) (g : ι → K) (H : Matrix ι ι K) (Δ : K) : ι → K :=
  let e := k.eig H
  let v : ι → K := fun i => e.1 i e.2.2
  let scri := msScri e.1 e.2.1 (e.2.1 e.2.2) g
  let nscri := k.nrm scri
  if nscri ≤ Δ then scri + bigRoot k (k.nrm v ^ 2) (v ⬝ᵥ scri) (nscri ^ 2 - Δ ^ 2) • v
  else (Δ / nscri) • scri

/-- The pseudo-hard case (`bcdfo_solve_TR_MS.py` L274-L339).  `norms` and `value` are not recomputed when the step is set
to zero. -/
def msHard (k : MSKer K ι) (g : ι → K) (H : Matrix ι ι K) (Δ εD : K) (S : MSState K ι) : MSOut K ι :=
  let e := k.eig H
  let s := msHardStep k g H Δ
  let value := modelVal g H s
  { s := if |value| ≤ 1 / 10 ^ 15 then 0 else s
    lam := - e.2.1 e.2.2, norms := k.nrm s, value := value
    gplus := g + H *ᵥ s, nfact := S.nfact, neigd := 1
    msg := if k.nrm s < (1 - εD) * Δ then .interior else .boundary
    hard := true }

/-- The exits with the zero step (`bcdfo_solve_TR_MS.py` L129-L139, L143-L168). -/
def msZero (k : MSKer K ι) (g : ι → K) (msg : MSMsg) : MSOut K ι :=
  { s := 0, lam := 0, norms := k.nrm (0 : ι → K), value := 0, gplus := g, nfact := 0, neigd := 0
    msg := msg, hard := false }

/-- `bcdfo_solve_TR_MS_` (`bcdfo_solve_TR_MS.py` L66-L339). -/
def trms (k : MSKer K ι) (g : ι → K) (H : Matrix ι ι K) (Δ εD : K) : MSOut K ι :=
  if Δ = 0 then msZero k g .zeroRadius
  else if k.nrm g ^ 2 < epsMS then msZero k g .zeroGradient
  else
    match msLoop k g H Δ εD 300 (msStart k g H Δ) with
    | .inl o => o
    | .inr S => msHard k g H Δ εD S

end Sqpdfo
