import Verif.Model.QuadMin
import Verif.Model.Ldl
import Mathlib.Data.Fintype.Card
import Mathlib.Data.List.FinRange

/-! # The box-constrained quadratic solver `minq`

`Minq.setSearchInit`, `_Info`, `subspace`, `subspaceSearch`, `calcGain`, `search` (`minq.py` L121-L147, L201-L221, L465-L605, L629-L702) around the
models of `coordinateSearch` (`QuadMin.lean`) and of the factorisation updates (`Ldl.lean`); `prt = 0`, `convex = 0`.  Arithmetic is exact.  `self.x`
and `self.xTry` are the same array (L653), hence one field.  Calls on vectors of wrong shape raise; the result is then `raised`. -/

namespace Sqpdfo
variable {K : Type} [Field K] [LinearOrder K] {n : ℕ}

/-- `self.L`, `self.d`, `self.K` (`minq.py` L141-L143). -/
structure Fac (K : Type) (n : ℕ) where
  L : Fin n → Fin n → K
  d : Fin n → K
  K : Fin n → Bool

/-- `minq.py` L141-L143. -/
def Fac.init : Fac K n := ⟨fun i j => if i = j then 1 else 0, fun _ => 1, fun _ => false⟩

/-- `minq.py` L472-L474, for the newly active indices `js`. -/
def facDown (neps : K) (slv : Solver K) : List (Fin n) → Fac K n → Option (Fac K n)
  | [], A => some A
  | j :: js, A =>
    match ldldown neps slv A.L A.d j with
    | none => none
    | some (L, d) => facDown neps slv js ⟨L, d, Function.update A.K j false⟩

/-- `minq.py` L478-L490, for the newly free indices `js`.  `none`: an indefinite direction, and `list(p.T[0])` (L499) or the products with it (L527) raise
since `p` is one-dimensional (L295, L310) or a matrix object (L356). -/
def facUp (neps : K) (slv : Solver K) (G : Fin n → Fin n → K) : List (Fin n) → Fac K n → Option (Fac K n)
  | [], A => some A
  | j :: js, A =>
    match ldlup neps slv A.L A.d j (fun i => if i = j then G j j else if A.K i then G i j else 0) with
    | none => none
    | some ⟨L, d, none⟩ => facUp neps slv G js ⟨L, d, Function.update A.K j true⟩
    | some ⟨L, d, some p⟩ => if p = 0 then facUp neps slv G js ⟨L, d, Function.update A.K j true⟩ else none

/-- `minq.py` L472-L496: the factorisation for the free variables and the reduced Newton direction. -/
def facDir (neps : K) (slv : Solver K) (G : Fin n → Fin n → K) (A : Fac K n) (free : Fin n → Bool) (g : Fin n → K) :
    Option (Fac K n × (Fin n → K)) :=
  (facDown neps slv ((List.finRange n).filter fun j => !free j && A.K j) A).bind fun A =>
  (facUp neps slv G ((List.finRange n).filter fun j => free j && !A.K j) A).map fun A =>
    let y := slv.run (Fin n) A.L fun i => if A.K i then g i else 0
    (A, fun i => -slv.run (Fin n) (fun a b => A.L b a) (fun i => y i / A.d i) i)

/-- The largest element; of nothing: minus infinity (`minq.py` L511-L515). -/
def maxO : List K → Option K
  | [] => none
  | a :: l => some (match maxO l with | none => a | some b => max a b)

/-- The smallest element; of nothing: plus infinity (`minq.py` L517-L521). -/
def minO : List K → Option K
  | [] => none
  | a :: l => some (match minO l with | none => a | some b => min a b)

/-- `oo[k]`, `uu[k]` (`minq.py` L508-L509); `none` if the bound is infinite. -/
def ratio (b : Option K) (x p : K) : Option K := b.map fun b => (b - x) / p

/-- `minq.py` L511-L514: contributions to the lower end of the step sizes. -/
def lowEnd (q : MinqIn K n) (x p : Fin n → K) (i : Fin n) : Option K :=
  if p i < 0 then ratio (q.hi i) (x i) (p i) else if 0 < p i then ratio (q.lo i) (x i) (p i) else none

/-- `minq.py` L517-L520: contributions to the upper end. -/
def highEnd (q : MinqIn K n) (x p : Fin n → K) (i : Fin n) : Option K :=
  if 0 < p i then ratio (q.hi i) (x i) (p i) else if p i < 0 then ratio (q.lo i) (x i) (p i) else none

/-- `minq.py` L549-L564: one entry of the new point, and of `free`. -/
def stepEntry (q : MinqIn K n) (x p : Fin n → K) (alpha : K) (free : Fin n → Bool) (i : Fin n) : K × Bool :=
  if p i = 0 then (x i, free i)
  else if ratio (q.lo i) (x i) (p i) = some alpha then ((q.lo i).getD 0, false)
  else if ratio (q.hi i) (x i) (p i) = some alpha then ((q.hi i).getD 0, false)
  else (x i + alpha * p i, free i)

/-- Results of a subspace step: `nan`: the step size is NaN (`minq.py` L540-L543), and the point contains NaN from then on. -/
inductive SubRes (K : Type) (n : ℕ)
  | ok (x : Fin n → K) (free : Fin n → Bool) (unfix : Bool)
  | nan

/-- `minq.py` L498-L568, for the direction `d`. -/
def subStep (neps : K) (q : MinqIn K n) (S : MinqSt K n) (d : Fin n → K) : SubRes K n :=
  let au := maxO ((List.finRange n).filterMap (lowEnd q S.x d))
  let ao := minO ((List.finRange n).filterMap (highEnd q S.x d))
  let gTp := ∑ i, S.g i * d i
  let agTp := ∑ i, |S.g i| * |d i|
  let gTp := if |gTp| < neps * agTp then 0 else gTp
  let pTGp := ∑ i, d i * ∑ j, q.G i j * d j
  let m := quadMin au ao gTp pTGp
  match m.ier, m.x with
  | true, _ => .nan
  | _, none => .nan
  | false, some alpha =>
    .ok (fun i => (stepEntry q S.x d alpha S.free i).1) (fun i => (stepEntry q S.x d alpha S.free i).2) (!(m.lba || m.uba))

/-- The attributes of the object that survive a pass; `Φ`: the factorisation.  `fval = none`: plus infinity (`minq.py` L121-L148). -/
structure MinqObj (K Φ : Type) (n : ℕ) where
  x : Fin n → K
  free : Fin n → Bool
  fac : Φ
  unfix : Bool
  improvement : Bool
  nitref : ℕ
  nsub : ℕ
  nfree : ℤ
  nfreeOld : ℤ
  fval : Option K

/-- Results of `search`: a returned tuple with the object, an exception, a point with NaN, or not finished within the given number of rounds
(`minq.py` L655-L702). -/
inductive MinqRes (K Φ : Type) (n : ℕ)
  | done (M : MinqObj K Φ n) (info : ℤ)
  | raised
  | nan
  | running

/-- Number of free variables (`minq.py` L566, L665). -/
def nFree (free : Fin n → Bool) : ℤ := (Finset.univ.filter fun i => free i = true).card

/-- `minq.py` L648-L651. -/
def newFval (nitref : ℕ) (fval : Option K) (fvalnew : K) : K :=
  if nitref = 0 then (match fval with | none => fvalnew | some v => min v fvalnew) else fvalnew

/-- `_Info` (`minq.py` L201-L221), with `self.nitrefmax = 3` and `self.maxit = 3*n`. -/
def minqInfo {Φ : Type} (M : MinqObj K Φ n) (fvalnew fval : K) : ℤ :=
  if M.nitref = 0 ∧ M.nsub = 3 * n then 99
  else if M.improvement = false then 0
  else if 3 < M.nitref then 0
  else if 0 < M.nitref ∧ M.nfreeOld = M.nfree ∧ fval ≤ fvalnew then 0
  else -1

/-- `minq.py` L665-L695: what follows the coordinate search.  `dir`: the search direction, see `facDir`. -/
def minqRest {Φ : Type} (neps : K) (dir : Φ → (Fin n → Bool) → (Fin n → K) → Option (Φ × (Fin n → K))) (q : MinqIn K n) (c : Fin n → K) (gamma : K)
    (M : MinqObj K Φ n) (fval : K) (S : MinqSt K n) : MinqObj K Φ n ⊕ MinqRes K Φ n :=
  let nfree := nFree S.free
  let nitref := if M.unfix = true ∧ M.nfreeOld = nfree then M.nitref + 1 else 0
  let gain := fval - gamma - 1 / 2 * ∑ i, S.x i * (c i + S.g i)
  let improvement := decide (0 < gain) || !M.unfix
  let M' : MinqObj K Φ n := ⟨S.x, S.free, M.fac, M.unfix, improvement, nitref, M.nsub, nfree, nfree, some fval⟩
  if improvement = false ∨ 3 < nitref then .inl M'
  else if nfree = 0 then .inl { M' with unfix := true }
  else
    match dir M.fac S.free S.g with
    | none => .inr .raised
    | some (A, d) =>
      match subStep neps q S d with
      | .nan => .inr .nan
      | .ok x free unfix => .inl { M' with x := x, free := free, unfix := unfix, fac := A, nsub := M.nsub + 1, nfree := nFree free }

/-- The main loop (`minq.py` L643-L702), at most `r` passes with at most `rc` rounds of the coordinate search each.  `coordinateSearch` sets `self.info` only if it
looks at a coordinate (L427); otherwise the value `-1` of `_Info` is returned (L661-L662). -/
def minqLoop {Φ : Type} (neps : K) (dir : Φ → (Fin n → Bool) → (Fin n → K) → Option (Φ × (Fin n → K))) (q : MinqIn K n) (c : Fin n → K) (gamma : K)
    (rc : ℕ) : ℕ → MinqObj K Φ n → MinqRes K Φ n
  | 0, _ => .running
  | r + 1, M =>
    let g := fun i => ∑ j, q.G i j * M.x j + c i
    let fvalnew := gamma + 1 / 2 * ∑ i, (c i + g i) * M.x i
    let fval := newFval M.nitref M.fval fvalnew
    let info := minqInfo M fvalnew fval
    if info = 0 ∨ info = 99 then .done { M with fval := some fval } info
    else
      match coordLoop q M.unfix rc ⟨M.x, g, M.free⟩ 0 (-1) with
      | .running _ _ _ => .running
      | .indexError => .raised
      | .unbounded S => .done { M with x := S.x, free := S.free, fval := some fval } 1
      | .done S =>
        if M.unfix = false ∧ ∀ i, M.free i = false then .done { M with x := S.x, free := S.free, fval := some fval } (-1)
        else
          match minqRest neps dir q c gamma M fval S with
          | .inr R => R
          | .inl M => minqLoop neps dir q c gamma rc r M

/-- `minq.py` L137-L138: the diagonal is multiplied by `1 + neps` (in the array of the caller, if that is a float array). -/
def regularise (neps : K) (G : Fin n → Fin n → K) : Fin n → Fin n → K := fun i j => if i = j then G i j * (1 + neps) else G i j

/-- `minq.py` L129: `numpy.maximum(xu, numpy.minimum(x, xo))`. -/
def clampO (lo hi : Option K) (x : K) : K :=
  let y := match hi with | none => x | some h => min x h
  match lo with | none => y | some l => max l y

/-- `minq(c, G, xlow, xhigh, x0, gamma)` (`minq.py` L706-L737) with the object.  Without `x0` the start is uninitialised memory (L126), that is any `x0`. -/
def minq (neps : K) (slv : Solver K) (c : Fin n → K) (G : Fin n → Fin n → K) (lo hi : Fin n → Option K) (x0 : Fin n → K) (gamma : K) (rc r : ℕ) :
    MinqRes K (Fac K n) n :=
  minqLoop neps (facDir neps slv (regularise neps G)) ⟨regularise neps G, lo, hi⟩ c gamma rc r
    ⟨fun i => clampO (lo i) (hi i) (x0 i), fun _ => false, Fac.init, true, true, 0, 0, 0, -1, none⟩

end Sqpdfo
