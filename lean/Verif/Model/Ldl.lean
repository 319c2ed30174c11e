import Mathlib.Algebra.BigOperators.Fin
import Mathlib.Algebra.Group.Pi.Basic
import Mathlib.Data.Finset.Sort
import Mathlib.Data.Fintype.Sort
import Mathlib.Algebra.Order.Field.Basic

/-! # Updates of `L D Lᵀ` factorisations

`Minq.ldlrk1`, `Minq.ldlup`, `Minq.ldldown` (`minq.py` L223-L395).  Index sets are finite linear orders, so that blocks of a matrix are
functions on subtypes.  Arithmetic is exact.  `mldiv` (`minq_util.py` L51-L60), applied to square matrices only, is a parameter. -/

namespace Sqpdfo
variable {K : Type} [Field K] [LinearOrder K]

/-- `numpy.linalg.solve`, for all index sets (`minq.py` L278-L358). -/
structure Solver (K : Type) where
  run : ∀ (ι : Type) [Fintype ι] [LinearOrder ι], (ι → ι → K) → (ι → K) → ι → K

variable {ι : Type} [Fintype ι] [LinearOrder ι]

/-- `L`, `d` and `p`; `none`: `p` is the empty array (`minq.py` L224-L358). -/
structure Ldl (K ι : Type) where
  L : (ι → ι → K)
  d : ι → K
  p : Option (ι → K)

/-- `minq.py` L252-L255: zeros but for the indices up to `k`, where `L[0:k+1,0:k+1].T` is solved with the unit vector `k`. -/
def negDir (slv : Solver K) (L : (ι → ι → K)) (k : ι) : ι → K := fun i =>
  if h : i ≤ k then slv.run {a // a ≤ k} (fun a b => L b.1 a.1) (fun a => if a.1 = k then 1 else 0) ⟨i, h⟩ else 0

/-- The loop (`minq.py` L246-L273) over the indices of `find(u!=0)`; `L0`, `d0`: saved factors. -/
def rk1Loop (neps : K) (slv : Solver K) (L0 : (ι → ι → K)) (d0 : ι → K) : List ι → (ι → ι → K) → (ι → K) → K → (ι → K) → Ldl K ι
  | [], L, d, _, _ => ⟨L, d, none⟩
  | k :: ks, L, d, alpha, u =>
    let delta := d k + alpha * u k ^ 2
    if alpha < 0 ∧ delta ≤ neps then ⟨L0, d0, some (negDir slv L k)⟩
    else
      let q := d k / delta
      let L' : (ι → ι → K) := fun i j => if k ≤ i ∧ j = k then L i k * q + alpha * u k / delta * u i else L i j
      let d' := Function.update d k delta
      let u' := fun i => if k ≤ i then u i - L i k * u k else u i
      if alpha * q = 0 then ⟨L', d', none⟩ else rk1Loop neps slv L0 d0 ks L' d' (alpha * q) u'

/-- `ldlrk1(L, d, alpha, u)` (`minq.py` L223-L275).  `none`: returns nothing, which makes the caller raise (L237-L238). -/
def ldlrk1 (neps : K) (slv : Solver K) (L : (ι → ι → K)) (d : ι → K) (alpha : K) (u : ι → K) : Option (Ldl K ι) :=
  if alpha = 0 then none
  else some (rk1Loop neps slv L d ((Finset.univ.filter fun k => u k ≠ 0).sort (· ≤ ·)) L d alpha u)

/-- `ldldown(L, d, j)` (`minq.py` L363-L395). -/
def ldldown (neps : K) (slv : Solver K) (L : (ι → ι → K)) (d : ι → K) (j : ι) : Option ((ι → ι → K) × (ι → K)) :=
  (ldlrk1 (ι := {i // j < i}) neps slv (fun a b => L a.1 b.1) (fun a => d a.1) (d j) fun a => L a.1 j).map fun F =>
    (fun a b => if h : j < a then (if h' : j < b then F.L ⟨a, h⟩ ⟨b, h'⟩ else if b = j then 0 else L a b)
        else if a = j then (if b = j then 1 else 0) else L a b,
      fun a => if h : j < a then F.d ⟨a, h⟩ else if a = j then 1 else d a)

/-- `minq.py` L322-L358: the last block. -/
def upLast (neps : K) (slv : Solver K) (L : (ι → ι → K)) (d : ι → K) (j : ι) (v : {i // i < j} → K) (delta : K) (w : {i // j < i} → K) :
    Option (Ldl K ι) :=
  (ldlrk1 (ι := {i // j < i}) neps slv (fun a b => L a.1 b.1) (fun a => d a.1) (-delta) w).map fun F =>
    match F.p with
    | none =>
      ⟨fun a b =>
          if h : j < a then (if h' : j < b then F.L ⟨a, h⟩ ⟨b, h'⟩ else if b = j then w ⟨a, h⟩ else L a b)
          else if a = j then (if h' : b < j then v ⟨b, h'⟩ else if b = j then 1 else L a b)
          else L a b,
        fun a => if h : j < a then F.d ⟨a, h⟩ else if a = j then delta else d a, none⟩
    | some q =>
      let pi := ∑ a, w a * q a
      let p1 := slv.run {i // i < j} (fun a b => L b.1 a.1) fun b => pi * v b - ∑ a : {i // j < i}, L a.1 b.1 * q a
      ⟨fun a b => if h : j < a ∧ j < b then F.L ⟨a, h.1⟩ ⟨b, h.2⟩ else L a b,
        fun a => if h : j < a then F.d ⟨a, h⟩ else d a,
        some fun i => if h : i < j then p1 ⟨i, h⟩ else if h' : j < i then q ⟨i, h'⟩ else -pi⟩

/-- `minq.py` L307-L320, with `u`, `v`, `delta` (L304-L306). -/
def upMid (neps : K) (slv : Solver K) (L : (ι → ι → K)) (d : ι → K) (j : ι) (g : ι → K) (u v : {i // i < j} → K) (delta : K) :
    Option (Ldl K ι) :=
  if delta ≤ neps then
    let pI := slv.run {i // i < j} (fun a b => L b.1 a.1) v
    some ⟨L, d, some fun i => if h : i < j then pI ⟨i, h⟩ else if i = j then -1 else 0⟩
  else upLast neps slv L d j v delta fun a => (g a.1 - ∑ b : {i // i < j}, L a.1 b.1 * u b) / delta

/-- `ldlup(L, d, j, g)` (`minq.py` L278-L358).  For the first index only `d` is changed (L293-L300). -/
def ldlup (neps : K) (slv : Solver K) (L : (ι → ι → K)) (d : ι → K) (j : ι) (g : ι → K) : Option (Ldl K ι) :=
  if ∀ i, j ≤ i then
    if g j ≤ neps then some ⟨L, d, some (Pi.single j 1)⟩ else some ⟨L, Function.update d j (g j), none⟩
  else
    let u := slv.run {i // i < j} (fun a b => L a.1 b.1) fun a => g a.1
    let v := fun a => u a / d a.1
    upMid neps slv L d j g u v (g j - ∑ a, u a * v a)

end Sqpdfo
