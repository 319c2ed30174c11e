import Mathlib.Algebra.Order.Field.Basic
import Mathlib.Tactic.Ring

/-! # Univariate quadratics and the coordinate search of `Minq`

`Minq._quadMin` and `Minq.coordinateSearch` (`minq.py` L150-L201, L396-L464), `prt = 0`.  Arithmetic
is exact.  An infinite lower end is `none` (minus infinity), an infinite upper end is `none` (plus
infinity); the other combinations of infinities are excluded. -/

namespace Sqpdfo
variable {K : Type} [Field K] [LinearOrder K]

/-- The tuple `(x, lba, uba, ier)`; `x = none` is NaN (`minq.py` L177, L198). -/
structure QMin (K : Type) where
  x : Option K
  lba : Bool
  uba : Bool
  ier : Bool

/-- `x <= low` (`minq.py` L195). -/
def reachLow (low : Option K) (x : K) : Bool :=
  match low with | none => false | some l => decide (x ≤ l)

/-- `x >= high` (`minq.py` L196). -/
def reachHigh (high : Option K) (x : K) : Bool :=
  match high with | none => false | some h => decide (h ≤ x)

/-- `_quadMin(low, high, b, a)` (`minq.py` L150-L201).  In the concave case with two infinite ends the result has
been returned before as unbounded; the value `0` there is a filler. -/
def quadMin (low high : Option K) (b a : K) : QMin K :=
  let lba := decide (low = none ∧ (a < 0 ∨ (a = 0 ∧ b > 0)))
  let uba := decide (high = none ∧ (a < 0 ∨ (a = 0 ∧ b < 0)))
  if lba || uba then ⟨none, lba, uba, true⟩
  else if a = 0 ∧ b = 0 then ⟨some 0, false, false, false⟩
  else if a ≤ 0 then
    let lba := match low, high with
      | none, _ => false
      | some _, none => true
      | some l, some h => decide (2 * b + (l + h) * a > 0)
    ⟨some ((if lba then low else high).getD 0), lba, !lba, false⟩
  else
    let x := -b / a
    let lba := reachLow low x
    let uba := reachHigh high x
    let x := if lba then low.getD 0 else x
    let x := if uba then high.getD 0 else x
    ⟨some x, lba, uba, false⟩

variable {n : ℕ}

/-- The data of the search: `G` (symmetric), bounds (`minq.py` L92-L99). -/
structure MinqIn (K : Type) (n : ℕ) where
  G : Fin n → Fin n → K
  lo : Fin n → Option K
  hi : Fin n → Option K

/-- `self.x`, `self.gradient`, `self.free` (`minq.py` L398-L461). -/
structure MinqSt (K : Type) (n : ℕ) where
  x : Fin n → K
  g : Fin n → K
  free : Fin n → Bool

/-- `x[k] += a; gradient += a*G[:,k]` (`minq.py` L442-L443, L449-L450, L459-L460). -/
def MinqSt.move (p : MinqIn K n) (S : MinqSt K n) (k : Fin n) (a y : K) : MinqSt K n :=
  { S with x := Function.update S.x k y, g := fun i => S.g i + a * p.G i k }

/-- `free[k] = v` (`minq.py` L445, L452, L461). -/
def MinqSt.setFree (S : MinqSt K n) (k : Fin n) (v : Bool) : MinqSt K n :=
  { S with free := Function.update S.free k v }

/-- One coordinate step (`minq.py` L423-L463).  `none`: unbounded (`info = 1`).  The flag says whether `count` is
reset. -/
def coordStep (p : MinqIn K n) (S : MinqSt K n) (k : Fin n) : Option (MinqSt K n × Bool) :=
  let au := (p.lo k).map (· - S.x k)
  let ao := (p.hi k).map (· - S.x k)
  let q := quadMin au ao (S.g k) (p.G k k)
  match q.ier, q.x with
  | true, _ => none
  | _, none => none
  | false, some alpha =>
    let xnew := S.x k + alpha
    if q.lba = true ∨ (∃ l ∈ p.lo k, xnew ≤ l) then
      let l := (p.lo k).getD 0
      let d := l - S.x k
      if d ≠ 0 then some ((S.move p k d l).setFree k false, true)
      else some (S.setFree k false, false)
    else if q.uba = true ∨ (∃ h ∈ p.hi k, h ≤ xnew) then
      let h := (p.hi k).getD 0
      let d := h - S.x k
      if d ≠ 0 then some ((S.move p k d h).setFree k false, true)
      else some (S.setFree k false, false)
    else if alpha ≠ 0 then some ((S.move p k alpha xnew).setFree k true, false)
    else some (S, false)

/-- `minq.py` L412-L413: the index after `k` (`k = -1` at the start): `if k == n-1: k = 0` and `k += 1`. -/
def nextIdx (n : ℕ) (k : ℤ) : ℤ := (if k = n - 1 then 0 else k) + 1

/-- The inner loop (`minq.py` L409-L416) looking for the next index: `r` bounds the number of rounds (`count`
grows by one in each and the loop ends when it exceeds `n`).  Result: count, index. `none`: the index
is outside the list (IndexError). -/
def seekIdx (S : MinqSt K n) (unfix : Bool) : ℕ → ℕ → ℤ → Option (ℕ × ℤ)
  | 0, count, k => some (count, k)
  | r + 1, count, k =>
    if count ≤ n then
      let k := nextIdx n k
      if h : 0 ≤ k ∧ k.toNat < n then
        if S.free ⟨k.toNat, h.2⟩ ∨ unfix then some (count + 1, k)
        else seekIdx S unfix r (count + 1) k
      else none
    else some (count, k)

/-- Results of the search (`minq.py` L429-L433, L462). -/
inductive CoordRes (K : Type) (n : ℕ)
  | done (S : MinqSt K n)
  | unbounded (S : MinqSt K n)
  | indexError
  | running (S : MinqSt K n) (count : ℕ) (k : ℤ)

/-- The outer loop (`minq.py` L407-L463), at most `r` rounds; `running` if it is not finished then. -/
def coordLoop (p : MinqIn K n) (unfix : Bool) : ℕ → MinqSt K n → ℕ → ℤ → CoordRes K n
  | 0, S, count, k => .running S count k
  | r + 1, S, count, k =>
    match seekIdx S unfix (n + 1) count k with
    | none => .indexError
    | some (count, k) =>
      if count > n then .done S
      else if h : 0 ≤ k ∧ k.toNat < n then
        match coordStep p S ⟨k.toNat, h.2⟩ with
        | none => .unbounded S
        | some (S, reset) => coordLoop p unfix r S (if reset then 0 else count) k
      else .indexError

end Sqpdfo
