import Verif.Spec.Main

/-! # Specification: what a step does to the interpolation set, the slacks and the radius -/

namespace Sqpdfo.Spec
variable {K : Type} [Field K] [LinearOrder K]

/-- Position `pos` out of `n` is chosen among the candidates: its Lagrange value exceeds the
threshold, and no candidate above the threshold has a larger measure. -/
structure Chosen (cand : ℕ → Prop) (thr : K) (lval measure : ℕ → K) (n pos : ℕ) : Prop where
  lt : pos < n
  isCand : cand pos
  above : thr < |lval pos|
  best : ∀ j, j < n → cand j → thr < |lval j| → measure j ≤ measure pos

/-- No candidate has a Lagrange value above the threshold. -/
def NoneAbove (cand : ℕ → Prop) (thr : K) (lval : ℕ → K) (n : ℕ) : Prop :=
  ∀ j, j < n → cand j → |lval j| ≤ thr

/-- The choice of a point to be replaced: a far one (distance `d` larger than `len`, Lagrange value above `1e-10`,
best for the measure `mfar`) or, if there is none, a close one with Lagrange value above `thr`, as large as
possible. -/
def FarOrClose (cand : ℕ → Prop) (len thr : K) (d lfar mfar lclose : ℕ → K) (n pos : ℕ) : Prop :=
  Chosen (fun j => cand j ∧ len < d j) (1 / 10 ^ 10) lfar mfar n pos ∨
    NoneAbove (fun j => cand j ∧ len < d j) (1 / 10 ^ 10) lfar n ∧
      Chosen (fun j => cand j ∧ d j ≤ len) thr lclose (fun j => |lclose j|) n pos

/-- Neither a far nor a close point can be replaced. -/
def NothingToReplace (cand : ℕ → Prop) (len thr : K) (d lfar lclose : ℕ → K) (n : ℕ) : Prop :=
  NoneAbove (fun j => cand j ∧ len < d j) (1 / 10 ^ 10) lfar n ∧
    NoneAbove (fun j => cand j ∧ d j ≤ len) thr lclose n

/-- Point number `m` with coordinates `x` takes the place `pos` in a set of points `Y` with numbers
`ind`; all others stay (possibly in another order). -/
structure TakesPlace (pos m : ℕ) (x : List K) (Y Y' : List (List K)) (ind ind' : List ℕ) : Prop where
  len : Y'.length = Y.length ∧ ind'.length = ind.length
  new : x ∈ Y' ∧ m ∈ ind'
  pts : ∀ j y, j ≠ pos → Y[j]? = some y → y ∈ Y'
  nums : ∀ j i, j ≠ pos → ind[j]? = some i → i ∈ ind'

/-- Point number `m` with coordinates `x` is added to the set. -/
structure Joins (m : ℕ) (x : List K) (Y Y' : List (List K)) (ind ind' : List ℕ) : Prop where
  len : Y'.length = Y.length + 1 ∧ ind'.length = ind.length + 1
  new : x ∈ Y' ∧ m ∈ ind'
  pts : ∀ y ∈ Y, y ∈ Y'
  nums : ∀ i ∈ ind, i ∈ ind'

/-- Slacks after the move away from zero: a slack that is zero although the value `c` of its
inequality exceeds 0.01 becomes the square root of `c`; the others are kept. -/
def SlackMoved (sqrt : K → K) (s c s' : K) : Prop :=
  (s = 0 → 1 / 100 < c → s' = sqrt c) ∧ (¬ (s = 0 ∧ 1 / 100 < c) → s' = s)

/-- `g` is where the parabola through the values `f` (at 0) and `fnew` (at 1) with slope `slope` at 0 has
changed by 9/10 of the change of the model parabola with the same slope and the decrease `pred` at 1.  (Divided
by `g`, so that it also makes sense for `g = 0`.) -/
def Interpolates (f fnew slope pred g : K) : Prop :=
  slope + g * (fnew - f - slope) = 9 / 10 * (slope + g * (- pred - slope))

/-- The precision after an improvement of the set: `1e-5`; but if the last step promised no reduction, a tenth of the radius at an infeasible iterate, and otherwise a tenth of the old
precision, at most `1e-5`. -/
def EpsAfter (noPred infeasible : Prop) (d eps eps' : K) : Prop :=
  (¬ noPred → eps' = 1 / 10 ^ 5) ∧ (noPred → infeasible → eps' = d / 10) ∧
    (noPred → ¬ infeasible → eps' = min (eps / 10) (1 / 10 ^ 5))

/-- The radius after an improvement of the set with the new precision `eps`: the radius is cut to the precision, but raised to it if the last step promised a reduction and the gradient of the Lagrangian exceeds
`1e-3`. -/
def RadiusAfter (noPred : Prop) (glag d eps d' : K) : Prop :=
  (noPred ∨ glag ≤ 1 / 10 ^ 3 → d' = min d eps) ∧ (¬ noPred → 1 / 10 ^ 3 < glag → d' = max d eps)

end Sqpdfo.Spec
