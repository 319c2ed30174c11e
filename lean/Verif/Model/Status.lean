import Mathlib.Data.Nat.Notation

/-!
# Status codes and option constants

`/repo/sqpdfo/sqpdfo_values.py` (class `sqpdfoValues`) and the message table of
`/repo/sqpdfo/sqpdfo_finish.py`.
-/

namespace Sqpdfo.Status

/-- `sqpdfo_values.py` L7: solution found. -/
def success : ℕ := 0
/-- `sqpdfo_values.py` L8: an argument is wrong. -/
def failOnArgument : ℕ := 1
/-- `sqpdfo_values.py` L9: unaccepted problem structure. -/
def failOnProblem : ℕ := 2
/-- `sqpdfo_values.py` L10: error on a simulation. -/
def failOnSimul : ℕ := 3
/-- `sqpdfo_values.py` L11: simulator wants to stop. -/
def stopOnSimul : ℕ := 4
/-- `sqpdfo_values.py` L12: max iterations. -/
def stopOnMaxIter : ℕ := 5
/-- `sqpdfo_values.py` L13: max simulations. -/
def stopOnMaxSimul : ℕ := 6
/-- `sqpdfo_values.py` L14: stop on dxmin. -/
def stopOnDxmin : ℕ := 7
/-- `sqpdfo_values.py` L15: the merit function no longer decreases. -/
def failOnNonDecrease : ℕ := 8
/-- `sqpdfo_values.py` L16: nondescent direction in linesearch. -/
def failOnAscentDir : ℕ := 9
/-- `sqpdfo_values.py` L17: ill-conditioning. -/
def failOnIllCond : ℕ := 11
/-- `sqpdfo_values.py` L18: small trust-region radius. -/
def stopOnSmallTR : ℕ := 15
/-- `sqpdfo_values.py` L19: null step. -/
def failOnNullStep : ℕ := 20
/-- `sqpdfo_values.py` L20: infeasible QP. -/
def failOnInfeasibleQP : ℕ := 21
/-- `sqpdfo_values.py` L21: unbounded QP. -/
def failOnUnboundedQP : ℕ := 22
/-- `sqpdfo_values.py` L22: should not have happened. -/
def failUnexpected : ℕ := 30

/-- `sqpdfo_values.py` L27. -/
def powell : ℕ := 120
/-- `sqpdfo_values.py` L28. -/
def wolfe : ℕ := 121
/-- `sqpdfo_values.py` L29. -/
def bfgs : ℕ := 130
/-- `sqpdfo_values.py` L30. -/
def model : ℕ := 131
/-- `sqpdfo_values.py` L31. -/
def linear : ℕ := 140
/-- `sqpdfo_values.py` L32. -/
def diagonal : ℕ := 141
/-- `sqpdfo_values.py` L33. -/
def quadratic : ℕ := 142
/-- `sqpdfo_values.py` L34. -/
def subbasis : ℕ := 0
/-- `sqpdfo_values.py` L35. -/
def frobnorm : ℕ := 1
/-- `sqpdfo_values.py` L36. -/
def l2norm : ℕ := 2
/-- `sqpdfo_values.py` L37. -/
def regression : ℕ := 3

/-- The text printed for a status, `sqpdfo_finish.py` L15-L44, in the order of the
`if`/`elif` chain; an unknown flag prints nothing.  (The formatted number in the
null-step message, `values.max_null_steps + 1 = 2`, is substituted.) -/
def message (flag : ℕ) : String :=
  if success = flag then "converged"
  else if failOnArgument = flag then "wrong argument"
  else if failOnProblem = flag then "unaccepted problem structure"
  else if failOnSimul = flag then "error during function evaluation"
  else if stopOnSimul = flag then "function can not be evaluated"
  else if stopOnMaxIter = flag then "maximum number of iterations"
  else if stopOnMaxSimul = flag then "maximum number of function evaluations"
  else if stopOnDxmin = flag then "too small variation in x (dxmin active)"
  else if failOnNonDecrease = flag then "the merit function cannot be decreased"
  else if failOnIllCond = flag then "ill conditioning"
  else if failOnNullStep = flag then "null step d is solution of 2 QPs"
  else if failOnInfeasibleQP = flag then "infeasible QP"
  else if failOnUnboundedQP = flag then "unbounded QP"
  else if failUnexpected = flag then "unexpected (possible premature) termination"
  else if stopOnSmallTR = flag then "trust region radius too small"
  else ""

end Sqpdfo.Status
