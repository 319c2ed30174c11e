import Verif.Model.Status
import Mathlib.Data.List.Basic

/-!
# C47: documented status codes

The docstring of `sqpdfo_` (`/repo/sqpdfo/sqpdfo.py` L59-L70) against the constants of
`sqpdfo_values.py` and the messages of `sqpdfo_finish.py`.
-/

namespace Sqpdfo

/-- Situations the docstring distinguishes. -/
inductive Situation where
  | solved | wrongArgument | problemStructure | evaluationError | maxIterations
  | maxEvaluations | stopRequired | dxmin | infeasibleQP | unboundedQP | unexpected
deriving DecidableEq

/-- All situations. -/
def Situation.all : List Situation :=
  [.solved, .wrongArgument, .problemStructure, .evaluationError, .maxIterations,
   .maxEvaluations, .stopRequired, .dxmin, .infeasibleQP, .unboundedQP, .unexpected]

/-- The documented code (`sqpdfo.py` L59-L70). -/
def documented : Situation → ℕ
  | .solved => 0 | .wrongArgument => 1 | .problemStructure => 2 | .evaluationError => 3
  | .maxIterations => 4 | .maxEvaluations => 5 | .stopRequired => 6 | .dxmin => 7
  | .infeasibleQP => 8 | .unboundedQP => 9 | .unexpected => 30

/-- The implemented code (`sqpdfo_values.py`). -/
def implemented : Situation → ℕ
  | .solved => Status.success | .wrongArgument => Status.failOnArgument
  | .problemStructure => Status.failOnProblem | .evaluationError => Status.failOnSimul
  | .maxIterations => Status.stopOnMaxIter | .maxEvaluations => Status.stopOnMaxSimul
  | .stopRequired => Status.stopOnSimul | .dxmin => Status.stopOnDxmin
  | .infeasibleQP => Status.failOnInfeasibleQP | .unboundedQP => Status.failOnUnboundedQP
  | .unexpected => Status.failUnexpected

/-- **C47 is false**: the documentation and the implementation disagree; moreover a
documented code is used for a different situation (5 is documented as "max simulations" but
returned for "max iterations"). -/
theorem C47_documentation_disagrees :
    ¬ (∀ s, documented s = implemented s) ∧
    ∃ s t, s ≠ t ∧ documented s = implemented t :=
  ⟨fun h => absurd (h .maxIterations) (by decide), .maxEvaluations, .maxIterations, by decide,
    by decide⟩

/-- **C47 (partial).** Exactly for these situations the documented code is right.  Missing for
the full claim: the remaining five situations, for which it is false. -/
theorem C47_documented_codes_partial (s : Situation) :
    documented s = implemented s ↔
      s ∈ [.solved, .wrongArgument, .problemStructure, .evaluationError, .dxmin, .unexpected] := by
  cases s <;> decide

/-- The implemented codes of different situations are different. -/
theorem C47_implemented_injective (s t : Situation) (h : implemented s = implemented t) :
    s = t := by
  cases s <;> cases t <;> first | rfl | exact absurd h (by decide)

/-- The printed message identifies the status: two statuses with the same nonempty message are
equal. -/
theorem C47_message_unambiguous (a b : ℕ) (h : Status.message a = Status.message b)
    (hne : Status.message a ≠ "") : a = b := by
  have key : ∀ a, Status.message a = "" ∨ a ∈ [0, 1, 2, 3, 4, 5, 6, 7, 8, 11, 20, 21, 22, 30, 15] := by
    intro a
    unfold Status.message
    simp only [Status.success, Status.failOnArgument, Status.failOnProblem, Status.failOnSimul,
      Status.stopOnSimul, Status.stopOnMaxIter, Status.stopOnMaxSimul, Status.stopOnDxmin,
      Status.failOnNonDecrease, Status.failOnIllCond, Status.failOnNullStep,
      Status.failOnInfeasibleQP, Status.failOnUnboundedQP, Status.failUnexpected,
      Status.stopOnSmallTR]
    by_cases h : a ∈ [0, 1, 2, 3, 4, 5, 6, 7, 8, 11, 20, 21, 22, 30, 15]
    · exact Or.inr h
    · left
      simp only [List.mem_cons, List.not_mem_nil, or_false, not_or] at h
      simp [h, eq_comm]
  have ha := (key a).resolve_left hne
  have hb := (key b).resolve_left (h ▸ hne)
  have tab : ∀ x ∈ [0, 1, 2, 3, 4, 5, 6, 7, 8, 11, 20, 21, 22, 30, 15],
      ∀ y ∈ [0, 1, 2, 3, 4, 5, 6, 7, 8, 11, 20, 21, 22, 30, 15],
      Status.message x = Status.message y → x = y := by decide
  exact tab a ha b hb h

/-- What the printed message has to say in a situation. -/
def situationText : Situation → String
  | .solved => "converged" | .wrongArgument => "wrong argument"
  | .problemStructure => "unaccepted problem structure"
  | .evaluationError => "error during function evaluation"
  | .maxIterations => "maximum number of iterations"
  | .maxEvaluations => "maximum number of function evaluations"
  | .stopRequired => "function can not be evaluated"
  | .dxmin => "too small variation in x (dxmin active)"
  | .infeasibleQP => "infeasible QP" | .unboundedQP => "unbounded QP"
  | .unexpected => "unexpected (possible premature) termination"

/-- The message printed for the implemented code of a situation describes this situation. -/
theorem C47_message_text (s : Situation) : Status.message (implemented s) = situationText s := by
  cases s <;> decide

example : Status.message 15 = "trust region radius too small" := by decide
example : documented .solved = implemented .solved := by decide

#print axioms C47_documentation_disagrees
#print axioms C47_documented_codes_partial
#print axioms C47_implemented_injective
#print axioms C47_message_unambiguous
#print axioms C47_message_text

end Sqpdfo
