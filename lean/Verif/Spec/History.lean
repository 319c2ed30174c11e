import Verif.Spec.Entry
import Verif.Model.History

/-! # Specification of the convergence history (C92) -/

namespace Sqpdfo.Spec
variable {K : Type}

/-- Statuses with which the last line is written a second time: limit of the iterations, limit of the evaluations, small radius. -/
def twice (fl : ℕ) : Prop := fl = 5 ∨ fl = 6 ∨ fl = 15

instance (fl : ℕ) : Decidable (twice fl) := by unfold twice; infer_instance

/-- The lines of a call in dimension `n` that has ended after `niter` iterations and `nsimul` evaluations with status `fl`: one line per
iteration, in order, and another one for the last iteration if the status is 5, 6 or 15; the numbers of evaluations increase from at
least `n + 1` to at most `nsimul`; for the statuses 0, 5, 6 and 15 the last line shows the final state `last`. -/
structure IsHistory (n niter nsimul fl : ℕ) (last : HLine K) (L : List (HLine K)) : Prop where
  numbers : L.map (·.niter) = List.range' 1 niter ++ (if twice fl then [niter] else [])
  increasing : L.Pairwise (fun l l' => l.nsimul ≤ l'.nsimul)
  evaluations : ∀ l ∈ L, n + 1 ≤ l.nsimul ∧ l.nsimul ≤ nsimul
  last : fl = 0 ∨ twice fl → L.getLast? = some last

/-- The objective, the constraints or the start point is missing. -/
def Missing (a : Args K) : Prop := a.f = .missing ∨ (a.c = .missing ∧ 0 < a.me + a.mi) ∨ a.x0 = .missing

end Sqpdfo.Spec
