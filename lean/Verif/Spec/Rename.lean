import Verif.Spec.Translate
import Verif.Spec.Reorder

/-! # Specification: the same problem with its variables in another order (C119) -/

namespace Sqpdfo.Spec
variable {K F : Type} [Field K] [LinearOrder K] {n : ℕ}

/-- The calls of the user's functions in the original order of the variables. -/
def renameBackW (σ : Equiv.Perm (Fin n)) : World (List K) → World (List K) := carryW (reorder σ⁻¹)

/-- The user's functions for variables in another order: component `i` of the new variables is component `σ i` of the old ones. -/
def renameUser (σ : Equiv.Perm (Fin n)) (U : User (List K) K) : User (List K) K :=
  ⟨fun w y => U.f (renameBackW σ w) (reorder σ⁻¹ y), U.c.map fun g w y => g (renameBackW σ w) (reorder σ⁻¹ y)⟩

/-- Gradients for variables in another order. -/
def renameG (σ : Equiv.Perm (Fin n)) (g : Grads K) : Grads K := ⟨reorder σ g.g, g.a.map (reorder σ)⟩

/-- The bounds, kernels and functions for variables in another order. -/
def renameCoords (σ : Equiv.Perm (Fin n)) (e : Env K F) : Coords K F :=
  ⟨reorder σ e.lb, reorder σ e.ub, fun Y => e.build (Y.map (reorder σ⁻¹)),
    fun f x fY ceY => renameG σ (e.model f (reorder σ⁻¹ x) fY ceY), renameUser σ e.U⟩

/-- The same problem with the variables in another order. -/
def renameEnv (σ : Equiv.Perm (Fin n)) (e : Env K F) : Env K F := e.within (renameCoords σ e)

/-- The results of the kernels for variables in another order. -/
def renameOrc (σ : Equiv.Perm (Fin n)) (o : Orc K F) : Orc K F :=
  { o with
    poisedness := fun f Y => o.poisedness f (Y.map (reorder σ⁻¹))
    propose := fun f Y j => (reorder σ (o.propose f (Y.map (reorder σ⁻¹)) j).1, (o.propose f (Y.map (reorder σ⁻¹)) j).2)
    xnew := reorder σ o.xnew }

/-- The state of a run for variables in another order: the components of all points and gradients are reordered. -/
def renameSt (σ : Equiv.Perm (Fin n)) : MSt K F → MSt K F := carrySt (reorder σ) id (renameG σ)

/-- All points among the results of the kernels have `n` components. -/
def NComps (n : ℕ) (o : Orc K F) : Prop := o.xnew.length = n ∧ ∀ f Y j, (o.propose f Y j).1.length = n

/-- The norm does not depend on the order of the components. -/
def OrderFree (e : Env K F) : Prop := ∀ l l' : List K, l.Perm l' → e.nrm l = e.nrm l'

end Sqpdfo.Spec
