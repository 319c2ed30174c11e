import Verif.Spec.Translate
import Verif.Spec.Signs

/-! # Specification: the same problem with the other sign of some variables (C123) -/

namespace Sqpdfo.Spec
variable {K F : Type} [Field K] [LinearOrder K]

/-- The lower bounds of the variables with the other sign where `ε` is true. -/
def mirrorLb (ε : List Bool) (lb ub : List K) : List K := List.zipWith (fun b p => if b then - p.2 else p.1) ε (lb.zip ub)

/-- The upper bounds of these variables. -/
def mirrorUb (ε : List Bool) (lb ub : List K) : List K := List.zipWith (fun b p => if b then - p.1 else p.2) ε (lb.zip ub)

/-- The user's functions of the variables with the other sign. -/
def mirrorUser (ε : List Bool) (U : User (List K) K) : User (List K) K :=
  ⟨fun w y => U.f (carryW (signed ε) w) (signed ε y), U.c.map fun g w y => g (carryW (signed ε) w) (signed ε y)⟩

/-- Gradients with respect to these variables. -/
def mirrorG (ε : List Bool) (g : Grads K) : Grads K := ⟨signed ε g.g, g.a.map (signed ε)⟩

/-- The bounds, kernels and functions for these variables. -/
def mirrorCoords (ε : List Bool) (e : Env K F) : Coords K F :=
  ⟨mirrorLb ε e.lb e.ub, mirrorUb ε e.lb e.ub, fun Y => e.build (Y.map (signed ε)), fun f x fY ceY => mirrorG ε (e.model f (signed ε x) fY ceY),
    mirrorUser ε e.U⟩

/-- The same problem for these variables. -/
def mirrorEnv (ε : List Bool) (e : Env K F) : Env K F := e.within (mirrorCoords ε e)

/-- The results of the kernels for these variables. -/
def mirrorOrc (ε : List Bool) (o : Orc K F) : Orc K F :=
  { o with
    poisedness := fun f Y => o.poisedness f (Y.map (signed ε))
    propose := fun f Y j => (signed ε (o.propose f (Y.map (signed ε)) j).1, (o.propose f (Y.map (signed ε)) j).2)
    xnew := signed ε o.xnew }

/-- The state of a run for these variables: all points and gradients have the other sign in the marked components. -/
def mirrorSt (ε : List Bool) : MSt K F → MSt K F := carrySt (signed ε) id (mirrorG ε)

/-- The norm depends only on the absolute values of the components. -/
def SignBlind (e : Env K F) : Prop := ∀ l l' : List K, List.Forall₂ (fun a b => |a| = |b|) l l' → e.nrm l = e.nrm l'

end Sqpdfo.Spec
