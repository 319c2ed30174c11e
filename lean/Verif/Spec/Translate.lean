import Verif.Spec.Shift
import Verif.Model.SolveTR

/-! # Specification: the same problem in other coordinates, for example with the variables moved by a constant vector (C118) -/

namespace Sqpdfo.Spec
variable {K F : Type} [Field K] [LinearOrder K]

/-- The parts of a problem that are expressed in coordinates: bounds, factorisation of a set of points, gradients of the models, the
user's functions. -/
structure Coords (K F : Type) where
  lb : List K
  ub : List K
  build : List (List K) → F
  model : F → List K → List K → List (List K) → Grads K
  U : User (List K) K

/-- The problem with other parts. -/
def _root_.Sqpdfo.Env.within (e : Env K F) (A : Coords K F) : Env K F :=
  { e with lb := A.lb, ub := A.ub, build := A.build, model := A.model, U := A.U }

/-- The calls at other points. -/
def carryW {P : Type} (τ : P → P) (w : World P) : World P := ⟨w.logF.map τ, w.logC.map τ⟩

/-- The user's functions `V` do at the images of all points, after calls at the images, what `U` does. -/
structure CarriedUser {P : Type} (τ : P → P) (U V : User P K) : Prop where
  f : ∀ w y, V.f (carryW τ w) (τ y) = U.f w y
  none : U.c = none → V.c = none
  some : ∀ c, U.c = some c → ∃ c', V.c = some c' ∧ ∀ w y, c' (carryW τ w) (τ y) = c w y

/-- `A` describes the problem `e` in other coordinates: `τ` maps points, `φ` factorisations and `γ` gradients.  Differences of points with the
property `D` have the same norm, also together with slacks. -/
structure Carried (D : List K → Prop) (τ : List K → List K) (φ : F → F) (γ : Grads K → Grads K) (e : Env K F) (A : Coords K F) : Prop where
  dist : ∀ y z d, D y → D z → e.nrm (List.zipWith (· - ·) (τ y) (τ z) ++ d) = e.nrm (List.zipWith (· - ·) y z ++ d)
  build : ∀ Y, A.build (Y.map τ) = φ (e.build Y)
  model : ∀ f x fY ceY, A.model (φ f) (τ x) fY ceY = γ (e.model f x fY ceY)
  user : CarriedUser τ e.U A.U

/-- The numerical results of a pass in other coordinates.  All points among them have the property `D`. -/
def CarriedOrc (D : List K → Prop) (τ : List K → List K) (φ : F → F) (o o' : Orc K F) : Prop :=
  ∃ (p : F → List (List K) → K × K) (q : F → List (List K) → ℕ → List K × K),
    o' = { o with poisedness := p, propose := q, xnew := τ o.xnew } ∧ (∀ f Y, p (φ f) (Y.map τ) = o.poisedness f Y) ∧
      (∀ f Y j, q (φ f) (Y.map τ) j = (τ (o.propose f Y j).1, (o.propose f Y j).2)) ∧ D o.xnew ∧ ∀ f Y j, D (o.propose f Y j).1

/-- The state of a run in other coordinates: the iterate, the interpolation points, the history and the calls are mapped, likewise the
factorisation and the gradients; all values, counters, the status, the radius and the penalty parameter are the same. -/
def carrySt (τ : List K → List K) (φ : F → F) (γ : Grads K → Grads K) (s : MSt K F) : MSt K F :=
  { s with
    ev := { s.ev with X := s.ev.X.map τ, w := carryW τ s.ev.w }
    set := { s.set with Y := s.set.Y.map τ, fac := φ s.set.fac }
    x := τ s.x
    gx := γ s.gx
    infoG := γ s.infoG }

/-- The radius at which a run stops at the point `x` is the same in both coordinates.  (`sqpdfo_main.py` L452 and L1451 compare the radius with
a multiple of the norm of the point itself, which depends on the origin.) -/
def SameFloor (e : Env K F) (τ : List K → List K) (x : List K) : Prop :=
  max (stallfact * e.nrm (τ x)) (1 / 10 ^ 10) = max (stallfact * e.nrm x) (1 / 10 ^ 10)

/-- The bound test of `sqpdfo_find_smallf_` (`sqpdfo_find_smallf.py` L92) gives the same answer in both coordinates.  (It compares every
component of the point with every bound.) -/
def SameSide (e : Env K F) (A : Coords K F) (τ : List K → List K) (y : List K) : Prop :=
  insideTest A.lb A.ub (τ y) = insideTest e.lb e.ub y

/-- The conditions on the point and the points of the set of a state: they have the property `D`, and the stopping radius at the point is the
same in both coordinates. -/
def FitsIn (D : List K → Prop) (e : Env K F) (τ : List K → List K) (s : MSt K F) : Prop :=
  SameFloor e τ s.x ∧ D s.x ∧ ∀ y ∈ s.set.Y, D y

/-! ### Moving the variables -/

/-- The point moved by `c`. -/
def moveBy (c : ℕ → K) (y : List K) : List K := y.mapIdx fun i v => v + c i

/-- The calls of the user's functions before the move. -/
def moveBackW (c : ℕ → K) : World (List K) → World (List K) := carryW (moveBy fun i => - c i)

/-- The user's functions for moved variables: `f(y - c)`, `c(y - c)`. -/
def moveUser (c : ℕ → K) (U : User (List K) K) : User (List K) K :=
  ⟨fun w y => U.f (moveBackW c w) (moveBy (fun i => - c i) y), U.c.map fun g w y => g (moveBackW c w) (moveBy (fun i => - c i) y)⟩

/-- The bounds, kernels and functions for moved variables: factorisations and gradients depend only on differences of points. -/
def moveCoords (c : ℕ → K) (e : Env K F) : Coords K F :=
  ⟨moveBy c e.lb, moveBy c e.ub, fun Y => e.build (Y.map (moveBy fun i => - c i)), fun f x => e.model f (moveBy (fun i => - c i) x), moveUser c e.U⟩

/-- The same problem for moved variables. -/
def moveEnv (c : ℕ → K) (e : Env K F) : Env K F := e.within (moveCoords c e)

/-- The results of the kernels for moved variables. -/
def moveOrc (c : ℕ → K) (o : Orc K F) : Orc K F :=
  { o with
    poisedness := fun f Y => o.poisedness f (Y.map (moveBy fun i => - c i))
    propose := fun f Y j => (moveBy c (o.propose f (Y.map (moveBy fun i => - c i)) j).1, (o.propose f (Y.map (moveBy fun i => - c i)) j).2)
    xnew := moveBy c o.xnew }

/-- The state of a run for moved variables. -/
def moveSt (c : ℕ → K) : MSt K F → MSt K F := carrySt (moveBy c) id id

/-- The values of the objective are at most `1e25` in absolute value. -/
def Bounded25 {P : Type} (U : User P K) : Prop := ∀ w y q, U.f w y = .num (.fin q) → |q| ≤ 10 ^ 25

/-! ### Moved arguments of the step solver -/

variable {n m q : ℕ}

/-- The arguments of the step solver with point and bounds moved by `a`. -/
def moveIn (a : Fin n → K) (I : STIn K n m q) : STIn K n m q :=
  { I with x := I.x + a, lb := fun v => I.lb v + Sum.elim a (fun _ => 0) v, ub := fun v => I.ub v + Sum.elim a (fun _ => 0) v }

/-- The kernels of the step solver for moved variables: the multipliers are those of the point before the move. -/
def moveKer (a : Fin n → K) (k : STKer K n m q) : STKer K n m q := { k with mult := fun x => k.mult (x - a) }

/-- The result of the step solver with the trial point moved by `a`. -/
def moveOut (a : Fin n → K) (o : STOut K n m q) : STOut K n m q := { o with xnew := o.xnew + a }

end Sqpdfo.Spec
