import Mathlib.Algebra.Order.Field.Basic
import Mathlib.Data.List.Perm.Basic
import Mathlib.Logic.Equiv.Basic

/-! # Specification for the operations on the interpolation set (C24 - C27) -/

namespace Sqpdfo.Spec
variable {α P K : Type}

/-- `l'` is `l` with positions `i` and `j` exchanged. -/
def Exchanged (l l' : List α) (i j : ℕ) : Prop :=
  l'.length = l.length ∧ ∀ k : ℕ, l'[k]? = l[Equiv.swap i j k]?

/-- A point lies in its box, component by component. -/
def InBox [LE K] (xl xu y : List K) : Prop :=
  y.length = xl.length ∧ y.length = xu.length ∧
    ∀ (k : ℕ) (l u v : K), xl[k]? = some l → xu[k]? = some u → y[k]? = some v → l ≤ v ∧ v ≤ u

/-- `order` lists the positions of `d` by decreasing value. -/
def SortedDesc [LE K] (d : List K) (order : List ℕ) : Prop :=
  order.Perm (List.range d.length) ∧
    ∀ (a b i j : ℕ) (u v : K), a < b → order[a]? = some i → order[b]? = some j →
      d[i]? = some u → d[j]? = some v → v ≤ u

end Sqpdfo.Spec
