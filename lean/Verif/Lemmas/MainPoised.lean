import Verif.Lemmas.MainGrad
import Verif.Lemmas.StepDetail
import Verif.Props.C24_C27_InterpSet
import Verif.Props.C65_Simplex
import Mathlib.LinearAlgebra.FiniteDimensional.Lemmas
import Mathlib.LinearAlgebra.Dimension.Constructions
import Mathlib.Tactic.LinearCombination

/-! # Linear models: the interpolation sets of a run determine affine functions -/

set_option linter.unusedSectionVars false

namespace Sqpdfo
open Spec
variable {K F : Type} [Field K] [LinearOrder K] [IsStrictOrderedRing K]

/-- Only the zero function among the affine functions of `n` variables vanishes at all points. -/
def Spec.Fixes (n : ℕ) (Y : List (List K)) : Prop :=
  ∀ (c : K) (g : Fin n → K), (∀ y ∈ Y, affine c g y = 0) → c = 0 ∧ g = 0

/-- The affine function with constant `c` and gradient `g` is 1 at position `j` and 0 at the other positions. -/
def Spec.Cardinal {n : ℕ} (Y : List (List K)) (j : ℕ) (c : K) (g : Fin n → K) : Prop :=
  ∀ i y, Y[i]? = some y → affine c g y = if i = j then 1 else 0

theorem affine_add {n : ℕ} (c d : K) (g h : Fin n → K) (y : List K) : affine (c + d) (g + h) y = affine c g y + affine d h y := by
  unfold affine
  simp only [Pi.add_apply, add_mul, Finset.sum_add_distrib]
  ring

theorem affine_smul {n : ℕ} (a c : K) (g : Fin n → K) (y : List K) : affine (a * c) (a • g) y = a * affine c g y := by
  unfold affine
  simp only [Pi.smul_apply, smul_eq_mul, mul_add, Finset.mul_sum, mul_assoc]

theorem Spec.Fixes.mono {n : ℕ} {Y Z : List (List K)} (h : Fixes n Y) (hs : ∀ y ∈ Y, y ∈ Z) : Fixes n Z :=
  fun c g hz => h c g fun y hy => hz y (hs y hy)

/-- `n + 1` points that determine affine functions have Lagrange functions. -/
theorem Spec.Fixes.cardinal {n : ℕ} {Y : List (List K)} (h : Fixes n Y) (hl : Y.length = n + 1) (j : ℕ) :
    ∃ (c : K) (g : Fin n → K), Cardinal Y j c g := by
  let T : (K × (Fin n → K)) →ₗ[K] (Fin (n + 1) → K) :=
    { toFun := fun p i => affine p.1 p.2 (Y.getD i [])
      map_add' := fun p q => funext fun i => affine_add _ _ _ _ _
      map_smul' := fun a p => funext fun i => affine_smul _ _ _ _ }
  have hinj : Function.Injective T := by
    rw [← LinearMap.ker_eq_bot, LinearMap.ker_eq_bot']
    intro p hp
    have := h p.1 p.2 fun y hy => by
      obtain ⟨i, hi, rfl⟩ := List.mem_iff_getElem.1 hy
      have := congrFun hp ⟨i, by omega⟩
      simpa [T, List.getD_eq_getElem?_getD, List.getElem?_eq_getElem hi] using this
    exact Prod.ext this.1 this.2
  have hfr : Module.finrank K (K × (Fin n → K)) = Module.finrank K (Fin (n + 1) → K) := by
    rw [Module.finrank_prod, Module.finrank_self, Module.finrank_fin_fun, Module.finrank_fin_fun]
    omega
  obtain ⟨p, hp⟩ := (LinearMap.injective_iff_surjective_of_finrank_eq_finrank hfr).1 hinj fun i => if (i : ℕ) = j then 1 else 0
  refine ⟨p.1, p.2, fun i y hy => ?_⟩
  obtain ⟨hi, rfl⟩ := List.getElem?_eq_some_iff.1 hy
  have := congrFun hp ⟨i, by omega⟩
  simpa [T, List.getD_eq_getElem?_getD, List.getElem?_eq_getElem hi] using this

/-- Replacing a point by one at which its Lagrange function does not vanish. -/
theorem Spec.Fixes.set {n : ℕ} {Y : List (List K)} (h : Fixes n Y) {j : ℕ} (hj : j < Y.length) {x : List K} {c : K} {g : Fin n → K}
    (hc : Cardinal Y j c g) (hx : affine c g x ≠ 0) : Fixes n (Y.set j x) := by
  intro d u hz
  have hzj : affine d u x = 0 := hz x (List.mem_iff_getElem?.2 ⟨j, by rw [List.getElem?_set_self hj]⟩)
  have hrep : ∀ z, affine d u z = affine d u Y[j] * affine c g z := by
    have := h (d + -affine d u Y[j] * c) (u + -affine d u Y[j] • g) (fun y hy => by
      obtain ⟨i, hi, rfl⟩ := List.mem_iff_getElem.1 hy
      rw [affine_add, affine_smul, hc i _ (List.getElem?_eq_getElem hi)]
      by_cases hij : i = j
      · subst hij
        simp
      · rw [if_neg hij, mul_zero, add_zero]
        exact hz _ (List.mem_iff_getElem?.2 ⟨i, by rw [List.getElem?_set_ne (Ne.symm hij), List.getElem?_eq_getElem hi]⟩))
    intro z
    have h2 : affine (d + -affine d u Y[j] * c) (u + -affine d u Y[j] • g) z = 0 := by
      rw [this.1, this.2]
      simp [affine]
    rw [affine_add, affine_smul] at h2
    linear_combination h2
  have h0 : affine d u Y[j] = 0 := by
    have := hrep x
    rw [hzj] at this
    exact (mul_eq_zero.1 this.symm).resolve_right hx
  refine h d u fun y _ => ?_
  rw [hrep y, h0, zero_mul]

/-- The set of a state determines affine functions, and has the size of linear models. -/
structure Det (e : Env K F) (s : MSt K F) : Prop where
  fixes : Fixes e.n s.set.Y
  len : s.set.Y.length = e.n + 1
  cur : s.cur = e.n + 1
  fac : s.set.fac = e.build s.set.Y

theorem Det.of {e : Env K F} {s t : MSt K F} (h : Det e s) (h1 : t.set.Y = s.set.Y) (h2 : t.set.fac = s.set.fac) (h3 : t.cur = s.cur) :
    Det e t :=
  ⟨by rw [h1]; exact h.fixes, by rw [h1]; exact h.len, by rw [h3]; exact h.cur, by rw [h1, h2]; exact h.fac⟩

/-- The proposals for new points do not lie on the zero set of the Lagrange function they replace. -/
def Spec.GoodProposals (e : Env K F) (o : Orc K F) : Prop :=
  ∀ Y, Fixes e.n Y → Y.length = e.n + 1 → ∀ j, 1 ≤ j → j < Y.length → ∀ (c : K) (g : Fin e.n → K), Cardinal Y j c g →
    affine c g (o.propose (e.build Y) Y j).1 ≠ 0

/-- The values of the Lagrange polynomials at the trial point are those of the set `Y`. -/
def Spec.GoodValues (e : Env K F) (o : Orc K F) (Y : List (List K)) : Prop :=
  ∀ j, j < Y.length → ∀ (c : K) (g : Fin e.n → K), Cardinal Y j c g →
    o.lval1 j = affine c g o.xnew ∧ o.lval2 j = affine c g o.xnew ∧ o.lval3 j = affine c g o.xnew

/-! ### Repair -/

/-- The set during a repair. -/
structure RepDet (e : Env K F) (st : RepSt (List K) F K) : Prop where
  fixes : Fixes e.n st.Y
  len : st.Y.length = e.n + 1
  fac : st.fac = e.build st.Y

theorem RepDet.put {e : Env K F} {o : Orc K F} (hp : GoodProposals e o) {st : RepSt (List K) F K} (h : RepDet e st) {j : ℕ} (h1 : 1 ≤ j)
    (h2 : j < st.Y.length) (rp : List ℕ) : RepDet e (st.put e.dist e.build j (o.propose st.fac st.Y j).1 rp) := by
  obtain ⟨c, g, hc⟩ := h.fixes.cardinal h.len j
  have := hp st.Y h.fixes h.len j h1 h2 c g hc
  rw [← h.fac] at this
  exact ⟨h.fixes.set h2 hc this, by simp [RepSt.put, h.len], rfl⟩

theorem farLoop_det {e : Env K F} {o : Orc K F} (hp : GoodProposals e o) (thr : K) :
    ∀ (l : List (ℕ × K)) (st : RepSt (List K) F K), RepDet e st → (∀ p ∈ l, p.2 > thr → 1 ≤ p.1 ∧ p.1 < e.n + 1) →
      RepDet e (farLoop e.dist e.build o.propose thr l st) := by
  intro l
  induction l with
  | nil => intro st h _; exact h
  | cons a l ih =>
    intro st h hl
    obtain ⟨j, dj⟩ := a
    simp only [farLoop]
    split
    · rename_i hd
      obtain ⟨h1, h2⟩ := hl (j, dj) (by simp) hd
      exact ih _ (h.put hp h1 (by rw [h.len]; exact h2) _) fun p hp => hl p (by simp [hp])
    · exact h

theorem bestRepl_from (prop : ℕ → List K × K) : ∀ (l : List ℕ) (b : Option (ℕ × List K)) (m : K) (j : ℕ) (y : List K),
    (bestRepl prop l b m).1 = some (j, y) → b = some (j, y) ∨ j ∈ l ∧ y = (prop j).1 := by
  intro l
  induction l with
  | nil => intro b m j y h; exact Or.inl h
  | cons a l ih =>
    intro b m j y h
    simp only [bestRepl] at h
    split at h
    · rcases ih _ _ _ _ h with h1 | h1
      · cases h1; exact Or.inr ⟨by simp, rfl⟩
      · exact Or.inr ⟨by simp [h1.1], h1.2⟩
    · rcases ih _ _ _ _ h with h1 | h1
      · exact Or.inl h1
      · exact Or.inr ⟨by simp [h1.1], h1.2⟩

theorem rounds_det {e : Env K F} {o : Orc K F} (hp : GoodProposals e o) (thr : K) :
    ∀ (k r : ℕ) (last : K) (st : RepSt (List K) F K), RepDet e st → RepDet e (rounds e.dist e.build o.propose thr k r last st).st := by
  intro k
  induction k with
  | zero => intro r last st h; exact h
  | succ k ih =>
    intro r last st h
    simp only [rounds]
    split
    · exact h
    · rename_i j y hb
      split
      · exact h
      · rename_i hj
        push Not at hj
        rcases bestRepl_from _ _ _ _ _ _ hb with h1 | ⟨h1, h2⟩
        · cases h1
        · rw [h2]
          refine ih _ _ _ (h.put hp (by omega) ?_ _)
          exact List.mem_range.1 (List.mem_of_mem_tail h1)

theorem repairY_det {e : Env K F} {o : Orc K F} (hp : GoodProposals e o) (thr far : K) (hfar : 0 ≤ far) (order : List ℕ)
    (Y : List (List K)) (hY : Fixes e.n Y) (hl : Y.length = e.n + 1) :
    RepDet e (repairY e.dist e.build o.propose thr far order Y (e.build Y)).st := by
  unfold repairY
  refine rounds_det hp _ _ _ _ _ (farLoop_det hp _ _ _ ⟨hY, hl, rfl⟩ ?_)
  intro p hpm hd
  simp only [List.mem_map] at hpm
  obtain ⟨j, -, rfl⟩ := hpm
  simp only at hd ⊢
  cases hj : (dists e.dist Y)[j]? with
  | none => rw [hj] at hd; exact absurd hd (not_lt.2 hfar)
  | some v =>
    rw [hj] at hd
    simp only at hd
    cases Y with
    | nil => simp at hl
    | cons b l =>
      constructor
      · rcases Nat.eq_zero_or_pos j with h0 | h0
        · subst h0
          simp [dists] at hj
          rw [← hj] at hd
          exact absurd hd (not_lt.2 hfar)
        · exact h0
      · have := (List.getElem?_eq_some_iff.1 hj).1
        simp [dists] at this hl
        omega

/-! ### The improvement block -/

theorem evalReplaced_det (e : Env K F) : ∀ (js : List ℕ) (s : MSt K F), Det e s →
    (evalReplaced e js s).Sat (Det e) (fun _ => False) (fun _ => True) := by
  intro js
  induction js with
  | nil => intro s h; exact h
  | cons j js ih =>
    intro s h
    simp only [evalReplaced]
    split
    · split
      · trivial
      · split
        · trivial
        · split
          · trivial
          · split
            · split
              · trivial
              · exact ih _ (h.of rfl rfl rfl)
            · exact ih _ (h.of rfl rfl rfl)
    · trivial

theorem findSmallf_mem {P C : Type} [DecidableEq C] (build : List P → F) (c : Option ℕ) (t u : SmallfSt P C F K)
    (h : findSmallf build c t = some u) : u.s.Y.length = t.s.Y.length ∧ ∀ y ∈ t.s.Y, y ∈ u.s.Y := by
  unfold findSmallf at h
  split at h
  · split at h
    · cases h
    · rename_i hs
      split at h
      · cases h; exact (swapInY_mem hs).1
      · cases h
  · split at h
    · cases h; exact ⟨rfl, fun _ h => h⟩
    · cases h

theorem callSmallf_det (e : Env K F) (s : MSt K F) (h : Det e s) : (callSmallf e s).Sat (Det e) (fun _ => False) (fun _ => True) := by
  unfold callSmallf
  split
  · trivial
  · dsimp only
    split
    · trivial
    · rename_i t ht
      split
      · trivial
      · obtain ⟨h1, h2⟩ := findSmallf_mem e.build _ ⟨s.set, s.fx, s.ixbest, s.fx⟩ t ht
        exact ⟨h.fixes.mono h2, h1.trans h.len, h.cur, findSmallf_built e.build _ ⟨s.set, s.fx, s.ixbest, s.fx⟩ t h.fac ht⟩

theorem repairStage_det (e : Env K F) (o : Orc K F) (hp : GoodProposals e o) (radius : K) (hr : 0 ≤ radius) (s : MSt K F) (h : Det e s) :
    (repairStage e o radius s).Sat (Det e) (Det e) (fun _ => True) := by
  unfold repairStage
  dsimp only
  have hfar : (0 : K) ≤ (if o.normgx ≤ cEps ∨ s.pred = -1 then 1 else 10) * (1 + cEpsL) * radius := by
    refine mul_nonneg (mul_nonneg ?_ ?_) hr
    · split <;> norm_num
    · unfold cEpsL
      positivity
  have hd := repairY_det hp (6 / 5) _ hfar (e.order (dists e.dist s.set.Y)) s.set.Y h.fixes h.len
  rw [← h.fac] at hd
  generalize repairY e.dist e.build o.propose (6 / 5)
    ((if o.normgx ≤ cEps ∨ s.pred = -1 then 1 else 10) * (1 + cEpsL) * radius)
    (e.order (dists e.dist s.set.Y)) s.set.Y s.set.fac = r at *
  refine PassRes.Sat.bind (Q := Det e) ?_ ?_
  · refine PassRes.Sat.bind (Q := Det e) ?_ ?_
    · refine PassRes.Sat.mono (evalReplaced_det e _ _ ?_) (fun _ h => h) (fun _ h => h.elim) (fun _ h => h)
      exact Det.mk hd.fixes hd.len h.cur hd.fac
    · intro t ht
      exact (callSmallf_det e t ht).mono (fun _ h => h) (fun _ h => h.elim) (fun _ h => h)
  · intro t ht
    unfold improveEnd
    split
    · exact ht.of rfl rfl rfl
    · dsimp only
      split <;> exact ht.of rfl rfl rfl

theorem improve_det (e : Env K F) (o : Orc K F) (s : MSt K F)
    (hp : ¬ tooSmall e s (repRadius { s with epsCur := newEpsCur e s }) → GoodProposals e o) (h : Det e s) :
    (improve e o s).Sat (Det e) (Det e) (fun _ => True) := by
  unfold improve
  split
  · dsimp only
    split
    · exact h.of rfl rfl rfl
    · split
      · exact h.of rfl rfl rfl
      · rename_i hts
        refine repairStage_det e o (hp hts) _ ?_ _ (h.of rfl rfl rfl)
        unfold tooSmall at hts
        push Not at hts
        refine le_trans ?_ hts.2
        unfold cEps
        positivity
  · trivial

theorem beforeStep_det (e : Env K F) (o : Orc K F) (s : MSt K F)
    (hp : ¬ tooSmall e s (repRadius { s.measure o.k1 with epsCur := newEpsCur e (s.measure o.k1) }) → GoodProposals e o) (h : Det e s) :
    (beforeStep e o s).Sat (Det e) (Det e) (fun _ => True) := by
  unfold beforeStep
  split
  · exact h.of rfl rfl rfl
  · split
    · exact h.of rfl rfl rfl
    · split
      · exact h.of rfl rfl rfl
      · dsimp only
        split
        · exact improve_det e o _ hp (h.of rfl rfl rfl)
        · exact h.of rfl rfl rfl

/-! ### The step -/

theorem includeInY_det {e : Env K F} {lval : ℕ → K} {x : List K} (choice : List ℕ) (thr : K) (hthr : 0 ≤ thr) (crit : Crit) (ref : List K)
    (Y : List (List K)) (hY : Fixes e.n Y) (hl : Y.length = e.n + 1)
    (hv : ∀ j, j < Y.length → ∀ (c : K) (g : Fin e.n → K), Cardinal Y j c g → lval j = affine c g x) :
    ∀ pos Y' fac', includeInY e.dist e.build lval choice thr crit x ref Y (e.build Y) = (some pos, Y', fac') →
      Fixes e.n Y' ∧ Y'.length = e.n + 1 ∧ fac' = e.build Y' := by
  intro pos Y' fac' h
  have key := C26_include e.dist e.build lval choice thr hthr crit x ref Y (e.build Y)
    (fun j => match crit with
      | .weighted => e.dist (Y.getD j []) ref ^ 2 * |lval j|
      | .standard => |lval j|
      | .distance => e.dist (Y.getD j []) ref)
    (fun j y hy => by rw [List.getD_eq_getElem?_getD, hy]; cases crit <;> rfl)
  rw [h] at key
  simp only at key
  obtain ⟨-, k2, k3, -, -, k6, k7, k8, k9⟩ := key
  have hset : Y' = Y.set pos x := by
    refine List.ext_getElem? fun i => ?_
    by_cases hi : i = pos
    · subst hi
      rw [k7, List.getElem?_set_self k2]
    · rw [k8 i hi, List.getElem?_set_ne (Ne.symm hi)]
  obtain ⟨c, g, hc⟩ := hY.cardinal hl pos
  have hne : affine c g x ≠ 0 := by
    rw [← hv pos k2 c g hc]
    intro h0
    rw [h0, abs_zero] at k3
    exact absurd k3 (not_lt.2 hthr)
  refine ⟨?_, k6.trans hl, k9⟩
  rw [hset]
  exact hY.set k2 hc hne

/-- The same for the three components taken apart. -/
theorem include_det {e : Env K F} {lval : ℕ → K} {x : List K} {choice : List ℕ} {thr : K} (hthr : 0 ≤ thr) {crit : Crit} {ref : List K}
    {Y : List (List K)} {fac : F} (hf : fac = e.build Y) (hY : Fixes e.n Y) (hl : Y.length = e.n + 1)
    (hv : ∀ j, j < Y.length → ∀ (c : K) (g : Fin e.n → K), Cardinal Y j c g → lval j = affine c g x) {pos : ℕ}
    (hpos : (includeInY e.dist e.build lval choice thr crit x ref Y fac).1 = some pos) :
    Fixes e.n (includeInY e.dist e.build lval choice thr crit x ref Y fac).2.1 ∧
      (includeInY e.dist e.build lval choice thr crit x ref Y fac).2.1.length = e.n + 1 ∧
      (includeInY e.dist e.build lval choice thr crit x ref Y fac).2.2 =
        e.build (includeInY e.dist e.build lval choice thr crit x ref Y fac).2.1 := by
  subst hf
  exact includeInY_det choice thr hthr crit ref Y hY hl hv pos _ _ (Prod.ext hpos rfl)

theorem accepted_det (e : Env K F) (o : Orc K F) (a b c : K) (pos : ℕ) (s : MSt K F) (h : Det e s) :
    (accepted e o a b c pos s).Sat (Det e) (Det e) (fun _ => True) := by
  unfold accepted
  dsimp only
  split
  · trivial
  · split
    · trivial
    · rename_i t ht
      split
      · trivial
      · have hm := (swapInY_mem ht).1
        have hb := swapInY_built e.build _ _ _ _ (by split <;> exact h.fac) ht
        split at hm
        · exact ⟨h.fixes.mono hm.2, hm.1.trans h.len, h.cur, hb⟩
        · exact ⟨h.fixes.mono hm.2, hm.1.trans h.len, h.cur, hb⟩

theorem replaceAt_det (e : Env K F) (o : Orc K F) (a b c : K) (pos : ℕ) (s : MSt K F) (h : Det e s) :
    (replaceAt e o a b c pos s).Sat (Det e) (Det e) (fun _ => True) := by
  unfold replaceAt
  dsimp only
  split
  · trivial
  · split
    · split
      · trivial
      · rename_i t ht
        split
        · trivial
        · have hm := (swapInY_mem ht).1
          exact ⟨h.fixes.mono hm.2, hm.1.trans h.len, h.cur, swapInY_built e.build _ _ _ t (by exact h.fac) ht⟩
    · exact h.of rfl rfl rfl

theorem restoreF_det {e : Env K F} {r : PassRes K F} (h : r.Sat (Det e) (Det e) (fun _ => True)) :
    (r.bind fun s => .cont s.restoreF).Sat (Det e) (Det e) (fun _ => True) :=
  PassRes.Sat.bind h fun _ h => h.of rfl rfl rfl

theorem reduce_det (e : Env K F) (o : Orc K F) (a b : K) (s : MSt K F) (h : Det e s) :
    (reduce e o a b s).Sat (Det e) (Det e) (fun _ => True) := by
  unfold reduce
  dsimp only
  split <;> exact h.of rfl rfl rfl

theorem replaceOrReduce_det (e : Env K F) (o : Orc K F) (a b c : K) (s : MSt K F) (h : Det e s) (hv : GoodValues e o s.set.Y) :
    (replaceOrReduce e o a b c s).Sat (Det e) (Det e) (fun _ => True) := by
  unfold replaceOrReduce
  split
  · dsimp only
    split
    · rename_i pos hpos
      obtain ⟨k1, k2, k3⟩ := include_det (by norm_num) h.fac h.fixes h.len (fun j hj c g hc => (hv j hj c g hc).2.1) hpos
      exact restoreF_det (replaceAt_det e o a b c _ _ ⟨k1, k2, h.cur, k3⟩)
    · split
      · rename_i pos hpos
        obtain ⟨k1, k2, k3⟩ := include_det (by by_cases hb : b ≥ cEta1 <;> simp only [hb, if_true, if_false] <;> norm_num) h.fac h.fixes h.len (fun j hj c g hc => (hv j hj c g hc).2.2) hpos
        exact restoreF_det (replaceAt_det e o a b c _ _ ⟨k1, k2, h.cur, k3⟩)
      · exact reduce_det e o a c s h
  · exact reduce_det e o a c s h

theorem not_growable {e : Env K F} (hlin : e.finalDeg = .linear) (hreg : e.regression = false) {s : MSt K F} (h : Det e s) :
    ¬ growable e s.cur := by
  unfold growable Env.pfinal
  rw [hlin, hreg, h.cur]
  simp

theorem rejectStep_det (e : Env K F) (hlin : e.finalDeg = .linear) (hreg : e.regression = false) (o : Orc K F) (a b c : K) (s : MSt K F)
    (h : Det e s) (hv : GoodValues e o s.set.Y) : (rejectStep e o a b c s).Sat (Det e) (Det e) (fun _ => True) := by
  unfold rejectStep
  dsimp only
  rw [if_neg fun hg => not_growable hlin hreg h hg.1]
  exact replaceOrReduce_det e o a b c _ (h.of rfl rfl rfl) hv

theorem decideStep_det (e : Env K F) (hlin : e.finalDeg = .linear) (hreg : e.regression = false) (o : Orc K F) (norms : K) (s : MSt K F)
    (h : Det e s) (hv : GoodValues e o s.set.Y) : (decideStep e o norms s).Sat (Det e) (Det e) (fun _ => True) := by
  unfold decideStep
  split
  · trivial
  · split
    · trivial
    · dsimp only
      split
      · exact h.of rfl rfl rfl
      · split
        · split
          · exact h.of rfl rfl rfl
          · rw [if_neg (not_growable hlin hreg h)]
            split
            · rename_i pos hpos
              obtain ⟨k1, k2, k3⟩ := include_det (by norm_num) h.fac h.fixes h.len (fun j hj c g hc => (hv j hj c g hc).1) hpos
              exact accepted_det e o _ _ _ _ _ ⟨k1, k2, h.cur, k3⟩
            · exact rejectStep_det e hlin hreg o _ _ _ _ (h.of rfl rfl rfl) hv
        · exact rejectStep_det e hlin hreg o _ _ _ _ (h.of rfl rfl rfl) hv

theorem stepStage_det (e : Env K F) (hlin : e.finalDeg = .linear) (hreg : e.regression = false) (o : Orc K F) (s : MSt K F)
    (h : Det e s) (hv : GoodValues e o s.set.Y) : (stepStage e o s).Sat (Det e) (Det e) (fun _ => True) := by
  have keep : ∀ {u v : MSt K F}, SameG u v → v.cur = u.cur → Det e u ∧ u.set.Y = s.set.Y → Det e v ∧ v.set.Y = s.set.Y :=
    fun g hc hu => ⟨hu.1.of (by rw [g.set]) (by rw [g.set]) hc, by rw [g.set, hu.2]⟩
  unfold stepStage
  have hglob : (globalise e s).Sat (fun t => Det e t ∧ t.set.Y = s.set.Y) (Det e) (fun _ => True) := by
    unfold globalise
    split
    · exact ⟨h, rfl⟩
    · split
      · trivial
      · split
        · trivial
        · exact ⟨h.of rfl rfl rfl, rfl⟩
  refine PassRes.Sat.bind hglob ?_
  intro t ht
  dsimp only
  split
  · exact ht.1.of rfl rfl rfl
  · have hpen : (penalty o { t with niter := t.niter + 1 }).Sat (fun u => Det e u ∧ u.set.Y = s.set.Y) (Det e) (fun _ => True) := by
      unfold penalty
      split
      · dsimp only
        split
        · exact ht.1.of rfl rfl rfl
        · exact ⟨ht.1.of rfl rfl rfl, ht.2⟩
      · exact ⟨ht.1.of rfl rfl rfl, ht.2⟩
    refine PassRes.Sat.bind (Q := fun u => Det e u ∧ u.set.Y = s.set.Y) ?_
      (fun u hu => decideStep_det e hlin hreg o _ u hu.1 (by rw [hu.2]; exact hv))
    refine PassRes.Sat.bind hpen ?_
    intro u hu
    unfold evalTrial
    dsimp only
    split
    · trivial
    · split
      · exact hu.1.of rfl rfl rfl
      · split
        · split
          · trivial
          · split
            · trivial
            · exact ⟨hu.1.of rfl rfl rfl, hu.2⟩
        · exact ⟨hu.1.of rfl rfl rfl, hu.2⟩

/-- What the numerical results used in a pass have to satisfy: the proposals for new points if the set is improved, and the values at the trial
point of the Lagrange functions of the set in use at that time. -/
structure Spec.TrueLagrange (e : Env K F) (o : Orc K F) (s : MSt K F) : Prop where
  proposals : ¬ tooSmall e s (repRadius { s.measure o.k1 with epsCur := newEpsCur e (s.measure o.k1) }) → GoodProposals e o
  values : ∀ t, beforeStep e o s = .cont t → Fixes e.n t.set.Y → t.set.Y.length = e.n + 1 → GoodValues e o t.set.Y

theorem pass_det (e : Env K F) (hlin : e.finalDeg = .linear) (hreg : e.regression = false) (o : Orc K F) (s : MSt K F)
    (hT : TrueLagrange e o s) (h : Det e s) : (pass e o s).Sat (Det e) (Det e) (fun _ => True) := by
  rw [pass_eq]
  have hb := beforeStep_det e o s hT.proposals h
  cases hr : beforeStep e o s with
  | cont t => rw [hr] at hb; exact stepStage_det e hlin hreg o t hb (hT.values t hr hb.fixes hb.len)
  | ret t => rw [hr] at hb; exact hb
  | crash c => trivial

/-- Along a run. -/
theorem mainLoop_det (e : Env K F) (hlin : e.finalDeg = .linear) (hreg : e.regression = false) : ∀ (os : List (Orc K F)) (s : MSt K F),
    (∀ pre o post u, os = pre ++ o :: post → mainLoop e pre s = .running u → TrueLagrange e o u) → Det e s →
    ∀ t, mainLoop e os s = .running t ∨ mainLoop e os s = .done t → Det e t := by
  intro os
  induction os with
  | nil =>
    rintro s - h t (ht | ht)
    · cases ht; exact h
    · cases ht
  | cons o os ih =>
    intro s hT h t ht
    have hp := pass_det e hlin hreg o s (hT [] o os s rfl rfl) h
    simp only [mainLoop] at ht
    cases hr : pass e o s with
    | cont u =>
      rw [hr] at hp ht
      refine ih u (fun pre o' post v hv hv2 => hT (o :: pre) o' post v (by rw [hv]; rfl) ?_) hp t ht
      simp only [mainLoop, hr]
      exact hv2
    | ret u =>
      rw [hr] at hp ht
      rcases ht with ht | ht
      · cases ht
      · cases ht; exact hp
    | crash c => rw [hr] at ht; rcases ht with ht | ht <;> cases ht

end Sqpdfo
