import Verif.Model.Optimality
import Verif.Spec.Optimality
import Verif.Model.Entry
import Mathlib.Analysis.Real.Sqrt
import Mathlib.Tactic.Linarith
import Mathlib.Tactic.NormNum
import Mathlib.Algebra.BigOperators.Fin
import Mathlib.Data.Fintype.BigOperators
import Mathlib.Data.Fin.VecNotation

/-! # C22, C38, C41: slack residuals, projected gradient, KKT residuals -/

set_option linter.unusedSectionVars false

namespace Sqpdfo
open Spec
variable {K : Type} [Field K] [LinearOrder K] [IsStrictOrderedRing K] {n m ns : ℕ}

/-- C41: the reported gradient of the Lagrangian is the gradient, plus the multipliers of the
bounds within `1e-5`, plus the transposed Jacobian times the constraint multipliers; the
reported feasibility is the constraint value, with the squared slack subtracted for the rows
that carry a slack. -/
theorem C41_kkt_residuals (I : OptimIn K n m ns) :
    (∀ i, glag I i = I.g i +
      (if |I.lb i - I.x i| < 1 / 10 ^ 5 ∨ |I.ub i - I.x i| < 1 / 10 ^ 5 then I.lmB i else 0) +
      ∑ r, I.ae r i * I.lmE r) ∧
    (∀ r, feas I (.inl r) = I.ce (.inl r)) ∧
    (∀ k, feas I (.inr k) = I.ce (.inr k) - I.sl k ^ 2) := by
  have hb : ∀ i, glagBounds I i = I.g i +
      (if |I.lb i - I.x i| < 1 / 10 ^ 5 ∨ |I.ub i - I.x i| < 1 / 10 ^ 5 then I.lmB i else 0) := by
    intro i
    have e : (1 : K) / 10 ^ 5 = 1 / 100000 := by norm_num
    rw [e]
    by_cases h : |I.lb i - I.x i| < 1 / 100000 ∨ |I.ub i - I.x i| < 1 / 100000
    · have h' : nearBound I i := h
      rw [glagBounds, if_pos h', if_pos h]
    · have h' : ¬ nearBound I i := h
      rw [glagBounds, if_neg h', if_neg h, add_zero]
  refine ⟨?_, ?_, ?_⟩
  · intro i
    rw [← hb i]
    unfold glag
    split_ifs with h1 h2
    · simp [Matrix.mulVec, dotProduct, slackJac]
    · simp [Matrix.mulVec, dotProduct]
    · have hm : m = 0 := by omega
      have hns : ns = 0 := by omega
      subst hm hns
      simp
  · intro r; unfold feas; split_ifs <;> simp
  · intro k
    have : ns > 0 := Fin.pos k
    simp [feas, this]

/-- Instance: two variables, one equality and one inequality with slack 2; the first variable
is at its lower bound. -/
def exOptim : OptimIn ℚ 2 1 1 :=
  { x := ![0, 1], lb := ![0, 0], ub := ![5, 5], g := ![3, 4],
    ce := Sum.elim ![7] ![9], ae := fun r => Sum.elim (fun _ => ![1, 2]) (fun _ => ![0, 1]) r,
    sl := ![2], lmB := ![10, 20], lmE := Sum.elim ![1] ![-1] }

example : (glag exOptim 0, glag exOptim 1) = (14, 5) ∧ feas exOptim (.inr 0) = 5 := by
  decide +kernel

/-- C22, first part: the slack rows can be made zero by a choice of the slacks exactly when
all the inequality values are nonnegative. -/
theorem C22_slack_residual_zero_iff (I : OptimIn ℝ n m ns) :
    (∃ sl, ∀ k, feas { I with sl := sl } (.inr k) = 0) ↔ ∀ k, 0 ≤ I.ce (.inr k) := by
  constructor
  · rintro ⟨sl, h⟩ k
    have h1 := (C41_kkt_residuals { I with sl := sl }).2.2 k
    rw [h k] at h1
    simp only at h1
    nlinarith [sq_nonneg (sl k)]
  · intro h
    refine ⟨fun k => Real.sqrt (I.ce (.inr k)), fun k => ?_⟩
    rw [(C41_kkt_residuals _).2.2 k]
    simp [Real.sq_sqrt (h k)]

/-- C22, second part: the initial slacks. For every slack `i` with constraint value `c` and
cap `u ≥ 0` (the upper bound set up for the slack, `1e20`): the slack is nonnegative, its
square is at most `u`, the residual is `min c 0` if `c ≤ u`, and `c - u` otherwise. -/
theorem C22_initial_slacks (ns : ℕ) (ce ub : List ℝ) (sl : List ℝ)
    (h : initSlacks Real.sqrt ns ce ub = some sl) :
    sl.length = ns ∧ ∀ (i : ℕ) (c u s : ℝ), i < ns → ce[ce.length - ns + i]? = some c →
      ub[ub.length - ns + i]? = some u → 0 ≤ u → sl[i]? = some s →
      0 ≤ s ∧ s ^ 2 ≤ u ∧ (c ≤ u → c - s ^ 2 = min c 0) ∧ (u ≤ c → c - s ^ 2 = c - u) := by
  have gen : ∀ (f : ℕ → Option ℝ) (l : List ℕ) (sl : List ℝ), l.mapM f = some sl →
      sl.length = l.length ∧ ∀ (k a : ℕ), l[k]? = some a → sl[k]? = f a := by
    intro f l
    induction l with
    | nil => intro sl h; simp at h; subst h; simp
    | cons a l ih =>
      intro sl h
      rw [List.mapM_cons] at h
      cases hfa : f a with
      | none => rw [hfa] at h; simp at h
      | some b =>
        rw [hfa] at h
        cases hl : l.mapM f with
        | none => rw [hl] at h; simp at h
        | some t =>
          rw [hl] at h; simp at h; subst h
          obtain ⟨h1, h2⟩ := ih t hl
          refine ⟨by simp [h1], ?_⟩
          intro k c hk
          cases k with
          | zero => simp at hk; subst hk; simp [hfa]
          | succ k => simpa using h2 k c (by simpa using hk)
  obtain ⟨hlen, hget⟩ := gen _ _ _ h
  refine ⟨by simpa using hlen, ?_⟩
  intro i c u s hi hc hu hu0 hs
  have hg := hget i i (by rw [List.getElem?_range hi])
  rw [hs, hc, hu] at hg
  have hns1 : ns ≤ ce.length := by
    by_contra hn
    simp [hn] at hg
  simp only [hns1, if_true] at hg
  by_cases hc0 : c > 0
  · simp only [hc0, if_true] at hg
    have hns2 : ns ≤ ub.length := by
      by_contra hn
      simp [hn] at hg
    simp only [hns2, if_true, Option.some.injEq] at hg
    have s1 : Real.sqrt c ^ 2 = c := Real.sq_sqrt hc0.le
    have s2 : Real.sqrt u ^ 2 = u := Real.sq_sqrt hu0
    rw [hg]
    refine ⟨le_min (Real.sqrt_nonneg _) (Real.sqrt_nonneg _), ?_, ?_, ?_⟩
    · rcases min_choice (Real.sqrt c) (Real.sqrt u) with e | e
      · have hle : Real.sqrt c ≤ Real.sqrt u := by rw [← e]; exact min_le_right _ _
        rw [e]
        nlinarith [Real.sqrt_nonneg c, Real.sqrt_nonneg u]
      · rw [e]; exact s2.le
    · intro hcu
      rw [min_eq_left (Real.sqrt_le_sqrt hcu), s1, min_eq_right hc0.le]; simp
    · intro huc
      rw [min_eq_right (Real.sqrt_le_sqrt huc), s2]
  · simp only [hc0, if_false, Option.some.injEq] at hg
    rw [hg]
    have hc0' : c ≤ 0 := not_lt.1 hc0
    refine ⟨le_refl _, by simpa using hu0, ?_, ?_⟩
    · intro _; rw [min_eq_left hc0']; simp
    · intro huc
      have : u = 0 := by linarith
      rw [this]; simp

/-- Instance: one equality value 7, inequality values 4 and -3. -/
example : ∃ sl, initSlacks Real.sqrt 2 [7, 4, -3] [0, 0, 10 ^ 20, 10 ^ 20] = some sl := by
  refine ⟨[min (Real.sqrt 4) (Real.sqrt (10 ^ 20)), 0], ?_⟩
  have h : List.range 2 = [0, 1] := rfl
  have h3 : ¬ ((3 : ℝ) < 0) := by norm_num
  simp [initSlacks, h, h3]

/-! ### Projected gradient -/

theorem projGrad_fold (f : Fin n → K) (l : List (Fin n)) :
    ∀ acc : K, acc ≤ l.foldl (fun a i => max a |f i|) acc ∧
      (∀ i ∈ l, |f i| ≤ l.foldl (fun a i => max a |f i|) acc) ∧
      (l.foldl (fun a i => max a |f i|) acc = acc ∨
        ∃ i ∈ l, l.foldl (fun a i => max a |f i|) acc = |f i|) := by
  induction l with
  | nil => intro acc; simp
  | cons a l ih =>
    intro acc
    simp only [List.foldl_cons]
    obtain ⟨h1, h2, h3⟩ := ih (max acc |f a|)
    refine ⟨le_trans (le_max_left _ _) h1, ?_, ?_⟩
    · intro i hi
      rcases List.mem_cons.1 hi with rfl | hi
      · exact le_trans (le_max_right _ _) h1
      · exact h2 i hi
    · rcases h3 with h3 | ⟨i, hi, h3⟩
      · rcases max_choice acc |f a| with e | e
        · left; rw [h3, e]
        · right; exact ⟨a, by simp, by rw [h3, e]⟩
      · right; exact ⟨i, by simp [hi], h3⟩

/-- C38: for a point within its bounds. -/
theorem C38_projected_gradient (g x l u : Fin n → K) (hl : ∀ i, l i ≤ x i) (hu : ∀ i, x i ≤ u i) :
    ((projGrad g x l u).1 = 0 ↔ FirstOrder g x l u) ∧
    (∀ i, |(projGrad g x l u).2 i| ≤ (projGrad g x l u).1) ∧
    ((projGrad g x l u).1 = 0 ∨ ∃ i, (projGrad g x l u).1 = |(projGrad g x l u).2 i|) ∧
    (∀ i, |(projGrad g x l u).2 i| ≤ |g i|) ∧
    (∀ i, l i ≤ x i - (projGrad g x l u).2 i ∧ x i - (projGrad g x l u).2 i ≤ u i) := by
  obtain ⟨f1, f2, f3⟩ := projGrad_fold (projGrad g x l u).2 (List.finRange n) 0
  have hmax : ∀ i, |(projGrad g x l u).2 i| ≤ (projGrad g x l u).1 :=
    fun i => f2 i (List.mem_finRange i)
  have hcase : ∀ i, (g i < 0 ∧ (projGrad g x l u).2 i = - min (u i - x i) (-g i)) ∨
      (0 ≤ g i ∧ (projGrad g x l u).2 i = min (x i - l i) (g i)) := by
    intro i
    by_cases h : g i < 0
    · left
      refine ⟨h, ?_⟩
      simp only [projGrad, projComp, h, if_true]
      rw [abs_of_nonneg (by linarith [hu i])]
    · right
      refine ⟨not_lt.1 h, ?_⟩
      simp only [projGrad, projComp, h, if_false]
      rw [abs_sub_comm, abs_of_nonneg (by linarith [hl i])]
  have hzero : ∀ i, (projGrad g x l u).2 i = 0 ↔ (l i < x i → g i ≤ 0) ∧ (x i < u i → 0 ≤ g i) := by
    intro i
    rcases hcase i with ⟨h, e⟩ | ⟨h, e⟩
    · rw [e, neg_eq_zero]
      constructor
      · intro hm
        refine ⟨fun _ => h.le, fun hxu => ?_⟩
        exfalso
        have : 0 < min (u i - x i) (-g i) := lt_min (by linarith) (by linarith)
        linarith
      · rintro ⟨_, h2⟩
        have hx : x i = u i := by
          by_contra hne
          exact absurd (h2 (lt_of_le_of_ne (hu i) hne)) (not_le.2 h)
        rw [hx, sub_self]
        exact min_eq_left (by linarith)
    · rw [e]
      constructor
      · intro hm
        refine ⟨fun hlx => ?_, fun _ => h⟩
        by_contra hg
        have : 0 < min (x i - l i) (g i) := lt_min (by linarith) (not_le.1 hg)
        linarith
      · rintro ⟨h1, _⟩
        rcases lt_or_eq_of_le (hl i) with hlt | heq
        · have : g i = 0 := le_antisymm (h1 hlt) h
          rw [this]; exact min_eq_right (by linarith)
        · rw [heq, sub_self]; exact min_eq_left h
  refine ⟨?_, hmax, ?_, ?_, ?_⟩
  · constructor
    · intro h0 i
      apply (hzero i).1
      have := hmax i
      rw [h0] at this
      exact abs_eq_zero.1 (le_antisymm this (abs_nonneg _))
    · intro hf
      rcases f3 with h | ⟨i, -, h⟩
      · exact h
      · have : (projGrad g x l u).1 = |(projGrad g x l u).2 i| := h
        rw [this, (hzero i).2 (hf i), abs_zero]
  · rcases f3 with h | ⟨i, -, h⟩
    · exact Or.inl h
    · exact Or.inr ⟨i, h⟩
  · intro i
    rcases hcase i with ⟨h, e⟩ | ⟨h, e⟩
    · have h0 : 0 ≤ min (u i - x i) (-g i) := le_min (by linarith [hu i]) (by linarith)
      rw [e, abs_neg, abs_of_nonneg h0, abs_of_neg h]
      exact min_le_right _ _
    · have h0 : 0 ≤ min (x i - l i) (g i) := le_min (by linarith [hl i]) h
      rw [e, abs_of_nonneg h0, abs_of_nonneg h]
      exact min_le_right _ _
  · intro i
    have := hl i
    have := hu i
    rcases hcase i with ⟨h, e⟩ | ⟨h, e⟩
    · have h0 : 0 ≤ min (u i - x i) (-g i) := le_min (by linarith [hu i]) (by linarith)
      have h1 := min_le_left (u i - x i) (-g i)
      rw [e]; constructor <;> linarith
    · have h0 : 0 ≤ min (x i - l i) (g i) := le_min (by linarith [hl i]) h
      have h1 := min_le_left (x i - l i) (g i)
      rw [e]; constructor <;> linarith

/-- Instance: interior with nonzero gradient, at the lower bound, close to the upper bound. -/
example : (projGrad (![2, 3, -5] : Fin 3 → ℚ) ![1, 0, 9] ![0, 0, 0] ![10, 10, 10]).1 = 1 ∧
    (projGrad (![2, 3, -5] : Fin 3 → ℚ) ![1, 0, 9] ![0, 0, 0] ![10, 10, 10]).2 2 = -1 := by
  decide +kernel

#print axioms C41_kkt_residuals
#print axioms C22_slack_residual_zero_iff
#print axioms C22_initial_slacks
#print axioms C38_projected_gradient

end Sqpdfo
