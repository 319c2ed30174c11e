import Verif.Props.C44_C67_SolveTR

/-! # C68, C69, C70: slack variables, linearised constraints and shortening in the composite step -/

set_option linter.unusedSectionVars false

namespace Sqpdfo
open Matrix Spec
variable {K : Type} [Field K] [LinearOrder K] [IsStrictOrderedRing K] {n m q : ℕ}

theorem clip_in {lb ub b t : K} (hb : lb ≤ b ∧ b ≤ ub) :
    let s := if b + t > ub then b + t - t else b + t
    let s := if s < lb then s - t else s
    lb ≤ s ∧ s ≤ ub := by
  dsimp only
  by_cases h1 : b + t > ub
  · rw [if_pos h1, add_sub_cancel_right, if_neg (not_lt.2 hb.1)]
    exact hb
  · rw [if_neg h1]
    by_cases h2 : b + t < lb
    · rw [if_pos h2, add_sub_cancel_right]; exact hb
    · rw [if_neg h2]; exact ⟨not_lt.1 h2, not_lt.1 h1⟩

/-- No bound counts as violated after a zero step from a point within the bounds. -/
theorem zero_not_viol {k : STKer K n m q} {I : STIn K n m q} {S : STState K n m q} {r t : VS n q → K}
    (hsq : ∀ a, 0 ≤ a → 0 ≤ k.bc.sq a ∧ a ≤ k.bc.sq a * k.bc.sq a) (hthr : 1 / 10 ^ 16 ≤ I.thr)
    (hx : Near 0 (fun i => I.lb (.inl i)) (fun i => I.ub (.inl i)) S.x) (hs : SmallStep k r t) :
    (scan I (trialX S r t) (List.finRange n) []).2 = none := by
  cases h : (scan I (trialX S r t) (List.finRange n) []).2 with
  | none => rfl
  | some i =>
    exfalso
    have h1 := abs_le.1 ((abs_le_nrm hsq (fun i : Fin n => r (.inl i) + t (.inl i)) i).trans hs)
    have h2 := hx i
    have h3 := scan_some I _ _ _ i h
    simp only [trialX] at h1 h2 h3
    rcases h3 with h3 | h3
    · linarith [h1.1, h2.1]
    · linarith [h1.2, h2.2]

/-- C68, the part that holds: if the iterate and the slack variables satisfy their bounds and the loop over
the active set makes at most two passes, the returned slack variables satisfy their bounds. -/
theorem C68_slack_bounds_partial (k : STKer K n m q) (I : STIn K n m q) (h0 : k.bc.sq 0 = 0)
    (hsq : ∀ a, 0 ≤ a → 0 ≤ k.bc.sq a ∧ a ≤ k.bc.sq a * k.bc.sq a) (hthr : I.thr = 1 / 10 ^ 8)
    (hlu : ∀ v, I.lb v ≤ I.ub v)
    (hx : Near 0 (fun i => I.lb (.inl i)) (fun i => I.ub (.inl i)) I.x)
    (hsl : ∀ j, I.lb (.inr j) ≤ I.sl j ∧ I.sl j ≤ I.ub (.inr j)) :
    ∃ o, solveTR k I = some o ∧
      (o.passes ≤ 2 → ∀ j, I.lb (.inr j) ≤ o.slnew j ∧ o.slnew j ≤ I.ub (.inr j)) := by
  have hthr' : 1 / 10 ^ 16 ≤ I.thr := by rw [hthr]; norm_num
  have trial : ∀ (S : STState K n m q) r t, PartsOf k I S r t → 1 ≤ S.iter →
      (S.iter = 2 → ∀ j, I.lb (.inr j) ≤ S.slnew j ∧ S.slnew j ≤ I.ub (.inr j)) → S.iter ≤ 2 →
      ∀ j, I.lb (.inr j) ≤ trialSlack I S r t j ∧ trialSlack I S r t j ≤ I.ub (.inr j) := by
    intro S r t ⟨⟨a, p, hr⟩, _⟩ h1 h2 h3 j
    unfold trialSlack
    by_cases hi : S.iter = 1
    · rw [if_pos hi]
      refine clip_in ?_
      rcases restoration_in k I S hlu hr (.inr j) with h | h
      · rw [h, add_zero]; exact hsl j
      · exact h
    · rw [if_neg hi]
      exact clip_in (h2 (by omega) j)
  obtain ⟨o, a, b, _⟩ := solveTR_ind k I h0
    (fun S => Near 0 (fun i => I.lb (.inl i)) (fun i => I.ub (.inl i)) S.x ∧ 1 ≤ S.iter ∧
      (S.iter = 2 → ∀ j, I.lb (.inr j) ≤ S.slnew j ∧ S.slnew j ≤ I.ub (.inr j)))
    (fun o => o.passes ≤ 2 → ∀ j, I.lb (.inr j) ≤ o.slnew j ∧ o.slnew j ≤ I.ub (.inr j))
    ⟨hx, le_rfl, fun h => (by cases h)⟩
    (by
      intro S r t o ⟨hS1, hS2, hS3⟩ hp h hle
      have hn : (scan I (trialX S r t) (List.finRange n) []).2 = none :=
        h.why.elim (zero_not_viol hsq hthr' hS1) id
      rw [h.slnew hn]
      exact trial S r t hp hS2 hS3 (by rw [← h.passes]; exact hle))
    (by
      intro S r t T ⟨hS1, hS2, hS3⟩ hp h
      have hN := next_near hlu le_rfl hp hS1 h
      refine ⟨hN, Nat.le_add_left _ _, fun hi j => ?_⟩
      have hi1 : S.iter = 1 := by have := h.iter; simp only at hi; omega
      change I.lb (.inr j) ≤ T.slnew j ∧ T.slnew j ≤ I.ub (.inr j)
      rcases h.move with ⟨_, _, e⟩ | ⟨_, _, _, e⟩
      · rw [e]; exact trial S r t hp hS2 hS3 (by omega) j
      · rw [e]
        dsimp only
        rw [if_pos hi1]
        have hb : I.lb (.inr j) - 0 ≤ I.sl j + r (.inr j) ∧ I.sl j + r (.inr j) ≤ I.ub (.inr j) + 0 := by
          obtain ⟨⟨a, p, hr⟩, _⟩ := hp
          rw [sub_zero, add_zero]
          rcases restoration_in k I S hlu hr (.inr j) with h | h
          · rw [h, add_zero]; exact hsl j
          · exact h
        have := minRatio_near (y := Sum.elim S.x I.sl + r) (t := t) le_rfl (.inr j) hb
        rw [sub_zero, add_zero] at this
        exact this)
  exact ⟨o, a, b⟩

/-- C69, the part that holds: if the tangent steps are tangent to the rows given and the loop makes one pass,
the trial point and the slack variables before their correction are the iterate plus a restoration step plus a
step that changes none of the linearised constraints. -/
theorem C69_tangent_partial (k : STKer K n m q) (I : STIn K n m q) (h0 : k.bc.sq 0 = 0)
    (htan : ∀ rows M g δ, ∀ a ∈ rows, a ⬝ᵥ (k.tang rows M g δ).1 = 0) :
    ∃ o, solveTR k I = some o ∧ (o.passes = 1 → ∃ r a p, ∃ t : VS n q → K,
      restoration k I (stStart I) = some (r, a, p) ∧ (∀ i, o.xnew i = I.x i + r (.inl i) + t (.inl i)) ∧
      ∀ c : Fin m ⊕ Fin q, ∑ i, I.ae c i * t (.inl i) +
        ∑ j, (if c = .inr j then - 2 * I.sl j else 0) * t (.inr j) = 0) := by
  obtain ⟨o, a, b, _⟩ := solveTR_ind k I h0
    (fun S => 1 ≤ S.iter ∧ (S.iter = 1 → S = stStart I))
    (fun o => o.passes = 1 → ∃ r a p, ∃ t : VS n q → K,
      restoration k I (stStart I) = some (r, a, p) ∧ (∀ i, o.xnew i = I.x i + r (.inl i) + t (.inl i)) ∧
      ∀ c : Fin m ⊕ Fin q, ∑ i, I.ae c i * t (.inl i) +
        ∑ j, (if c = .inr j then - 2 * I.sl j else 0) * t (.inr j) = 0)
    ⟨le_rfl, fun _ => rfl⟩
    (by
      intro S r t o ⟨_, hS⟩ ⟨⟨a, p, hr⟩, ht⟩ h hle
      have e := hS (by rw [← h.passes]; exact hle)
      subst e
      refine ⟨r, a, p, t, hr, fun i => by rw [h.xnew]; rfl, fun c => ?_⟩
      have hz : (eqRow I c).a ⬝ᵥ t = 0 := by
        rw [ht]
        unfold tangent
        split_ifs
        · apply htan
          refine List.mem_map.2 ⟨eqRow I c, List.mem_append_left _ ?_, rfl⟩
          unfold eqRows
          cases c with
          | inl i => exact List.mem_append_left _ (List.mem_map.2 ⟨i, List.mem_finRange i, rfl⟩)
          | inr j => exact List.mem_append_right _ (List.mem_map.2 ⟨j, List.mem_finRange j, rfl⟩)
        · exact dotProduct_zero _
      rw [dotProduct, Fintype.sum_sum_type] at hz
      exact hz)
    (by
      intro S r t T ⟨hS1, _⟩ _ h
      refine ⟨Nat.le_add_left _ _, fun hc => ?_⟩
      have := h.iter
      change T.iter + 1 = 1 at hc
      omega)
  exact ⟨o, a, b⟩

/-- C68 fails for three passes: the tangent step of the second pass is added twice, the returned slack variable
is negative, and the linearised constraint, which held, does not hold at the trial point. -/
theorem C68_false : ∃ o, solveTR (Ex.tableST Ex.slackTab) Ex.slackST = some o ∧ o.passes = 3 ∧
    (∀ j, Ex.slackST.lb (.inr j) ≤ Ex.slackST.sl j) ∧ o.slnew 0 < Ex.slackST.lb (.inr 0) ∧
    Ex.slackST.ce (.inr 0) - Ex.slackST.sl 0 ^ 2 = 0 ∧
    ∑ i, Ex.slackST.ae (.inr 0) i * (o.xnew i - Ex.slackST.x i) -
      2 * Ex.slackST.sl 0 * (o.slnew 0 - Ex.slackST.sl 0) ≠ 0 := by
  cases h : solveTR (Ex.tableST Ex.slackTab) Ex.slackST with
  | none =>
    have : (solveTR (Ex.tableST Ex.slackTab) Ex.slackST).isSome = true := by decide +kernel
    rw [h] at this; cases this
  | some o =>
    have h1 : ∀ o ∈ solveTR (Ex.tableST Ex.slackTab) Ex.slackST, o.passes = 3 ∧
        (∀ j, Ex.slackST.lb (.inr j) ≤ Ex.slackST.sl j) ∧ o.slnew 0 < Ex.slackST.lb (.inr 0) ∧
        Ex.slackST.ce (.inr 0) - Ex.slackST.sl 0 ^ 2 = 0 ∧
        ∑ i, Ex.slackST.ae (.inr 0) i * (o.xnew i - Ex.slackST.x i) -
          2 * Ex.slackST.sl 0 * (o.slnew 0 - Ex.slackST.sl 0) ≠ 0 := by decide +kernel
    exact ⟨o, rfl, h1 o h⟩

/-- C69 fails for two passes, although all tangent steps are tangent to the rows given: a linear constraint that
holds at the iterate does not hold at the trial point, because the Hessian of the Lagrangian times the step was
added to its gradient. -/
theorem C69_false : ∃ o, solveTR (Ex.tableST Ex.jacTab) Ex.jacST = some o ∧ o.passes = 2 ∧
    (∀ rows M g δ, ∀ a ∈ rows, a ⬝ᵥ ((Ex.tableST Ex.jacTab : STKer ℚ 3 1 0).tang rows M g δ).1 = 0) ∧
    (∀ c, Ex.jacST.ce c = 0) ∧
    ∑ i, Ex.jacST.ae (.inl 0) i * (o.xnew i - Ex.jacST.x i) = - 1 / 5 := by
  cases h : solveTR (Ex.tableST Ex.jacTab) Ex.jacST with
  | none =>
    have : (solveTR (Ex.tableST Ex.jacTab) Ex.jacST).isSome = true := by decide +kernel
    rw [h] at this; cases this
  | some o =>
    have h1 : ∀ o ∈ solveTR (Ex.tableST Ex.jacTab) Ex.jacST, o.passes = 2 ∧
        ∑ i, Ex.jacST.ae (.inl 0) i * (o.xnew i - Ex.jacST.x i) = - 1 / 5 := by decide +kernel
    obtain ⟨a, b⟩ := h1 o h
    exact ⟨o, rfl, a, fun rows M g δ => (Ex.tableST_tang (m := 1) Ex.jacTab rows M g δ).1, fun _ => rfl, b⟩

/-- One pass with a slack variable: the hypotheses of both theorems hold. -/
example : (∀ j, Ex.slackST.lb (.inr j) ≤ Ex.slackST.sl j ∧ Ex.slackST.sl j ≤ Ex.slackST.ub (.inr j)) ∧
    (∀ i, Ex.slackST.lb (.inl i) ≤ Ex.slackST.x i ∧ Ex.slackST.x i ≤ Ex.slackST.ub (.inl i)) ∧
    (solveTR (Ex.tableST fun _ => Sum.elim ![1 / 10, 0, - 1 / 5] ![- 1 / 10]) Ex.slackST).map STOut.report =
      some ([1 / 10, 0, - 1 / 5], [9 / 10], 1, false) := by
  refine ⟨?_, ?_, ?_⟩ <;> decide +kernel

/-! ### The shortened tangent step -/

theorem le_foldl_min : ∀ (l : List K) (a c : K), (∀ b ∈ a :: l, c ≤ b) → c ≤ l.foldl min a := by
  intro l
  induction l with
  | nil => intro a c h; exact h a List.mem_cons_self
  | cons b l ih =>
    intro a c h
    rw [List.foldl_cons]
    refine ih _ _ fun d hd => ?_
    rcases List.mem_cons.1 hd with rfl | hd
    · exact le_min (h a List.mem_cons_self) (h b (List.mem_cons_of_mem _ List.mem_cons_self))
    · exact h d (List.mem_cons_of_mem _ (List.mem_cons_of_mem _ hd))

theorem mem_ratios {I : STIn K n m q} {y t : VS n q → K} {b : K} (h : b ∈ ratios I y t) :
    ∃ v, (0 < divisor (t v) ∧ b = (I.ub v - y v) / divisor (t v)) ∨
      (0 < divisor (- t v) ∧ b = (y v - I.lb v) / divisor (- t v)) := by
  unfold ratios at h
  rw [List.mem_filterMap] at h
  obtain ⟨p, hp, hb⟩ := h
  split_ifs at hb with h0
  rw [Option.some.injEq] at hb
  rcases List.mem_append.1 hp with hp | hp
  · obtain ⟨v, _, rfl⟩ := List.mem_map.1 hp
    exact ⟨v, Or.inl ⟨h0, hb.symm⟩⟩
  · obtain ⟨v, _, rfl⟩ := List.mem_map.1 hp
    refine ⟨v, Or.inr ⟨h0, ?_⟩⟩
    rw [← hb]
    congr 1
    ring

/-- C70, the part that holds: from a point within the bounds the shortened tangent step stays within the bounds,
and if no component of the tangent step is smaller than `1e-15` in size, no larger multiple does.
Missing: components that are zero (`C70_false`). -/
theorem C70_shortened_partial (I : STIn K n m q) (y t : VS n q → K) (hy : Near 0 I.lb I.ub y) :
    Near 0 I.lb I.ub (y + minRatio I y t • t) ∧
    (0 < n + q → (∀ v, 1 / 10 ^ 15 ≤ |t v|) → ∀ ρ, Near 0 I.lb I.ub (y + ρ • t) → ρ ≤ minRatio I y t) := by
  refine ⟨fun v => minRatio_near le_rfl v (hy v), fun hn ht ρ hρ => ?_⟩
  rcases le_total ρ 0 with h0 | h0
  · exact h0.trans (minRatio_nonneg I y t)
  have e15 : (0 : K) < 1 / 10 ^ 15 := by positivity
  have dv : ∀ d : K, 1 / 10 ^ 15 ≤ |d| → divisor d = d := by
    intro d hd
    unfold divisor
    refine if_neg fun h => ?_
    exact absurd (abs_lt.2 ⟨h.2, h.1⟩) (not_lt.2 hd)
  have hall : ∀ b ∈ ratios I y t, ρ ≤ b := by
    intro b hb
    obtain ⟨v, ⟨h1, rfl⟩ | ⟨h1, rfl⟩⟩ := mem_ratios hb
    · rw [le_div_iff₀ h1, dv _ (ht v)]
      have := (hρ v).2
      simp only [Pi.add_apply, Pi.smul_apply, smul_eq_mul] at this
      linarith
    · have ht' : 1 / 10 ^ 15 ≤ |- t v| := by rw [abs_neg]; exact ht v
      rw [le_div_iff₀ h1, dv _ ht']
      have := (hρ v).1
      simp only [Pi.add_apply, Pi.smul_apply, smul_eq_mul] at this
      linarith
  have hne : ratios I y t ≠ [] := by
    obtain ⟨v⟩ : Nonempty (VS n q) := by
      rcases Nat.eq_zero_or_pos n with h | h
      · exact ⟨.inr ⟨0, by omega⟩⟩
      · exact ⟨.inl ⟨0, h⟩⟩
    rcases le_total 0 (t v) with h | h
    · have h1 := ht v
      rw [abs_of_nonneg h] at h1
      exact List.ne_nil_of_mem (ratios_ub I y t v (by rw [dv _ (ht v)]; linarith))
    · have h1 := ht v
      rw [abs_of_nonpos h] at h1
      have ht' : 1 / 10 ^ 15 ≤ |- t v| := by rw [abs_neg]; exact ht v
      exact List.ne_nil_of_mem (ratios_lb I y t v (by rw [dv _ ht']; linarith))
  unfold minRatio
  split
  · rename_i h; exact absurd h hne
  · rename_i a l h
    rw [h] at hall
    exact (le_foldl_min l a ρ hall).trans (le_max_right _ _)

/-- If a variable is at a bound and the tangent step does not move it, nothing of the tangent step is kept. -/
theorem C70_stuck (I : STIn K n m q) (y t : VS n q → K) (v : VS n q) (hv : y v = I.lb v ∨ y v = I.ub v)
    (ht : t v = 0) : minRatio I y t = 0 := by
  have e15 : (0 : K) < 1 / 10 ^ 15 := by positivity
  have d0 : divisor (0 : K) = 1 / 10 ^ 15 := if_pos ⟨e15, by linarith⟩
  refine le_antisymm ?_ (minRatio_nonneg I y t)
  rcases hv with hv | hv
  · have := minRatio_le (ratios_lb I y t v (by rw [ht, neg_zero, d0]; exact e15))
    rwa [hv, sub_self, zero_div, max_self] at this
  · have := minRatio_le (ratios_ub I y t v (by rw [ht, d0]; exact e15))
    rwa [hv, sub_self, zero_div, max_self] at this

/-- Two variables and a slack variable. -/
def Ex.stuckST : STIn ℚ 2 0 1 where
  x := 0
  sl := 1
  lb := Sum.elim ![- 1 / 10, - 2 / 5] ![0]
  ub := Sum.elim ![10, 10] ![10 ^ 20]
  δ := 10
  M := 0
  g := ![1, 1]
  ce := fun _ => 1
  ae := fun _ => ![2, 2]
  lm := (0, 0)
  precR := 1 / 10 ^ 6
  thr := 1 / 10 ^ 8

/-- Table for `stuckST`. -/
def Ex.stuckTab : ℕ → VS 2 1 → ℚ := fun l =>
  if l = 1 then Sum.elim ![-1, 0] ![-1] else Sum.elim ![0, - 4 / 5] ![- 4 / 5]

/-- C70 fails in a run: after the first variable was brought to its bound, half of the next tangent step is
within the bounds, but nothing of it is kept for the second variable (the slack variable takes all of it). -/
theorem C70_false : Near 0 Ex.stuckST.lb Ex.stuckST.ub
      (Sum.elim ![- 1 / 10, 0] ![9 / 10] + (1 / 2 : ℚ) • Ex.stuckTab 2) ∧
    ∃ o, solveTR (Ex.tableST Ex.stuckTab) Ex.stuckST = some o ∧ o.passes = 3 ∧ o.xnew 1 = 0 ∧
      o.slnew 0 = 1 / 10 := by
  refine ⟨?_, ?_⟩
  · intro v
    rcases v with v | v <;> fin_cases v <;> decide +kernel
  cases h : solveTR (Ex.tableST Ex.stuckTab) Ex.stuckST with
  | none =>
    have : (solveTR (Ex.tableST Ex.stuckTab) Ex.stuckST).isSome = true := by decide +kernel
    rw [h] at this; cases this
  | some o =>
    have h1 : ∀ o ∈ solveTR (Ex.tableST Ex.stuckTab) Ex.stuckST, o.passes = 3 ∧ o.xnew 1 = 0 ∧
        o.slnew 0 = 1 / 10 := by decide +kernel
    exact ⟨o, rfl, h1 o h⟩

/-- A case of the hypotheses: a tangent step without zeros, kept to one half. -/
example : (∀ v, (1 : ℚ) / 10 ^ 15 ≤ |(Sum.elim ![-1, - 4 / 5] ![- 9 / 5] : VS 2 1 → ℚ) v|) ∧
    minRatio { Ex.stuckST with lb := Sum.elim ![-1, - 2 / 5] ![0] } (Sum.elim ![0, 0] ![1])
      (Sum.elim ![-1, - 4 / 5] ![- 9 / 5]) = 1 / 2 := by
  refine ⟨?_, ?_⟩ <;> decide +kernel

#print axioms C68_slack_bounds_partial
#print axioms C68_false
#print axioms C69_tangent_partial
#print axioms C69_false

#print axioms C70_shortened_partial
#print axioms C70_stuck
#print axioms C70_false

end Sqpdfo
