import Mathlib.Tactic.Linarith
import Mathlib.Tactic.NormNum
import Mathlib.Analysis.InnerProductSpace.PiL2
import Verif.Model.SolveTR
import Verif.Props.C28_C30_TruncCG
import Verif.Props.C43_C66_TRMSbc

/-! # C44, C67: the composite step -/

set_option linter.unusedSectionVars false

namespace Sqpdfo
open Matrix Spec
variable {K : Type} [Field K] [LinearOrder K] [IsStrictOrderedRing K] {n m q : ℕ}

/-- No component of `x` violates its bounds by more than `θ`. -/
def Spec.Near {ι : Type} (θ : K) (lb ub x : ι → K) : Prop := ∀ i, lb i - θ ≤ x i ∧ x i ≤ ub i + θ

/-- The two parts of the step computed in a pass. -/
def PartsOf (k : STKer K n m q) (I : STIn K n m q) (S : STState K n m q) (r t : VS n q → K) : Prop :=
  (∃ a p, restoration k I S = some (r, a, p)) ∧ t = (tangent k I S r).1

/-- The test for a zero step. -/
def SmallStep (k : STKer K n m q) (r t : VS n q → K) : Prop :=
  k.nrm (fun i : Fin n => r (.inl i) + t (.inl i)) ≤ 1 / 10 ^ 16

/-- The fraction of the tangent step that is kept. -/
def keptRatio (I : STIn K n m q) (S : STState K n m q) (r t : VS n q → K) : K :=
  minRatio I (Sum.elim S.x I.sl + r) t

/-- The returns of a pass. -/
structure STPassOut (k : STKer K n m q) (I : STIn K n m q) (S : STState K n m q) (r t : VS n q → K)
    (o : STOut K n m q) : Prop where
  xnew : o.xnew = trialX S r t
  passes : o.passes = S.iter
  why : SmallStep k r t ∨ (scan I (trialX S r t) (List.finRange n) []).2 = none
  slnew : (scan I (trialX S r t) (List.finRange n) []).2 = none → o.slnew = trialSlack I S r t
  δ : o.δ = S.δ ∨ ((∃ i, (scan I (trialX S r t) (List.finRange n) []).2 = some i) ∧
    o.δ = S.δ - 1 / 2 * k.nrm (fun i : Fin n => r (.inl i) + keptRatio I S r t * t (.inl i)))

/-- The continuations of a pass. -/
structure STPassNext (k : STKer K n m q) (I : STIn K n m q) (S : STState K n m q) (r t : VS n q → K)
    (T : STState K n m q) : Prop where
  iter : T.iter = S.iter
  small : SmallStep k r t → S.iter < 10 * n
  large : ¬ SmallStep k r t → T.rows.length = S.rows.length + 1
  move : (T.x = S.x ∧ T.δ = S.δ ∧ T.slnew = trialSlack I S r t) ∨
    ((∃ i, (scan I (trialX S r t) (List.finRange n) []).2 = some i) ∧
      (T.x = fun i => S.x i + r (.inl i) + keptRatio I S r t * t (.inl i)) ∧
      T.δ = S.δ - 1 / 2 * k.nrm (fun i : Fin n => r (.inl i) + keptRatio I S r t * t (.inl i)) ∧
      T.slnew = fun j => if S.iter = 1 then I.sl j + r (.inr j) + keptRatio I S r t * t (.inr j)
        else trialSlack I S r t j + keptRatio I S r t * t (.inr j))

theorem zeroStep_keep (k : STKer K n m q) (y : Fin n → K) (act : List (Fin n)) (S : STState K n m q) :
    (zeroStep k y act S).1.x = S.x ∧ (zeroStep k y act S).1.δ = S.δ ∧
      (zeroStep k y act S).1.slnew = S.slnew ∧ (zeroStep k y act S).1.iter = S.iter := by
  unfold zeroStep
  dsimp only
  split_ifs <;> exact ⟨rfl, rfl, rfl, rfl⟩

theorem restoration_some (k : STKer K n m q) (I : STIn K n m q) (S : STState K n m q) :
    ∃ r a p, restoration k I S = some (r, a, p) ∧ (S.iter ≠ 1 → r = 0) := by
  unfold restoration
  by_cases h : S.iter = 1 ∧ k.nrm (rowsGrad S.rows) > 1 / 10 ^ 14
  · rw [if_pos h]
    obtain ⟨o, ho, _⟩ := C43_stops k.bc (restIn k I S)
    rw [ho]
    exact ⟨_, _, _, rfl, fun h' => absurd h.1 h'⟩
  · rw [if_neg h]
    exact ⟨_, _, _, rfl, fun _ => rfl⟩

theorem restoration_in (k : STKer K n m q) (I : STIn K n m q) (S : STState K n m q)
    (hlu : ∀ v, I.lb v ≤ I.ub v) {r : VS n q → K} {a : Bool} {p : K}
    (h : restoration k I S = some (r, a, p)) (v : VS n q) :
    r v = 0 ∨ (I.lb v ≤ Sum.elim S.x I.sl v + r v ∧ Sum.elim S.x I.sl v + r v ≤ I.ub v) := by
  unfold restoration at h
  split_ifs at h with hc
  · obtain ⟨o, ho, hs, _⟩ := C43_components k.bc (restIn k I S)
      (fun i => sub_le_sub_right (hlu _) _)
    rw [ho] at h
    simp only [Option.some.injEq, Prod.mk.injEq] at h
    obtain ⟨rfl, _⟩ := h
    have := hs (finSumFinEquiv v)
    simp only [restIn, Function.comp_apply, Equiv.symm_apply_apply] at this ⊢
    rcases this with h | ⟨h1, h2⟩
    · exact Or.inl h
    · exact Or.inr ⟨by linarith, by linarith⟩
  · simp only [Option.some.injEq, Prod.mk.injEq] at h
    obtain ⟨rfl, _⟩ := h
    exact Or.inl rfl

/-- Every pass ends in one of the ways above. -/
theorem stPass_spec (k : STKer K n m q) (I : STIn K n m q) (S : STState K n m q) :
    ∃ r t, PartsOf k I S r t ∧
      match stPass k I S with
      | none => False
      | some (.inl o) => STPassOut k I S r t o
      | some (.inr T) => STPassNext k I S r t T := by
  obtain ⟨r, a, p, hr, _⟩ := restoration_some k I S
  refine ⟨r, (tangent k I S r).1, ⟨⟨a, p, hr⟩, rfl⟩, ?_⟩
  unfold stPass
  rw [hr]
  dsimp only
  generalize tangent k I S r = tt
  obtain ⟨t, actT⟩ := tt
  dsimp only
  generalize hv : (scan I (trialX S r t) (List.finRange n) []).2 = viol
  generalize (scan I (trialX S r t) (List.finRange n) []).1 = act
  generalize hS1 : afterScan I S r t p viol = S1
  have e1 : S1.x = S.x := by rw [← hS1]; rfl
  have e2 : S1.δ = S.δ := by rw [← hS1]; rfl
  have e3 : S1.slnew = trialSlack I S r t := by rw [← hS1]; rfl
  have e4 : S1.iter = S.iter := by rw [← hS1]; rfl
  have e5 : S1.rows = S.rows ++ viol.toList.map bndRow := by rw [← hS1]; rfl
  have key : ∀ T : STState K n m q, T.x = S.x → T.δ = S.δ → T.slnew = trialSlack I S r t →
      T.iter = S.iter → ∀ i, viol = some i →
      ((shorten k I r t T).x = fun i => S.x i + r (.inl i) + keptRatio I S r t * t (.inl i)) ∧
      (shorten k I r t T).δ = S.δ - 1 / 2 *
        k.nrm (fun i : Fin n => r (.inl i) + keptRatio I S r t * t (.inl i)) ∧
      ((shorten k I r t T).slnew = fun j =>
        if S.iter = 1 then I.sl j + r (.inr j) + keptRatio I S r t * t (.inr j)
        else trialSlack I S r t j + keptRatio I S r t * t (.inr j)) ∧
      (shorten k I r t T).iter = S.iter := by
    intro T h1 h2 h3 h4 i _
    unfold shorten
    dsimp only
    rw [h1, h2, h3, h4]
    exact ⟨rfl, rfl, rfl, rfl⟩
  unfold stEnd
  dsimp only
  by_cases hsm : k.nrm (fun i : Fin n => r (.inl i) + t (.inl i)) ≤ 1 / 10 ^ 16
  · rw [if_pos hsm]
    by_cases hl : S1.iter ≥ 10 * n ∨ S1.δ < 1 / 10 ^ 8
    · rw [if_pos hl]
      exact ⟨rfl, e4, Or.inl hsm, fun _ => e3, Or.inl e2⟩
    rw [if_neg hl]
    have hk := zeroStep_keep k (trialX S r t) act S1
    revert hk
    generalize zeroStep k (trialX S r t) act S1 = z
    obtain ⟨Z, fin⟩ := z
    intro hk
    obtain ⟨z1, z2, z3, z4⟩ := hk
    dsimp only at z1 z2 z3 z4 ⊢
    rw [e1] at z1; rw [e2] at z2; rw [e3] at z3; rw [e4] at z4
    have hlt : S.iter < 10 * n := by
      rw [not_or, e4] at hl
      exact not_le.1 hl.1
    cases fin with
    | true =>
      rw [if_pos rfl]
      cases viol with
      | none => exact ⟨rfl, z4, Or.inl hsm, fun _ => z3, Or.inl z2⟩
      | some i =>
        refine ⟨rfl, ?_, Or.inl hsm, fun h => ?_, Or.inr ⟨⟨i, hv⟩, (key Z z1 z2 z3 z4 i rfl).2.1⟩⟩
        · exact (key Z z1 z2 z3 z4 i rfl).2.2.2
        · rw [hv] at h; cases h
    | false =>
      rw [if_neg (by simp)]
      cases viol with
      | none => exact ⟨z4, fun _ => hlt, fun h => absurd hsm h, Or.inl ⟨z1, z2, z3⟩⟩
      | some i =>
        obtain ⟨a1, a2, a3, a4⟩ := key Z z1 z2 z3 z4 i rfl
        exact ⟨a4, fun _ => hlt, fun h => absurd hsm h, Or.inr ⟨⟨i, hv⟩, a1, a2, a3⟩⟩
  · rw [if_neg hsm]
    cases viol with
    | none => exact ⟨rfl, e4, Or.inr hv, fun _ => e3, Or.inl e2⟩
    | some i =>
      obtain ⟨a1, a2, a3, a4⟩ := key S1 e1 e2 e3 e4 i rfl
      refine ⟨a4, fun h => absurd h hsm, fun _ => ?_, Or.inr ⟨⟨i, hv⟩, a1, a2, a3⟩⟩
      change (shorten k I r t S1).rows.length = _
      unfold shorten
      dsimp only
      rw [List.length_append, List.length_map, ← List.length_append, List.take_append_drop, e5]
      simp

/-- Bound on the number of passes that are left. -/
def passesLeft (S : STState K n m q) : ℕ :=
  if S.iter < 10 * n then (10 * n - S.iter) + (n + q + 1) else (n + q - S.rows.length) + 1

/-- Induction over the passes. -/
theorem stLoop_ind (k : STKer K n m q) (I : STIn K n m q) (h0 : k.bc.sq 0 = 0)
    (P : STState K n m q → Prop) (Q : STOut K n m q → Prop)
    (hret : ∀ S r t o, P S → PartsOf k I S r t → STPassOut k I S r t o → Q o)
    (hnext : ∀ S r t T, P S → PartsOf k I S r t → STPassNext k I S r t T →
      P { T with iter := T.iter + 1 }) :
    ∀ (f : ℕ) (S : STState K n m q), P S → 1 ≤ S.iter → passesLeft S ≤ f →
      ∃ o, stLoop k I f S = some o ∧ Q o ∧ o.passes + 1 ≤ S.iter + passesLeft S := by
  have hpos : ∀ S : STState K n m q, 1 ≤ passesLeft S := by
    intro S; unfold passesLeft; split_ifs <;> omega
  intro f
  induction f with
  | zero => intro S _ _ h; have := hpos S; omega
  | succ f ih =>
    intro S hP h1 hf
    rw [stLoop]
    obtain ⟨r, t, hp, h⟩ := stPass_spec k I S
    revert h
    generalize stPass k I S = X
    match X with
    | none => exact False.elim
    | some (.inl o) =>
      intro h
      exact ⟨o, rfl, hret S r t o hP hp h, by rw [h.passes]; have := hpos S; omega⟩
    | some (.inr T) =>
      intro h
      have hle : passesLeft { T with iter := T.iter + 1 } + 1 ≤ passesLeft S := by
        unfold passesLeft
        dsimp only
        rw [h.iter]
        by_cases hi : S.iter < 10 * n
        · rw [if_pos hi]; split_ifs <;> omega
        · rw [if_neg hi, if_neg (by omega)]
          have hns : ¬ SmallStep k r t := fun hs => hi (h.small hs)
          have hlt : S.rows.length < n + q := by
            by_contra hc
            apply hns
            unfold SmallStep STKer.nrm
            by_cases hn : n = 0
            · subst hn
              rw [dotProduct, Finset.univ_eq_empty, Finset.sum_empty, h0]
              positivity
            obtain ⟨⟨a, p, hr⟩, rfl⟩ := hp
            obtain ⟨r', a', p', hr', hz⟩ := restoration_some k I S
            rw [hr] at hr'
            cases hr'
            rw [hz (by omega)]
            unfold tangent
            rw [if_neg hc]
            simp only [Pi.zero_apply, add_zero]
            rw [dotProduct, Finset.sum_eq_zero (fun i _ => mul_zero _), h0]
            positivity
          rw [h.large hns]
          omega
      obtain ⟨o, a, b, c⟩ := ih { T with iter := T.iter + 1 } (hnext S r t T hP hp h)
        (by simp) (by omega)
      refine ⟨o, a, b, ?_⟩
      have : ({ T with iter := T.iter + 1 } : STState K n m q).iter = S.iter + 1 := by
        change T.iter + 1 = _; rw [h.iter]
      omega

theorem solveTR_ind (k : STKer K n m q) (I : STIn K n m q) (h0 : k.bc.sq 0 = 0)
    (P : STState K n m q → Prop) (Q : STOut K n m q → Prop) (hs : P (stStart I))
    (hret : ∀ S r t o, P S → PartsOf k I S r t → STPassOut k I S r t o → Q o)
    (hnext : ∀ S r t T, P S → PartsOf k I S r t → STPassNext k I S r t T →
      P { T with iter := T.iter + 1 }) :
    ∃ o, solveTR k I = some o ∧ Q o ∧ o.passes ≤ 11 * n + q + 1 := by
  have hl : passesLeft (stStart I : STState K n m q) ≤ 11 * n + q + 1 ∧
      1 + passesLeft (stStart I : STState K n m q) ≤ 11 * n + q + 2 := by
    unfold passesLeft
    have : (stStart I : STState K n m q).iter = 1 := rfl
    rw [this]
    split_ifs <;> omega
  obtain ⟨o, a, b, c⟩ := stLoop_ind k I h0 P Q hret hnext (11 * n + q + 1) (stStart I) hs le_rfl hl.1
  exact ⟨o, a, b, by change _ ≤ 1 + _ at c; omega⟩

/-! ### Bounds -/

theorem scan_none (I : STIn K n m q) (y : Fin n → K) : ∀ (l act : List (Fin n)),
    (scan I y l act).2 = none → ∀ i ∈ l, ¬ y i - I.lb (.inl i) < - I.thr ∧
      (|y i - I.lb (.inl i)| < 1 / 10 ^ 7 ∨ ¬ y i - I.ub (.inl i) > I.thr) := by
  intro l
  induction l with
  | nil => intro _ _ i hi; cases hi
  | cons a l ih =>
    intro act h
    rw [scan] at h
    split_ifs at h with h1 h2 h3 h4
    · intro i hi
      rcases List.mem_cons.1 hi with rfl | hi
      · exact ⟨h1, Or.inl h2⟩
      · exact ih _ h i hi
    · intro i hi
      rcases List.mem_cons.1 hi with rfl | hi
      · exact ⟨h1, Or.inr h3⟩
      · exact ih _ h i hi
    · intro i hi
      rcases List.mem_cons.1 hi with rfl | hi
      · exact ⟨h1, Or.inr h3⟩
      · exact ih _ h i hi

theorem scan_some (I : STIn K n m q) (y : Fin n → K) : ∀ (l act : List (Fin n)) (i : Fin n),
    (scan I y l act).2 = some i → y i - I.lb (.inl i) < - I.thr ∨ y i - I.ub (.inl i) > I.thr := by
  intro l
  induction l with
  | nil => intro _ _ h; cases h
  | cons a l ih =>
    intro act i h
    rw [scan] at h
    split_ifs at h with h1 h2 h3 h4
    · cases h; exact Or.inl h1
    · exact ih _ i h
    · cases h; exact Or.inr h3
    · exact ih _ i h
    · exact ih _ i h

theorem foldl_min_bound : ∀ (l : List K) (a b : K), b ∈ a :: l → l.foldl min a ≤ b := by
  intro l
  induction l with
  | nil => intro a b h; simp at h; exact h.ge
  | cons c l ih =>
    intro a b h
    rw [List.foldl_cons]
    rcases List.mem_cons.1 h with rfl | h
    · exact (ih (min b c) (min b c) List.mem_cons_self).trans (min_le_left _ _)
    rcases List.mem_cons.1 h with rfl | h
    · exact (ih (min a b) (min a b) List.mem_cons_self).trans (min_le_right _ _)
    · exact ih _ b (List.mem_cons_of_mem _ h)

theorem minRatio_nonneg (I : STIn K n m q) (y t : VS n q → K) : 0 ≤ minRatio I y t := by
  unfold minRatio
  split
  · exact le_rfl
  · exact le_max_left _ _

theorem minRatio_le {I : STIn K n m q} {y t : VS n q → K} {b : K} (h : b ∈ ratios I y t) :
    minRatio I y t ≤ max 0 b := by
  unfold minRatio
  split
  · exact le_max_left _ _
  · rename_i a l hl
    rw [hl] at h
    exact max_le_max le_rfl (foldl_min_bound l a b h)

theorem mem_vs (v : VS n q) : v ∈ (List.finRange n).map Sum.inl ++ (List.finRange q).map Sum.inr := by
  cases v <;> simp

theorem ratios_ub (I : STIn K n m q) (y t : VS n q → K) (v : VS n q) (h : 0 < divisor (t v)) :
    (I.ub v - y v) / divisor (t v) ∈ ratios I y t := by
  unfold ratios
  rw [List.mem_filterMap]
  refine ⟨(I.ub v - y v, divisor (t v)), ?_, if_pos h⟩
  exact List.mem_append_left _ (List.mem_map.2 ⟨v, mem_vs v, rfl⟩)

theorem ratios_lb (I : STIn K n m q) (y t : VS n q → K) (v : VS n q) (h : 0 < divisor (- t v)) :
    (y v - I.lb v) / divisor (- t v) ∈ ratios I y t := by
  unfold ratios
  rw [List.mem_filterMap]
  refine ⟨(- I.lb v - - y v, divisor (- t v)), ?_, ?_⟩
  · exact List.mem_append_right _ (List.mem_map.2 ⟨v, mem_vs v, rfl⟩)
  · rw [if_pos h]
    congr 2
    ring

theorem divisor_spec (d : K) : (d ≤ 0 ∧ divisor d = d) ∨ (0 < divisor d ∧ d ≤ divisor d ∧
    (d < 1 / 10 ^ 15 → divisor d = 1 / 10 ^ 15)) := by
  have e : (0 : K) < 1 / 10 ^ 15 := by positivity
  unfold divisor
  by_cases h : d < 1 / 10 ^ 15 ∧ d > - (1 / 10 ^ 15)
  · rw [if_pos h]; exact Or.inr ⟨e, h.1.le, fun _ => rfl⟩
  · rw [if_neg h]
    by_cases h1 : d < 1 / 10 ^ 15
    · left
      refine ⟨?_, rfl⟩
      have : ¬ d > - (1 / 10 ^ 15) := fun h' => h ⟨h1, h'⟩
      linarith [not_lt.1 this]
    · right
      exact ⟨e.trans_le (not_lt.1 h1), le_rfl, fun h' => absurd h' h1⟩

/-- The kept part of the tangent step makes no violation worse, on one side. -/
theorem ratio_side {b y d w ρ : K} {θ : K} (hθ : 0 ≤ θ) (hy : y ≤ b + θ) (hw0 : 0 < w) (hd : d ≤ w)
    (hρ : 0 ≤ ρ) (h : ρ ≤ max 0 ((b - y) / w)) : y + ρ * d ≤ b + θ := by
  rcases le_total ((b - y) / w) 0 with h0 | h0
  · rw [max_eq_left h0] at h
    rw [le_antisymm h hρ, zero_mul, add_zero]
    exact hy
  · rw [max_eq_right h0, le_div_iff₀ hw0] at h
    have := mul_le_mul_of_nonneg_left hd hρ
    linarith

theorem minRatio_near {I : STIn K n m q} {y t : VS n q → K} {θ : K} (hθ : 0 ≤ θ) (v : VS n q)
    (hy : I.lb v - θ ≤ y v ∧ y v ≤ I.ub v + θ) :
    I.lb v - θ ≤ y v + minRatio I y t * t v ∧ y v + minRatio I y t * t v ≤ I.ub v + θ := by
  have h0 := minRatio_nonneg I y t
  constructor
  · rcases divisor_spec (- t v) with h | h
    · have : 0 ≤ minRatio I y t * t v := mul_nonneg h0 (by linarith [h.1])
      linarith
    · have := ratio_side (b := - I.lb v) (y := - y v) (d := - t v) hθ (by linarith) h.1 h.2.1 h0
        (by
          have := minRatio_le (ratios_lb I y t v h.1)
          rwa [show - I.lb v - - y v = y v - I.lb v by ring])
      linarith
  · rcases divisor_spec (t v) with h | h
    · have : minRatio I y t * t v ≤ 0 := mul_nonpos_of_nonneg_of_nonpos h0 h.1
      linarith
    · exact ratio_side hθ hy.2 h.1 h.2.1 h0 (minRatio_le (ratios_ub I y t v h.1))

theorem parts_near {k : STKer K n m q} {I : STIn K n m q} {S : STState K n m q} {r t : VS n q → K}
    (hlu : ∀ v, I.lb v ≤ I.ub v) {θ : K} (hθ : 0 ≤ θ) (hp : PartsOf k I S r t)
    (hx : Near θ (fun i => I.lb (.inl i)) (fun i => I.ub (.inl i)) S.x) :
    Near θ (fun i => I.lb (.inl i)) (fun i => I.ub (.inl i)) (fun i => S.x i + r (.inl i)) := by
  obtain ⟨⟨a, p, hr⟩, _⟩ := hp
  intro i
  rcases restoration_in k I S hlu hr (.inl i) with h | h
  · dsimp only; rw [h, add_zero]; exact hx i
  · simp only [Sum.elim_inl] at h
    exact ⟨by linarith [h.1], by linarith [h.2]⟩

/-- The next iterate is no further outside its bounds. -/
theorem next_near {k : STKer K n m q} {I : STIn K n m q} {S T : STState K n m q} {r t : VS n q → K}
    (hlu : ∀ v, I.lb v ≤ I.ub v) {θ : K} (hθ : 0 ≤ θ) (hp : PartsOf k I S r t)
    (hx : Near θ (fun i => I.lb (.inl i)) (fun i => I.ub (.inl i)) S.x)
    (h : STPassNext k I S r t T) :
    Near θ (fun i => I.lb (.inl i)) (fun i => I.ub (.inl i)) T.x := by
  rcases h.move with ⟨h, _⟩ | ⟨_, h, _⟩
  · rw [h]; exact hx
  · intro i
    rw [h]
    have := parts_near hlu hθ hp hx i
    exact minRatio_near (y := Sum.elim S.x I.sl + r) (t := t) hθ (.inl i) this

theorem abs_le_nrm {ι : Type} [Fintype ι] {k : STKer K n m q}
    (hsq : ∀ a, 0 ≤ a → 0 ≤ k.bc.sq a ∧ a ≤ k.bc.sq a * k.bc.sq a) (v : ι → K) (i : ι) :
    |v i| ≤ k.nrm v := by
  have hs : v i * v i ≤ v ⬝ᵥ v :=
    Finset.single_le_sum (f := fun i => v i * v i) (fun i _ => mul_self_nonneg _) (Finset.mem_univ i)
  obtain ⟨a, b⟩ := hsq (v ⬝ᵥ v) ((mul_self_nonneg _).trans hs)
  unfold STKer.nrm
  refine abs_le_of_sq_le_sq ?_ a
  rw [pow_two, pow_two]
  exact hs.trans b

/-- C44, termination: for all kernels (with `norm(0) = 0`) and all arguments the loop over the active set
ends, after at most `11*n + q + 1` passes. -/
theorem C44_terminates (k : STKer K n m q) (I : STIn K n m q) (h0 : k.bc.sq 0 = 0) :
    ∃ o, solveTR k I = some o ∧ o.passes ≤ 11 * n + q + 1 := by
  obtain ⟨o, a, _, b⟩ := solveTR_ind k I h0 (fun _ => True) (fun _ => True) trivial
    (fun _ _ _ _ _ _ _ => trivial) (fun _ _ _ _ _ _ _ => trivial)
  exact ⟨o, a, b⟩

/-- C44, bounds: if the bounds of every variable are at least `1e-7 - threshold` apart and the current
iterate violates none by more than `θ`, the trial point violates none by more than
`max(threshold, θ + 1e-16)`. -/
theorem C44_near (k : STKer K n m q) (I : STIn K n m q)
    (h0 : k.bc.sq 0 = 0) (hsq : ∀ a, 0 ≤ a → 0 ≤ k.bc.sq a ∧ a ≤ k.bc.sq a * k.bc.sq a)
    (hlu : ∀ v, I.lb v ≤ I.ub v) (hgap : ∀ i, I.lb (.inl i) + (1 / 10 ^ 7 - I.thr) ≤ I.ub (.inl i))
    {θ : K} (hθ : 0 ≤ θ) (hx : Near θ (fun i => I.lb (.inl i)) (fun i => I.ub (.inl i)) I.x) :
    ∃ o, solveTR k I = some o ∧ o.passes ≤ 11 * n + q + 1 ∧
      Near (max I.thr (θ + 1 / 10 ^ 16)) (fun i => I.lb (.inl i)) (fun i => I.ub (.inl i)) o.xnew := by
  obtain ⟨o, a, b, c⟩ := solveTR_ind k I h0
    (fun S => Near θ (fun i => I.lb (.inl i)) (fun i => I.ub (.inl i)) S.x)
    (fun o => Near (max I.thr (θ + 1 / 10 ^ 16)) (fun i => I.lb (.inl i)) (fun i => I.ub (.inl i)) o.xnew)
    hx
    (by
      intro S r t o hS hp h i
      have m1 : I.thr ≤ max I.thr (θ + 1 / 10 ^ 16) := le_max_left _ _
      have m2 : θ + 1 / 10 ^ 16 ≤ max I.thr (θ + 1 / 10 ^ 16) := le_max_right _ _
      rw [h.xnew]
      rcases h.why with hs | hs
      · have h1 := (abs_le_nrm hsq (fun i : Fin n => r (.inl i) + t (.inl i)) i).trans hs
        rw [abs_le] at h1
        have h2 := hS i
        simp only [trialX] at h1 h2 ⊢
        exact ⟨by linarith [h1.1, h2.1], by linarith [h1.2, h2.2]⟩
      · obtain ⟨h1, h2⟩ := scan_none I (trialX S r t) _ _ hs i (List.mem_finRange i)
        refine ⟨by linarith [not_lt.1 h1], ?_⟩
        rcases h2 with h2 | h2
        · have := (abs_lt.1 h2).2
          linarith [hgap i]
        · linarith [not_lt.1 h2])
    (fun S r t T hS hp h => by have := next_near hlu hθ hp hS h; exact this)
  exact ⟨o, a, c, b⟩

/-- C44 for an iterate within its bounds and `threshold = 1e-8`: the loop ends and the trial point violates
no bound by more than `1e-8`.  Missing: bounds that are less than `9e-8` apart (`C44_false`). -/
theorem C44_partial (k : STKer K n m q) (I : STIn K n m q)
    (h0 : k.bc.sq 0 = 0) (hsq : ∀ a, 0 ≤ a → 0 ≤ k.bc.sq a ∧ a ≤ k.bc.sq a * k.bc.sq a)
    (hthr : I.thr = 1 / 10 ^ 8)
    (hlu : ∀ v, I.lb v ≤ I.ub v) (hgap : ∀ i, I.lb (.inl i) + 9 / 10 ^ 8 ≤ I.ub (.inl i))
    (hx : Near 0 (fun i => I.lb (.inl i)) (fun i => I.ub (.inl i)) I.x) :
    ∃ o, solveTR k I = some o ∧ o.passes ≤ 11 * n + q + 1 ∧
      Near (1 / 10 ^ 8) (fun i => I.lb (.inl i)) (fun i => I.ub (.inl i)) o.xnew := by
  obtain ⟨o, a, b, c⟩ := C44_near k I h0 hsq hlu
    (fun i => le_trans (by rw [hthr]; norm_num) (hgap i)) le_rfl hx
  refine ⟨o, a, b, ?_⟩
  rw [hthr, zero_add, max_eq_left (by norm_num)] at c
  exact c

/-- C44 without constraints: the trial point satisfies the bounds. -/
theorem C44_unconstrained (k : BCKer K n) (x lb ub g : Fin n → K) (M : Matrix (Fin n) (Fin n) K) (δ : K)
    (hx : Near 0 lb ub x) : ∃ y a, solveTR0 k x lb ub g M δ = some (y, a) ∧ Near 0 lb ub y := by
  obtain ⟨o, ho, hs, _⟩ := C43_step_in_bounds k
    ⟨g, M, fun i => lb i - x i, fun i => ub i - x i, δ, 1 / 10 ^ 7⟩
    (fun i => ⟨by have := (hx i).1; simp only [Pi.zero_apply]; linarith,
      by have := (hx i).2; simp only [Pi.zero_apply]; linarith⟩)
  unfold solveTR0
  rw [ho]
  refine ⟨_, _, rfl, fun i => ?_⟩
  have := hs i
  simp only [Pi.add_apply] at this ⊢
  exact ⟨by linarith [this.1], by linarith [this.2]⟩

/-! ### Length -/

theorem stnrm_nonneg {k : STKer K n m q} (hsq : ∀ a, 0 ≤ a → 0 ≤ k.bc.sq a ∧ k.bc.sq a * k.bc.sq a = a)
    {ι : Type} [Fintype ι] (v : ι → K) : 0 ≤ k.nrm v :=
  (hsq _ (Finset.sum_nonneg fun i _ => mul_self_nonneg (v i))).1

theorem stnrm_sq {k : STKer K n m q} (hsq : ∀ a, 0 ≤ a → 0 ≤ k.bc.sq a ∧ k.bc.sq a * k.bc.sq a = a)
    {ι : Type} [Fintype ι] (v : ι → K) : k.nrm v * k.nrm v = v ⬝ᵥ v :=
  (hsq _ (Finset.sum_nonneg fun i _ => mul_self_nonneg (v i))).2

theorem stnrm_add_le {k : STKer K n m q} (hsq : ∀ a, 0 ≤ a → 0 ≤ k.bc.sq a ∧ k.bc.sq a * k.bc.sq a = a)
    {ι : Type} [Fintype ι] (u v : ι → K) : k.nrm (fun i => u i + v i) ≤ k.nrm u + k.nrm v := by
  have a0 := stnrm_nonneg hsq u
  have b0 := stnrm_nonneg hsq v
  have a1 := stnrm_sq hsq u
  have b1 := stnrm_sq hsq v
  have c1 := stnrm_sq hsq (fun i => u i + v i)
  refine abs_le_of_sq_le_sq' ?_ (by linarith) |>.2
  have e : (fun i => u i + v i) ⬝ᵥ (fun i => u i + v i) = u ⬝ᵥ u + 2 * (u ⬝ᵥ v) + v ⬝ᵥ v := by
    change (u + v) ⬝ᵥ (u + v) = _
    simp only [add_dotProduct, dotProduct_add]
    rw [dotProduct_comm v u]; ring
  have cs := dot_cs u v
  rw [← a1, ← b1] at cs
  have : u ⬝ᵥ v ≤ k.nrm u * k.nrm v := by
    refine abs_le_of_sq_le_sq' ?_ (mul_nonneg a0 b0) |>.2
    calc _ ≤ _ := cs
      _ = _ := by ring
  rw [pow_two, c1, e]
  nlinarith

theorem stnrm_smul {k : STKer K n m q} (hsq : ∀ a, 0 ≤ a → 0 ≤ k.bc.sq a ∧ k.bc.sq a * k.bc.sq a = a)
    {ι : Type} [Fintype ι] {c : K} (hc : 0 ≤ c) (v : ι → K) : k.nrm (fun i => c * v i) = c * k.nrm v := by
  have a0 := stnrm_nonneg hsq (fun i => c * v i)
  have b0 := mul_nonneg hc (stnrm_nonneg hsq v)
  have a1 := stnrm_sq hsq (fun i => c * v i)
  have b1 := stnrm_sq hsq v
  refine (mul_self_inj a0 b0).1 ?_
  rw [a1]
  change (c • v) ⬝ᵥ (c • v) = _
  rw [smul_dotProduct, dotProduct_smul, ← b1]
  simp only [smul_eq_mul]
  ring

/-- If a bound is violated by the trial point but not by the point before the tangent step, the kept part of
the tangent step is at most the whole of it. -/
theorem keptRatio_le_one {I : STIn K n m q} {S : STState K n m q} {r t : VS n q → K} (hthr : 0 ≤ I.thr)
    (hx : Near I.thr (fun i => I.lb (.inl i)) (fun i => I.ub (.inl i)) (fun i => S.x i + r (.inl i)))
    {i : Fin n} (h : (scan I (trialX S r t) (List.finRange n) []).2 = some i) :
    keptRatio I S r t ≤ 1 := by
  have hxi := hx i
  dsimp only at hxi
  unfold keptRatio
  rcases scan_some I _ _ _ i h with h | h
  · unfold trialX at h
    rcases divisor_spec (- t (.inl i)) with hd | ⟨h1, h2, _⟩
    · linarith [hd.1]
    · refine (minRatio_le (ratios_lb I _ t (.inl i) h1)).trans (max_le zero_le_one ?_)
      rw [div_le_one h1]
      simp only [Pi.add_apply, Sum.elim_inl]
      linarith
  · unfold trialX at h
    rcases divisor_spec (t (.inl i)) with hd | ⟨h1, h2, _⟩
    · linarith [hd.1]
    · refine (minRatio_le (ratios_ub I _ t (.inl i) h1)).trans (max_le zero_le_one ?_)
      rw [div_le_one h1]
      simp only [Pi.add_apply, Sum.elim_inl]
      linarith

/-- C67.  With exact norms, a tangent step within its radius, an iterate that violates no bound by more than
the threshold, and a restoration step that is not longer than the radius: the trial point is at most twice the
radius away from the iterate, and the returned radius is between zero and the given one. -/
theorem C67_length_partial (k : STKer K n m q) (I : STIn K n m q)
    (hsq : ∀ a, 0 ≤ a → 0 ≤ k.bc.sq a ∧ k.bc.sq a * k.bc.sq a = a)
    (htan : ∀ rows M g δ, 0 ≤ δ → k.nrm ((k.tang rows M g δ).1 ∘ Sum.inl) ≤ δ)
    (hδ : 0 ≤ I.δ) (hthr : 0 ≤ I.thr) (hlu : ∀ v, I.lb v ≤ I.ub v)
    (hx : Near I.thr (fun i => I.lb (.inl i)) (fun i => I.ub (.inl i)) I.x)
    (hr : ∀ r a p, restoration k I (stStart I) = some (r, a, p) → k.nrm (r ∘ Sum.inl) ≤ I.δ) :
    ∃ o, solveTR k I = some o ∧ k.nrm (fun i => o.xnew i - I.x i) ≤ 2 * I.δ ∧ 0 ≤ o.δ ∧ o.δ ≤ I.δ := by
  have h0 : k.bc.sq 0 = 0 := mul_self_eq_zero.1 (hsq 0 le_rfl).2
  have nz : ∀ {ι : Type} [Fintype ι] (v : ι → K), (∀ i, v i = 0) → k.nrm v = 0 := by
    intro ι _ v hv
    unfold STKer.nrm
    rw [dotProduct, Finset.sum_eq_zero (fun i _ => by rw [hv i, mul_zero]), h0]
  let P : STState K n m q → Prop := fun S =>
    Near I.thr (fun i => I.lb (.inl i)) (fun i => I.ub (.inl i)) S.x ∧ 0 ≤ S.δ ∧ S.δ ≤ I.δ ∧
    k.nrm (fun i => S.x i - I.x i) ≤ 2 * (I.δ - S.δ) ∧ 1 ≤ S.iter ∧ (S.iter = 1 → S = stStart I)
  -- the two parts
  have parts : ∀ S r t, P S → PartsOf k I S r t →
      k.nrm (t ∘ Sum.inl) ≤ S.δ ∧ k.nrm (r ∘ Sum.inl) ≤ S.δ ∧
        k.nrm (fun i => S.x i - I.x i) + k.nrm (r ∘ Sum.inl) + S.δ ≤ 2 * I.δ := by
    intro S r t ⟨_, p1, p2, p3, p4, p5⟩ ⟨⟨a, p, h1⟩, h2⟩
    refine ⟨?_, ?_⟩
    · rw [h2]
      unfold tangent
      split_ifs
      · exact htan _ _ _ _ p1
      · exact (nz (_ : Fin n → K) (fun _ => rfl)).le.trans p1
    · by_cases hi : S.iter = 1
      · have e := p5 hi
        subst e
        have := hr r a p h1
        refine ⟨this, ?_⟩
        rw [nz (fun i => (stStart I : STState K n m q).x i - I.x i) (fun i => sub_self _)]
        linarith
      · obtain ⟨r', a', p', h1', hz⟩ := restoration_some k I S
        rw [h1] at h1'
        cases h1'
        have e : k.nrm (r ∘ (Sum.inl : Fin n → VS n q)) = 0 := nz _ (fun _ => by rw [hz hi]; rfl)
        rw [e]
        exact ⟨p1, by linarith⟩
  have shrink : ∀ S r t i, P S → PartsOf k I S r t →
      (scan I (trialX S r t) (List.finRange n) []).2 = some i →
      k.nrm (fun i : Fin n => r (.inl i) + keptRatio I S r t * t (.inl i)) ≤ 2 * S.δ := by
    intro S r t i hP hp hi
    obtain ⟨q1, q2, _⟩ := parts S r t hP hp
    have hle := keptRatio_le_one hthr (parts_near hlu hthr hp hP.1) hi
    have hge : 0 ≤ keptRatio I S r t := minRatio_nonneg _ _ _
    refine (stnrm_add_le hsq (fun i : Fin n => r (.inl i))
      (fun i : Fin n => keptRatio I S r t * t (.inl i))).trans ?_
    rw [stnrm_smul hsq hge (fun i : Fin n => t (.inl i))]
    have hn := stnrm_nonneg hsq (fun i : Fin n => t (.inl i))
    have q1' : k.nrm (fun i : Fin n => t (.inl i)) ≤ S.δ := q1
    have q2' : k.nrm (fun i : Fin n => r (.inl i)) ≤ S.δ := q2
    nlinarith
  obtain ⟨o, a, b, _⟩ := solveTR_ind k I h0 P
    (fun o => k.nrm (fun i => o.xnew i - I.x i) ≤ 2 * I.δ ∧ 0 ≤ o.δ ∧ o.δ ≤ I.δ)
    ⟨hx, hδ, le_rfl, by
      rw [nz (fun i => (stStart I : STState K n m q).x i - I.x i) (fun i => sub_self _)]
      change 0 ≤ 2 * (I.δ - I.δ)
      rw [sub_self, mul_zero], le_rfl, fun _ => rfl⟩
    (by
      intro S r t o hP hp h
      obtain ⟨q1, q2, q3⟩ := parts S r t hP hp
      refine ⟨?_, ?_⟩
      · rw [h.xnew]
        have e : (fun i => trialX S r t i - I.x i) =
            fun i => (fun i => (S.x i - I.x i) + r (.inl i)) i + t (.inl i) := by
          funext i; simp only [trialX]; ring
        rw [e]
        refine (stnrm_add_le hsq _ _).trans ?_
        have := stnrm_add_le hsq (fun i => S.x i - I.x i) (fun i : Fin n => r (.inl i))
        have q1' : k.nrm (fun i : Fin n => t (.inl i)) ≤ S.δ := q1
        have q2' : k.nrm (fun i => S.x i - I.x i) + k.nrm (fun i : Fin n => r (.inl i)) + S.δ ≤ 2 * I.δ := q3
        linarith
      · rcases h.δ with e | ⟨⟨i, hi⟩, e⟩
        · rw [e]; exact ⟨hP.2.1, hP.2.2.1⟩
        · rw [e]
          have := shrink S r t i hP hp hi
          have hn := stnrm_nonneg hsq (fun i : Fin n => r (.inl i) + keptRatio I S r t * t (.inl i))
          exact ⟨by linarith, by linarith [hP.2.2.1]⟩)
    (by
      intro S r t T hP hp h
      have hN := next_near hlu hthr hp hP.1 h
      refine ⟨hN, ?_⟩
      have hit : 1 ≤ T.iter + 1 ∧ (T.iter + 1 = 1 →
          ({ T with iter := T.iter + 1 } : STState K n m q) = stStart I) :=
        ⟨by omega, fun hc => by have := h.iter; have := hP.2.2.2.2.1; omega⟩
      suffices hh : 0 ≤ T.δ ∧ T.δ ≤ I.δ ∧ k.nrm (fun i => T.x i - I.x i) ≤ 2 * (I.δ - T.δ) from
        ⟨hh.1, hh.2.1, hh.2.2, hit⟩
      rcases h.move with ⟨e1, e2, _⟩ | ⟨⟨i, hi⟩, e1, e2, _⟩
      · rw [e1, e2]
        exact ⟨hP.2.1, hP.2.2.1, hP.2.2.2.1⟩
      · rw [e1, e2]
        have hs := shrink S r t i hP hp hi
        have hn := stnrm_nonneg hsq (fun i : Fin n => r (.inl i) + keptRatio I S r t * t (.inl i))
        refine ⟨by linarith, by linarith [hP.2.2.1], ?_⟩
        have e : (fun i => S.x i + r (.inl i) + keptRatio I S r t * t (.inl i) - I.x i) =
            fun i => (fun i => S.x i - I.x i) i +
              (fun i : Fin n => r (.inl i) + keptRatio I S r t * t (.inl i)) i := by
          funext i; ring
        rw [e]
        refine (stnrm_add_le hsq _ _).trans ?_
        linarith [hP.2.2.2.1])
  exact ⟨o, a, b⟩

/-! ### Exact kernels over the reals -/

/-- An orthonormal basis of the null space. -/
structure Spec.NullBasis (rows : List (VS n q → ℝ)) (d : ℕ) (Z : Matrix (VS n q) (Fin d) ℝ) : Prop where
  orth : Zᵀ * Z = 1
  null : ∀ a ∈ rows, a ᵥ* Z = 0

theorem cgTang_length {null : List (VS n q → ℝ) → (d : ℕ) × Matrix (VS n q) (Fin d) ℝ}
    (hnull : ∀ rows, NullBasis rows _ (null rows).2) (prec : ℝ) (m : ℕ) (rows : List (VS n q → ℝ))
    (M : Matrix (VS n q) (VS n q) ℝ) (g : VS n q → ℝ) (δ : ℝ) :
    (cgTang null prec m rows M g δ).1 ⬝ᵥ (cgTang null prec m rows M g δ).1 ≤ δ ^ 2 := by
  unfold cgTang
  dsimp only
  have hb := (cgLoop_spec (tol := prec) (maxIter := 20 * (n + q - (m + q))) _ 1 _ none [0] rfl (by omega)
    (truncCG_inv ((null rows).2ᵀ * (M * (null rows).2)) (- ((null rows).2ᵀ *ᵥ g)) δ) (by simp)).1
  rw [dotProduct_mulVec, vecMul_mulVec, (hnull rows).orth, vecMul_one]
  exact hb

theorem cgTang_tangent {null : List (VS n q → ℝ) → (d : ℕ) × Matrix (VS n q) (Fin d) ℝ}
    (hnull : ∀ rows, NullBasis rows _ (null rows).2) (prec : ℝ) (m : ℕ) (rows : List (VS n q → ℝ))
    (M : Matrix (VS n q) (VS n q) ℝ) (g : VS n q → ℝ) (δ : ℝ) (a : VS n q → ℝ) (ha : a ∈ rows) :
    a ⬝ᵥ (cgTang null prec m rows M g δ).1 = 0 := by
  unfold cgTang
  dsimp only
  rw [dotProduct_mulVec, (hnull rows).null a ha, zero_dotProduct]

/-- Such a basis exists. -/
theorem exists_nullBasis (rows : List (VS n q → ℝ)) :
    ∃ (d : ℕ) (Z : Matrix (VS n q) (Fin d) ℝ), NullBasis rows d Z := by
  let W : Submodule ℝ (EuclideanSpace ℝ (VS n q)) :=
    { carrier := {v | ∀ a ∈ rows, a ⬝ᵥ v.ofLp = 0}
      add_mem' := by
        intro u v hu hv a ha
        change a ⬝ᵥ (u.ofLp + v.ofLp) = 0
        rw [dotProduct_add, hu a ha, hv a ha, add_zero]
      zero_mem' := by
        intro a _
        change a ⬝ᵥ 0 = 0
        rw [dotProduct_zero]
      smul_mem' := by
        intro c v hv a ha
        change a ⬝ᵥ (c • v.ofLp) = 0
        rw [dotProduct_smul, hv a ha, smul_zero] }
  let b := stdOrthonormalBasis ℝ W
  refine ⟨_, Matrix.of fun v j => (b j : EuclideanSpace ℝ (VS n q)).ofLp v, ?_, ?_⟩
  · ext i j
    have h := (orthonormal_iff_ite.1 b.orthonormal) i j
    rw [Submodule.coe_inner, EuclideanSpace.inner_eq_star_dotProduct] at h
    rw [mul_apply, one_apply]
    simp only [transpose_apply, Matrix.of_apply]
    generalize (b i : EuclideanSpace ℝ (VS n q)).ofLp = u at h ⊢
    generalize (b j : EuclideanSpace ℝ (VS n q)).ofLp = w at h ⊢
    have hu : star u = u := funext fun v => star_trivial (u v)
    rw [hu, dotProduct_comm] at h
    rw [← h]
    rfl
  · intro a ha
    funext j
    exact (b j).2 a ha

/-- The null space kernel with exact arithmetic. -/
noncomputable def Ex.realNull (rows : List (VS n q → ℝ)) : (d : ℕ) × Matrix (VS n q) (Fin d) ℝ :=
  ⟨(exists_nullBasis rows).choose, (exists_nullBasis rows).choose_spec.choose⟩

theorem Ex.realNull_spec (rows : List (VS n q → ℝ)) : NullBasis rows _ (Ex.realNull rows).2 :=
  (exists_nullBasis rows).choose_spec.choose_spec

/-- Exact kernels, up to the convexification and the multipliers, which are arbitrary. -/
noncomputable def Ex.realST (prec : ℝ) (cvx : Matrix (VS n q) (VS n q) ℝ → Matrix (VS n q) (VS n q) ℝ)
    (mult : (Fin n → ℝ) → (Fin n → ℝ) × (Fin m ⊕ Fin q → ℝ)) : STKer ℝ n m q where
  bc := Ex.realBC
  cvx := cvx
  tang := cgTang Ex.realNull prec m
  mult := mult

/-- C44 with exact arithmetic. -/
theorem C44_real_partial (prec : ℝ) (cvx : Matrix (VS n q) (VS n q) ℝ → Matrix (VS n q) (VS n q) ℝ)
    (mult : (Fin n → ℝ) → (Fin n → ℝ) × (Fin m ⊕ Fin q → ℝ)) (I : STIn ℝ n m q) (hthr : I.thr = 1 / 10 ^ 8)
    (hlu : ∀ v, I.lb v ≤ I.ub v) (hgap : ∀ i, I.lb (.inl i) + 9 / 10 ^ 8 ≤ I.ub (.inl i))
    (hx : Near 0 (fun i => I.lb (.inl i)) (fun i => I.ub (.inl i)) I.x) :
    ∃ o, solveTR (Ex.realST prec cvx mult) I = some o ∧ o.passes ≤ 11 * n + q + 1 ∧
      Near (1 / 10 ^ 8) (fun i => I.lb (.inl i)) (fun i => I.ub (.inl i)) o.xnew :=
  C44_partial _ I Real.sqrt_zero (fun a ha => ⟨Real.sqrt_nonneg a, (Real.mul_self_sqrt ha).ge⟩) hthr hlu hgap hx

/-- C67 with exact arithmetic. -/
theorem C67_real_partial (prec : ℝ) (cvx : Matrix (VS n q) (VS n q) ℝ → Matrix (VS n q) (VS n q) ℝ)
    (mult : (Fin n → ℝ) → (Fin n → ℝ) × (Fin m ⊕ Fin q → ℝ)) (I : STIn ℝ n m q)
    (hδ : 0 ≤ I.δ) (hthr : 0 ≤ I.thr) (hlu : ∀ v, I.lb v ≤ I.ub v)
    (hx : Near I.thr (fun i => I.lb (.inl i)) (fun i => I.ub (.inl i)) I.x)
    (hr : ∀ r a p, restoration (Ex.realST prec cvx mult) I (stStart I) = some (r, a, p) →
      √((r ∘ Sum.inl) ⬝ᵥ (r ∘ Sum.inl)) ≤ I.δ) :
    ∃ o, solveTR (Ex.realST prec cvx mult) I = some o ∧
      √((o.xnew - I.x) ⬝ᵥ (o.xnew - I.x)) ≤ 2 * I.δ ∧ 0 ≤ o.δ ∧ o.δ ≤ I.δ := by
  refine C67_length_partial (Ex.realST prec cvx mult) I
    (fun a ha => ⟨Real.sqrt_nonneg a, Real.mul_self_sqrt ha⟩) ?_ hδ hthr hlu hx hr
  intro rows M g δ h
  refine Real.sqrt_le_iff.2 ⟨h, le_trans ?_ (cgTang_length Ex.realNull_spec prec m rows M g δ)⟩
  unfold dotProduct
  rw [Fintype.sum_sum_type]
  exact le_add_of_nonneg_right (Finset.sum_nonneg fun i _ => mul_self_nonneg _)

/-! ### Concrete cases -/

/-- Square root rounded up to twenty decimals. -/
def Ex.sqUp (a : ℚ) : ℚ :=
  if a ≤ 0 then 0 else ((Nat.sqrt (a * 10 ^ 40).floor.toNat + 1 : ℕ) : ℚ) / 10 ^ 20

theorem Ex.sqUp_zero : Ex.sqUp 0 = 0 := if_pos le_rfl

theorem Ex.sqUp_spec (a : ℚ) (_ : 0 ≤ a) : 0 ≤ Ex.sqUp a ∧ a ≤ Ex.sqUp a * Ex.sqUp a := by
  unfold Ex.sqUp
  by_cases h : a ≤ 0
  · rw [if_pos h]; exact ⟨le_rfl, by linarith⟩
  rw [if_neg h]
  refine ⟨by positivity, ?_⟩
  have h1 : (a * 10 ^ 40).floor.toNat < (Nat.sqrt (a * 10 ^ 40).floor.toNat + 1) *
      (Nat.sqrt (a * 10 ^ 40).floor.toNat + 1) := Nat.lt_succ_sqrt _
  generalize Nat.sqrt (a * 10 ^ 40).floor.toNat + 1 = s at h1
  have h2 : a * 10 ^ 40 < ((a * 10 ^ 40).floor : ℚ) + 1 := Int.lt_floor_add_one (a * 10 ^ 40)
  have h3 : (a * 10 ^ 40).floor + 1 ≤ ((s * s : ℕ) : ℤ) := by omega
  have h4 : (((a * 10 ^ 40).floor : ℚ) + 1) ≤ ((s * s : ℕ) : ℚ) := by exact_mod_cast h3
  rw [Nat.cast_mul] at h4
  rw [div_mul_div_comm, le_div_iff₀ (by positivity)]
  linarith

/-- Kernels for diagonal matrices, with square roots rounded up. -/
def Ex.diagUp : BCKer ℚ n where
  ms := fun fr h =>
    { sq := Ex.sqUp
      hb := fun _ => 10
      chol := fun M => if ∀ i, 0 < M i i then .ok (fun i j => if i = j then Ex.sqUp (M i i) else 0)
        else .fail
      solve := fun M b i => b i / M i i
      eig := fun H => (1, fun i => H i i, ⟨fr.min' h, fr.min'_mem h⟩) }
  sq := Ex.sqUp
  hb := fun _ => 10

/-- Kernels whose tangent step is the entry of a table for the number of rows, if it is tangent to all rows
and within the radius, and zero otherwise. -/
def Ex.tableST (tab : ℕ → VS n q → ℚ) : STKer ℚ n m q where
  bc := Ex.diagUp
  cvx := fun H => H
  tang := fun rows _ _ δ =>
    if (∀ a ∈ rows, a ⬝ᵥ tab rows.length = 0) ∧ tab rows.length ⬝ᵥ tab rows.length ≤ δ ^ 2 then
      (tab rows.length, false)
    else (0, false)
  mult := fun _ => (0, 0)

theorem Ex.tableST_tang (tab : ℕ → VS n q → ℚ) (rows : List (VS n q → ℚ))
    (M : Matrix (VS n q) (VS n q) ℚ) (g : VS n q → ℚ) (δ : ℚ) :
    (∀ a ∈ rows, a ⬝ᵥ ((Ex.tableST tab : STKer ℚ n m q).tang rows M g δ).1 = 0) ∧
    ((Ex.tableST tab : STKer ℚ n m q).tang rows M g δ).1 ⬝ᵥ
      ((Ex.tableST tab : STKer ℚ n m q).tang rows M g δ).1 ≤ δ ^ 2 := by
  unfold Ex.tableST
  dsimp only
  split_ifs with h
  · exact h
  · exact ⟨fun a _ => dotProduct_zero a, by rw [dotProduct_zero]; positivity⟩

theorem Ex.tableST_sq (tab : ℕ → VS n q → ℚ) : (Ex.tableST tab : STKer ℚ n m q).bc.sq 0 = 0 ∧
    ∀ a, 0 ≤ a → 0 ≤ (Ex.tableST tab : STKer ℚ n m q).bc.sq a ∧
      a ≤ (Ex.tableST tab : STKer ℚ n m q).bc.sq a * (Ex.tableST tab : STKer ℚ n m q).bc.sq a :=
  ⟨Ex.sqUp_zero, Ex.sqUp_spec⟩

/-- Two variables, one linear constraint, a variable whose bounds are `2e-8` apart. -/
def Ex.thinST : STIn ℚ 2 1 0 where
  x := ![1 / 10 ^ 8, 0]
  sl := 0
  lb := Sum.elim ![0, -1] ![]
  ub := Sum.elim ![2 / 10 ^ 8, 1] ![]
  δ := 1
  M := !![100, 0; 0, 1]
  g := ![- 8 / 10 ^ 6, 0]
  ce := 0
  ae := fun _ => ![0, 1]
  lm := (![8 / 10 ^ 6, 0], 0)
  precR := 1 / 10 ^ 6
  thr := 1 / 10 ^ 8

/-- Three variables, one linear constraint; the first tangent step violates a bound. -/
def Ex.jacST : STIn ℚ 3 1 0 where
  x := 0
  sl := 0
  lb := Sum.elim ![- 1 / 2, - 2, -2] ![]
  ub := Sum.elim ![2, 2, 2] ![]
  δ := 2
  M := 1
  g := ![1, -1, 1]
  ce := 0
  ae := fun _ => ![0, 1, 1]
  lm := (0, 0)
  precR := 1 / 10 ^ 6
  thr := 1 / 10 ^ 8

/-- Two constraints, bounds closer than `1e-5`, radius `1e-6`. -/
def Ex.shortST : STIn ℚ 3 2 0 where
  x := 0
  sl := 0
  lb := Sum.elim ![- 1, - 99 / 10 ^ 7, -1] ![]
  ub := Sum.elim ![5 / 10 ^ 7, 1, 1 / 10 ^ 6] ![]
  δ := 1 / 10 ^ 6
  M := 1
  g := ![0, 0, - 1 / 10 ^ 7]
  ce := Sum.elim ![-1, 0] ![]
  ae := Sum.elim ![![1, 0, 0], ![0, 1, 0]] ![]
  lm := (0, 0)
  precR := 1 / 10 ^ 6
  thr := 1 / 10 ^ 8

/-- Three variables, one inequality with its slack variable. -/
def Ex.slackST : STIn ℚ 3 0 1 where
  x := 0
  sl := 1
  lb := Sum.elim ![- 1 / 2, - 1 / 10, - 2 / 5] ![0]
  ub := Sum.elim ![10, 10, 10] ![10 ^ 20]
  δ := 10
  M := 0
  g := ![1, 1, 1]
  ce := fun _ => 1
  ae := fun _ => ![2, 2, 2]
  lm := (0, 0)
  precR := 1 / 10 ^ 6
  thr := 1 / 10 ^ 8

/-- Table for `jacST`. -/
def Ex.jacTab : ℕ → VS 3 0 → ℚ := fun l =>
  if l = 1 then Sum.elim ![-1, 1, -1] ![] else Sum.elim ![0, 1 / 10, - 3 / 10] ![]

/-- Table for `slackST`. -/
def Ex.slackTab : ℕ → VS 3 1 → ℚ := fun l =>
  if l = 1 then Sum.elim ![-1, -1, 0] ![-2]
  else if l = 2 then Sum.elim ![0, 1 / 10, - 4 / 5] ![- 7 / 10] else 0

/-- What is returned, without the functions. -/
def STOut.report (o : STOut ℚ n m q) : List ℚ × List ℚ × ℕ × Bool :=
  (List.ofFn o.xnew, List.ofFn o.slnew, o.passes, o.actR)

/-- The hypotheses of `C44_partial` hold and the loop makes two passes. -/
example : (∀ v, Ex.jacST.lb v ≤ Ex.jacST.ub v) ∧
    (∀ i, Ex.jacST.lb (.inl i) + 9 / 10 ^ 8 ≤ Ex.jacST.ub (.inl i)) ∧
    (∀ i, Ex.jacST.lb (.inl i) - 0 ≤ Ex.jacST.x i ∧ Ex.jacST.x i ≤ Ex.jacST.ub (.inl i) + 0) ∧
    (solveTR (Ex.tableST Ex.jacTab) Ex.jacST).map STOut.report =
      some ([- 1 / 2, 3 / 5, - 4 / 5], [], 2, false) := by
  refine ⟨?_, ?_, ?_, ?_⟩ <;> decide +kernel

/-- C44 fails if the bounds of a variable are less than `9e-8` apart: the test "the lower bound is active"
comes first and hides the violation of the upper bound. -/
theorem C44_false : ∃ (k : STKer ℚ 2 1 0) (I : STIn ℚ 2 1 0), k.bc.sq 0 = 0 ∧
    (∀ a, 0 ≤ a → 0 ≤ k.bc.sq a ∧ a ≤ k.bc.sq a * k.bc.sq a) ∧ I.thr = 1 / 10 ^ 8 ∧
    (∀ v, I.lb v < I.ub v) ∧ Near 0 (fun i => I.lb (.inl i)) (fun i => I.ub (.inl i)) I.x ∧
    ∃ o, solveTR k I = some o ∧
      ¬ Near (1 / 10 ^ 8) (fun i => I.lb (.inl i)) (fun i => I.ub (.inl i)) o.xnew := by
  refine ⟨Ex.tableST fun _ => Sum.elim ![8 / 10 ^ 8, 0] ![], Ex.thinST, (Ex.tableST_sq _).1,
    (Ex.tableST_sq _).2, rfl, by decide +kernel, ?_, ?_⟩
  · intro i; fin_cases i <;> decide +kernel
  · cases h : solveTR (Ex.tableST fun _ => Sum.elim ![8 / 10 ^ 8, 0] ![]) Ex.thinST with
    | none =>
      have : (solveTR (Ex.tableST fun _ => Sum.elim ![8 / 10 ^ 8, 0] ![]) Ex.thinST).isSome = true := by
        decide +kernel
      rw [h] at this; cases this
    | some o =>
      have h1 : ∀ o ∈ solveTR (Ex.tableST fun _ => Sum.elim ![8 / 10 ^ 8, 0] ![]) Ex.thinST,
          Ex.thinST.ub (.inl 0) + 1 / 10 ^ 8 < o.xnew 0 := by decide +kernel
      exact ⟨o, rfl, fun hc => absurd (hc 0).2 (not_le.2 (h1 o h))⟩

/-- C67 fails if the restoration step is longer than the radius, which happens when variables are moved to
bounds that are closer than `1e-5`: the trial point is nine radii away and the radius becomes negative. -/
theorem C67_false : ∃ o, solveTR (Ex.tableST fun _ => Sum.elim ![0, 0, 5 / 10 ^ 7] ![]) Ex.shortST = some o ∧
    (9 * Ex.shortST.δ) ^ 2 < (o.xnew - Ex.shortST.x) ⬝ᵥ (o.xnew - Ex.shortST.x) ∧ o.δ < 0 := by
  cases h : solveTR (Ex.tableST fun _ => Sum.elim ![0, 0, 5 / 10 ^ 7] ![]) Ex.shortST with
  | none =>
    have : (solveTR (Ex.tableST fun _ => Sum.elim ![0, 0, 5 / 10 ^ 7] ![]) Ex.shortST).isSome = true := by
      decide +kernel
    rw [h] at this; cases this
  | some o =>
    have h1 : ∀ o ∈ solveTR (Ex.tableST fun _ => Sum.elim ![0, 0, 5 / 10 ^ 7] ![]) Ex.shortST,
        (9 * Ex.shortST.δ) ^ 2 < (o.xnew - Ex.shortST.x) ⬝ᵥ (o.xnew - Ex.shortST.x) ∧ o.δ < 0 := by
      decide +kernel
    exact ⟨o, rfl, h1 o h⟩

#print axioms C44_terminates
#print axioms C44_near
#print axioms C44_partial
#print axioms C44_unconstrained
#print axioms C44_real_partial
#print axioms C44_false
#print axioms C67_length_partial
#print axioms C67_real_partial
#print axioms C67_false

end Sqpdfo
