import Mathlib.Algebra.BigOperators.Fin
import Mathlib.Tactic.Ring
import Verif.Props.C44_C67_SolveTR

/-! # C85, C86: the restoration step and zero steps in the composite step -/

set_option linter.unusedSectionVars false

namespace Sqpdfo
open Matrix Spec
variable {K : Type} [Field K] [LinearOrder K] [IsStrictOrderedRing K] {n m q : ℕ}

/-- Sum of squares of the linearised constraints after the step `r` in variables and slacks. -/
def Spec.viol (I : STIn K n m q) (r : VS n q → K) : K :=
  (∑ i, (I.ce (.inl i) + ∑ v, I.ae (.inl i) v * r (.inl v)) ^ 2) +
    ∑ j, (I.ce (.inr j) - I.sl j ^ 2 + (∑ v, I.ae (.inr j) v * r (.inl v)) -
      2 * I.sl j * r (.inr j)) ^ 2

/-! ### Sums over rows -/

theorem rowsGrad_cons (w : Row K n q) (rows : List (Row K n q)) :
    rowsGrad (w :: rows) = w.c • w.a + rowsGrad rows := by
  funext v
  simp [rowsGrad]

theorem rowsHess_cons (w : Row K n q) (rows : List (Row K n q)) :
    rowsHess (w :: rows) = vecMulVec w.a w.a + rowsHess rows := by
  funext v u
  simp [rowsHess, vecMulVec_apply]

/-- The quadratic function of the restoration problem is half the sum of squares, up to its value at 0. -/
theorem rows_quad (rows : List (Row K n q)) (d : VS n q → K) :
    2 * quadVal (rowsGrad rows) (rowsHess rows) d =
      (rows.map fun w => (w.c + w.a ⬝ᵥ d) ^ 2).sum - (rows.map fun w => w.c ^ 2).sum := by
  induction rows with
  | nil =>
    have h1 : rowsGrad ([] : List (Row K n q)) = 0 := rfl
    have h2 : rowsHess ([] : List (Row K n q)) = 0 := rfl
    simp [quadVal, h1, h2]
  | cons w rows ih =>
    have h : d ⬝ᵥ (vecMulVec w.a w.a) *ᵥ d = (w.a ⬝ᵥ d) ^ 2 := by
      have h0 : (vecMulVec w.a w.a) *ᵥ d = (w.a ⬝ᵥ d) • w.a := by
        funext v
        simp only [mulVec, dotProduct, vecMulVec_apply, Pi.smul_apply, smul_eq_mul, Finset.sum_mul]
        exact Finset.sum_congr rfl fun i _ => by ring
      rw [h0, dotProduct_smul, smul_eq_mul, dotProduct_comm d]
      ring
    unfold quadVal at ih ⊢
    rw [rowsGrad_cons, rowsHess_cons, add_dotProduct, smul_dotProduct, add_mulVec, dotProduct_add, h]
    simp only [List.map_cons, List.sum_cons, smul_eq_mul]
    linear_combination ih

theorem rowsHess_symm (rows : List (Row K n q)) (u v : VS n q) : rowsHess rows u v = rowsHess rows v u := by
  unfold rowsHess
  congr 2
  funext w
  exact mul_comm _ _

theorem rowsHess_psd (rows : List (Row K n q)) (d : VS n q → K) : 0 ≤ d ⬝ᵥ rowsHess rows *ᵥ d := by
  induction rows with
  | nil =>
    have h2 : rowsHess ([] : List (Row K n q)) = 0 := rfl
    simp [h2]
  | cons w rows ih =>
    rw [rowsHess_cons, add_mulVec, dotProduct_add]
    refine add_nonneg ?_ ih
    have h0 : (vecMulVec w.a w.a) *ᵥ d = (w.a ⬝ᵥ d) • w.a := by
      funext v
      simp only [mulVec, dotProduct, vecMulVec_apply, Pi.smul_apply, smul_eq_mul, Finset.sum_mul]
      exact Finset.sum_congr rfl fun i _ => by ring
    rw [h0, dotProduct_smul, smul_eq_mul, dotProduct_comm d]
    exact mul_self_nonneg _

theorem eqRow_dot (I : STIn K n m q) (r : VS n q → K) (i : Fin m) :
    (eqRow I (.inl i)).c + (eqRow I (.inl i)).a ⬝ᵥ r =
      I.ce (.inl i) + ∑ v, I.ae (.inl i) v * r (.inl v) := by
  simp [eqRow, dotProduct, Fintype.sum_sum_type]

theorem eqRow_dot' (I : STIn K n m q) (r : VS n q → K) (j : Fin q) :
    (eqRow I (.inr j)).c + (eqRow I (.inr j)).a ⬝ᵥ r =
      I.ce (.inr j) - I.sl j ^ 2 + (∑ v, I.ae (.inr j) v * r (.inl v)) - 2 * I.sl j * r (.inr j) := by
  have h : ∑ x : Fin q, (if (Sum.inr j : Fin m ⊕ Fin q) = .inr x then -2 * I.sl x else 0) * r (.inr x) =
      - 2 * I.sl j * r (.inr j) := by
    rw [Finset.sum_eq_single j]
    · rw [if_pos rfl]
    · intro b _ hb
      rw [if_neg (fun h => hb (Sum.inr_injective h).symm), zero_mul]
    · intro h; exact absurd (Finset.mem_univ j) h
  have h' : (eqRow I (.inr j)).a ⬝ᵥ r = (∑ v, I.ae (.inr j) v * r (.inl v)) - 2 * I.sl j * r (.inr j) := by
    unfold dotProduct
    rw [Fintype.sum_sum_type]
    have : ∀ x : Fin q, (eqRow I (.inr j)).a (.inr x) =
        if (Sum.inr j : Fin m ⊕ Fin q) = .inr x then -2 * I.sl x else 0 := fun x => rfl
    simp only [this, h]
    have : ∀ x : Fin n, (eqRow I (.inr j)).a (.inl x) = I.ae (.inr j) x := fun x => rfl
    simp only [this]
    ring
  rw [h']
  have : (eqRow I (.inr j)).c = I.ce (.inr j) - I.sl j ^ 2 := rfl
  rw [this]
  ring

theorem eqRows_viol (I : STIn K n m q) (r : VS n q → K) :
    ((eqRows I).map fun w => (w.c + w.a ⬝ᵥ r) ^ 2).sum = viol I r := by
  unfold eqRows viol
  rw [List.map_append, List.sum_append, List.map_map, List.map_map, Fin.sum_univ_def, Fin.sum_univ_def]
  congr 2
  · refine List.map_congr_left fun i _ => ?_
    simp only [Function.comp_apply]
    rw [eqRow_dot]
  · refine List.map_congr_left fun i _ => ?_
    simp only [Function.comp_apply]
    rw [eqRow_dot']

theorem bndRow_dot (i : Fin n) (r : VS n q → K) :
    (bndRow i : Row K n q).c + (bndRow i : Row K n q).a ⬝ᵥ r = r (.inl i) := by
  simp [bndRow, dotProduct]

/-- How often a variable is held at the start. -/
def heldAt (I : STIn K n m q) (i : Fin n) : ℕ :=
  (if I.x i - gradLag I i ≤ I.lb (.inl i) ∧ |I.x i - I.lb (.inl i)| < 1 / 10 ^ 5 then 1 else 0) +
    if I.x i - gradLag I i ≥ I.ub (.inl i) ∧ |I.x i - I.ub (.inl i)| < 1 / 10 ^ 5 then 1 else 0

theorem activeRows_sum (I : STIn K n m q) (r : VS n q → K) :
    ((activeRows I).map fun w => (w.c + w.a ⬝ᵥ r) ^ 2).sum = ∑ i, (heldAt I i : K) * r (.inl i) ^ 2 := by
  unfold activeRows
  rw [List.map_flatMap, Fin.sum_univ_def]
  generalize List.finRange n = l
  induction l with
  | nil => rfl
  | cons i l ih =>
    rw [List.flatMap_cons, List.sum_append, ih, List.map_cons, List.sum_cons]
    congr 1
    rw [List.map_append, List.sum_append]
    unfold heldAt
    split_ifs <;> simp [bndRow_dot] <;> ring

theorem stStart_rows (I : STIn K n m q) (r : VS n q → K) :
    ((stStart I).rows.map fun w => (w.c + w.a ⬝ᵥ r) ^ 2).sum =
      viol I r + ∑ i, (heldAt I i : K) * r (.inl i) ^ 2 := by
  unfold stStart
  rw [List.map_append, List.sum_append, eqRows_viol, activeRows_sum]

/-! ### The value `rpred` over the passes -/

theorem zeroStep_rpred (k : STKer K n m q) (y : Fin n → K) (act : List (Fin n)) (S : STState K n m q) :
    (zeroStep k y act S).1.rpred = S.rpred := by
  unfold zeroStep
  dsimp only
  split_ifs <;> rfl

theorem stPass_rpred {k : STKer K n m q} {I : STIn K n m q} {S : STState K n m q} {r : VS n q → K} {a : Bool}
    {p : K} (h : restoration k I S = some (r, a, p)) :
    (∀ o, stPass k I S = some (.inl o) → o.rpred = p) ∧
      ∀ T, stPass k I S = some (.inr T) → T.rpred = p ∧ T.iter = S.iter := by
  obtain ⟨r', t', hp, hs⟩ := stPass_spec k I S
  have hit : ∀ T, stPass k I S = some (.inr T) → T.iter = S.iter := by
    intro T hT
    rw [hT] at hs
    exact hs.iter
  refine ⟨fun o ho => ?_, fun T hT => ⟨?_, hit T hT⟩⟩
  · unfold stPass at ho
    rw [h] at ho
    simp only [Option.some.injEq] at ho
    unfold stEnd at ho
    dsimp only at ho
    split_ifs at ho <;> cases ho
    · rfl
    · exact zeroStep_rpred _ _ _ _
    · exact zeroStep_rpred _ _ _ _
    · rfl
  · unfold stPass at hT
    rw [h] at hT
    simp only [Option.some.injEq] at hT
    unfold stEnd at hT
    dsimp only at hT
    split_ifs at hT <;> cases hT
    · exact zeroStep_rpred _ _ _ _
    · exact zeroStep_rpred _ _ _ _
    · rfl

theorem stLoop_rpred (k : STKer K n m q) (I : STIn K n m q) : ∀ (f : ℕ) (S : STState K n m q) (o : STOut K n m q),
    1 < S.iter → stLoop k I f S = some o → o.rpred = S.rpred := by
  intro f
  induction f with
  | zero => intro S o _ h; cases h
  | succ f ih =>
    intro S o h1 h
    have hr : restoration k I S = some (0, false, S.rpred) := by
      unfold restoration
      rw [if_neg (fun h => by omega)]
    obtain ⟨p1, p2⟩ := stPass_rpred hr
    rw [stLoop] at h
    cases hp : stPass k I S with
    | none => rw [hp] at h; cases h
    | some x =>
      rw [hp] at h
      cases x with
      | inl o' =>
        simp only [Option.some.injEq] at h
        rw [← h]; exact p1 o' hp
      | inr T =>
        obtain ⟨q1, q2⟩ := p2 T hp
        have := ih { T with iter := T.iter + 1 } o (by show 1 < T.iter + 1; omega) h
        rw [this]; exact q1

/-- `rpred` is that of the first pass. -/
theorem solveTR_rpred {k : STKer K n m q} {I : STIn K n m q} {o : STOut K n m q} (h : solveTR k I = some o) :
    ∃ r a, restoration k I (stStart I) = some (r, a, o.rpred) := by
  obtain ⟨r, a, p, hr, -⟩ := restoration_some k I (stStart I)
  obtain ⟨p1, p2⟩ := stPass_rpred hr
  refine ⟨r, a, ?_⟩
  rw [hr]
  unfold solveTR at h
  rw [stLoop] at h
  cases hp : stPass k I (stStart I) with
  | none => rw [hp] at h; cases h
  | some x =>
    rw [hp] at h
    cases x with
    | inl o' =>
      simp only [Option.some.injEq] at h
      rw [← h, p1 o' hp]
    | inr T =>
      obtain ⟨q1, q2⟩ := p2 T hp
      have := stLoop_rpred k I _ _ o (by
        show 1 < T.iter + 1
        rw [q2]
        show 1 < 1 + 1
        omega) h
      rw [this]
      show _ = some (r, a, T.rpred)
      rw [q1]

theorem submatrix_quad (g : VS n q → K) (H : Matrix (VS n q) (VS n q) K) (d : VS n q → K) :
    quadVal (g ∘ finSumFinEquiv.symm) (H.submatrix finSumFinEquiv.symm finSumFinEquiv.symm)
      (d ∘ finSumFinEquiv.symm) = quadVal g H d := by
  unfold quadVal
  rw [submatrix_mulVec_equiv]
  have e1 : ∀ u v : VS n q → K, (u ∘ finSumFinEquiv.symm) ⬝ᵥ (v ∘ finSumFinEquiv.symm) = u ⬝ᵥ v := by
    intro u v
    unfold dotProduct
    exact Equiv.sum_comp finSumFinEquiv.symm (fun i => u i * v i)
  rw [e1]
  have : (d ∘ finSumFinEquiv.symm) ∘ (finSumFinEquiv.symm : Fin (n + q) ≃ VS n q).symm = d := by
    funext v; simp
  rw [this, e1]

theorem viol_nonneg (I : STIn K n m q) (r : VS n q → K) : 0 ≤ viol I r :=
  add_nonneg (Finset.sum_nonneg fun _ _ => sq_nonneg _) (Finset.sum_nonneg fun _ _ => sq_nonneg _)

/-- **C85.** The predicted reduction `rpred` of the constraint violation.  There is a restoration step `r` such that
`rpred` is the norm of the constraints minus the norm of the linearised constraints after `r`, to which the
components of `r` in variables held at a bound are added; so `rpred` is at most the true reduction of the norm of
the linearised constraints.  `r` is zero, or the result of the
bound-constrained trust-region solver for half the sum of squares, the bounds on variables and slacks and the given
radius.  `rpred` is not negative if and only if the solver did not increase this function. -/
theorem C85_rpred_partial (k : STKer K n m q) (I : STIn K n m q) (o : STOut K n m q) (h : solveTR k I = some o)
    (hsq : ∀ a, 0 ≤ a → 0 ≤ k.bc.sq a ∧ k.bc.sq a * k.bc.sq a = a)
    (hcvx : ∀ M : Matrix (VS n q) (VS n q) K, (∀ u v, M u v = M v u) → (∀ d, 0 ≤ d ⬝ᵥ M *ᵥ d) →
      k.cvx M = M) :
    ∃ (r : VS n q → K) (w : Fin n → ℕ),
      (∀ i, w i ≠ 0 → |I.x i - I.lb (.inl i)| < 1 / 10 ^ 5 ∨ |I.x i - I.ub (.inl i)| < 1 / 10 ^ 5) ∧
      o.rpred = k.bc.sq (viol I 0) - k.bc.sq (viol I r + ∑ i, (w i : K) * r (.inl i) ^ 2) ∧
      o.rpred ≤ k.bc.sq (viol I 0) - k.bc.sq (viol I r) ∧
      (0 ≤ o.rpred ↔ viol I r + ∑ i, (w i : K) * r (.inl i) ^ 2 ≤ viol I 0) ∧
      (r = 0 ∨ ∃ P out, trmsBc k.bc P = some out ∧ r = out.s ∘ finSumFinEquiv ∧
        (∀ v, P.lb (finSumFinEquiv v) = I.lb v - Sum.elim I.x I.sl v ∧
          P.ub (finSumFinEquiv v) = I.ub v - Sum.elim I.x I.sl v) ∧ P.Δ0 = I.δ ∧
        ∀ d, 2 * quadVal P.g0 P.H (d ∘ finSumFinEquiv.symm) =
          viol I d + ∑ i, (w i : K) * d (.inl i) ^ 2 - viol I 0) := by
  obtain ⟨r, a, hr⟩ := solveTR_rpred h
  have mono : ∀ a b : K, 0 ≤ a → 0 ≤ b → (k.bc.sq a ≤ k.bc.sq b ↔ a ≤ b) := by
    intro a b ha hb
    obtain ⟨a0, a1⟩ := hsq a ha
    obtain ⟨b0, b1⟩ := hsq b hb
    constructor
    · intro hab
      rw [← a1, ← b1]
      exact mul_self_le_mul_self a0 hab
    · intro hab
      rw [← a1, ← b1] at hab
      exact (mul_self_le_mul_self_iff a0 b0).2 hab
  have hw : 0 ≤ ∑ i, (heldAt I i : K) * r (.inl i) ^ 2 :=
    Finset.sum_nonneg fun i _ => mul_nonneg (Nat.cast_nonneg _) (sq_nonneg _)
  have key : o.rpred = k.bc.sq (viol I 0) - k.bc.sq (viol I r + ∑ i, (heldAt I i : K) * r (.inl i) ^ 2) := by
    unfold restoration at hr
    split_ifs at hr with hc
    · cases ho : trmsBc k.bc (restIn k I (stStart I)) with
      | none => rw [ho] at hr; cases hr
      | some out =>
        rw [ho] at hr
        simp only [Option.some.injEq, Prod.mk.injEq] at hr
        obtain ⟨hr1, -, hr2⟩ := hr
        rw [← hr2, ← hr1]
        unfold rowsNorm
        rw [stStart_rows, stStart_rows]
        have : (stStart I).rpred = 0 := rfl
        rw [this, zero_add]
        simp
    · simp only [Option.some.injEq, Prod.mk.injEq] at hr
      obtain ⟨hr1, -, hr2⟩ := hr
      have : (stStart I).rpred = 0 := rfl
      rw [← hr2, ← hr1, this]
      simp
  refine ⟨r, heldAt I, fun i hi => ?_, key, ?_, ?_, ?_⟩
  · unfold heldAt at hi
    by_contra hc
    rw [not_or] at hc
    rw [if_neg (fun h => hc.1 h.2), if_neg (fun h => hc.2 h.2)] at hi
    exact hi rfl
  · rw [key]
    have := (mono (viol I r) _ (viol_nonneg I r) (add_nonneg (viol_nonneg I r) hw)).2 (le_add_of_nonneg_right hw)
    linarith
  · rw [key, sub_nonneg]
    exact mono _ _ (add_nonneg (viol_nonneg I r) hw) (viol_nonneg I 0)
  · unfold restoration at hr
    split_ifs at hr with hc
    · right
      cases ho : trmsBc k.bc (restIn k I (stStart I)) with
      | none => rw [ho] at hr; cases hr
      | some out =>
        rw [ho] at hr
        simp only [Option.some.injEq, Prod.mk.injEq] at hr
        refine ⟨_, out, ho, hr.1.symm, fun v => ?_, rfl, fun d => ?_⟩
        · simp [restIn, stStart]
        · unfold restIn
          dsimp only
          rw [hcvx _ (rowsHess_symm _) (rowsHess_psd _), submatrix_quad, rows_quad, stStart_rows]
          have := stStart_rows I 0
          simp only [dotProduct_zero, add_zero] at this
          rw [this]
          simp
    · left
      simp only [Option.some.injEq, Prod.mk.injEq] at hr
      exact hr.1.symm

/-! ### C86 -/

/-- `y` is at a bound in component `i` (to `1e-7`). -/
def Spec.AtBound (I : STIn K n m q) (y : Fin n → K) (i : Fin n) : Prop :=
  |y i - I.lb (.inl i)| < 1 / 10 ^ 7 ∨ |y i - I.ub (.inl i)| < 1 / 10 ^ 7

theorem scan_act (I : STIn K n m q) (y : Fin n → K)
    (hv : ∀ i, I.lb (.inl i) - I.thr ≤ y i ∧ y i ≤ I.ub (.inl i) + I.thr) :
    ∀ l act : List (Fin n), (scan I y l act).2 = none ∧
      ∀ i, i ∈ (scan I y l act).1 ↔ i ∈ act ∨ i ∈ l ∧ AtBound I y i := by
  intro l
  induction l with
  | nil => intro act; exact ⟨rfl, fun i => by simp [scan]⟩
  | cons a l ih =>
    intro act
    have h1 : ¬ y a - I.lb (.inl a) < - I.thr := by have := (hv a).1; linarith
    have h2 : ¬ y a - I.ub (.inl a) > I.thr := by have := (hv a).2; linarith
    rw [scan, if_neg h1]
    have add : AtBound I y a → ∀ i, i ∈ (scan I y l (act ++ [a])).1 ↔
        i ∈ act ∨ i ∈ a :: l ∧ AtBound I y i := by
      intro ha i
      rw [(ih _).2 i]
      simp only [List.mem_append, List.mem_cons, List.not_mem_nil, or_false]
      constructor
      · rintro ((h | rfl) | h)
        · exact Or.inl h
        · exact Or.inr ⟨Or.inl rfl, ha⟩
        · exact Or.inr ⟨Or.inr h.1, h.2⟩
      · rintro (h | ⟨rfl | h, h'⟩)
        · exact Or.inl (Or.inl h)
        · exact Or.inl (Or.inr rfl)
        · exact Or.inr ⟨h, h'⟩
    by_cases h3 : |y a - I.lb (.inl a)| < 1 / 10 ^ 7
    · rw [if_pos h3]
      exact ⟨(ih _).1, add (Or.inl h3)⟩
    rw [if_neg h3, if_neg h2]
    by_cases h4 : |y a - I.ub (.inl a)| < 1 / 10 ^ 7
    · rw [if_pos h4]
      exact ⟨(ih _).1, add (Or.inr h4)⟩
    rw [if_neg h4]
    refine ⟨(ih _).1, fun i => ?_⟩
    rw [(ih _).2 i]
    simp only [List.mem_cons]
    constructor
    · rintro (h | h)
      · exact Or.inl h
      · exact Or.inr ⟨Or.inr h.1, h.2⟩
    · rintro (h | ⟨rfl | h, h'⟩)
      · exact Or.inl h
      · rcases h' with h' | h'
        · exact absurd h' h3
        · exact absurd h' h4
      · exact Or.inr ⟨h, h'⟩

theorem scan_nodup (I : STIn K n m q) (y : Fin n → K) : ∀ l act : List (Fin n), (act ++ l).Nodup →
    (scan I y l act).1.Nodup := by
  intro l
  induction l with
  | nil => intro act h; simpa [scan] using h
  | cons a l ih =>
    intro act h
    have h1 : (act ++ [a] ++ l).Nodup := by simpa using h
    have h2 : act.Nodup := (List.nodup_append.1 h).1
    have h3 : (act ++ l).Nodup := by
      refine List.Nodup.sublist ?_ h
      exact List.Sublist.append (List.Sublist.refl _) (List.sublist_cons_self _ _)
    rw [scan]
    split_ifs
    · exact h2
    · exact ih _ h1
    · exact h2
    · exact ih _ h1
    · exact ih _ h3

/-- `minPos` finds the first position of a smallest value. -/
theorem minPos_spec (f : Fin n → K) : ∀ l : List (Fin n), l ≠ [] →
    (∃ i ∈ l, f i = (minPos f l).2) ∧ ∀ i ∈ l, (minPos f l).2 ≤ f i := by
  intro l
  induction l with
  | nil => intro h; exact absurd rfl h
  | cons a l ih =>
    intro _
    rw [minPos]
    by_cases hl : l = []
    · subst hl
      simp
    obtain ⟨⟨j, h1, h1'⟩, h2⟩ := ih hl
    by_cases hle : f a ≤ (minPos f l).2
    · rw [if_pos (Or.inr hle)]
      refine ⟨⟨a, List.mem_cons_self, rfl⟩, fun i hi => ?_⟩
      rcases List.mem_cons.1 hi with rfl | hi
      · exact le_rfl
      · exact hle.trans (h2 i hi)
    · rw [if_neg (by rintro (h | h); exacts [hl h, hle h])]
      refine ⟨⟨j, List.mem_cons_of_mem _ h1, h1'⟩, fun i hi => ?_⟩
      rcases List.mem_cons.1 hi with rfl | hi
      · exact (not_le.1 hle).le
      · exact h2 i hi

theorem sort_eq_iff {l l' : List (Fin n)} :
    l.insertionSort (· ≤ ·) = l'.insertionSort (· ≤ ·) ↔ l.Perm l' := by
  constructor
  · intro h
    exact (List.perm_insertionSort _ l).symm.trans (h ▸ List.perm_insertionSort _ l')
  · intro h
    refine List.Perm.eq_of_pairwise (le := (· ≤ ·)) ?_ ?_ ?_ ?_
    · intro a b _ _ h1 h2; exact le_antisymm h1 h2
    · exact List.pairwise_insertionSort _ _
    · exact List.pairwise_insertionSort _ _
    · exact ((List.perm_insertionSort _ l).trans h).trans (List.perm_insertionSort _ l').symm

/-- **C86.** A pass with a zero step that is not stopped by the limits, at a point within the bounds.  The solver returns
if and only if no variable is fixed, or the multipliers of the fixed variables are not negative, or the fixed variables are
exactly those at a bound.  (In the last case one of them is "released", but without effect.)  Otherwise it goes on with
the variables at a bound fixed. -/
theorem C86_zero_step_partial (k : STKer K n m q) (I : STIn K n m q) (S : STState K n m q) (r t : VS n q → K)
    (hp : PartsOf k I S r t) (hz : SmallStep k r t) (hit : S.iter < 10 * n) (hδ : 1 / 10 ^ 8 ≤ S.δ)
    (hv : ∀ i, I.lb (.inl i) - I.thr ≤ trialX S r t i ∧ trialX S r t i ≤ I.ub (.inl i) + I.thr) :
    ((∃ o, stPass k I S = some (.inl o)) ↔ S.fix = [] ∨ (∀ i ∈ S.fix, 0 ≤ (k.mult (trialX S r t)).1 i) ∨
        S.fix.Nodup ∧ ∀ i, i ∈ S.fix ↔ AtBound I (trialX S r t) i) ∧
      ∀ T, stPass k I S = some (.inr T) → T.fix.Nodup ∧ ∀ i, i ∈ T.fix ↔ AtBound I (trialX S r t) i := by
  obtain ⟨⟨a, p, hr⟩, rfl⟩ := hp
  obtain ⟨sc1, sc2⟩ := scan_act I (trialX S r (tangent k I S r).1) hv (List.finRange n) []
  have sc3 := scan_nodup I (trialX S r (tangent k I S r).1) (List.finRange n) []
    (by simpa using List.nodup_finRange n)
  simp only [List.not_mem_nil, List.mem_finRange, true_and, false_or] at sc2
  unfold stPass
  rw [hr]
  dsimp only
  generalize (tangent k I S r).2 = actT
  generalize (tangent k I S r).1 = t at *
  rw [sc1]
  generalize (scan I (trialX S r t) (List.finRange n) []).1 = act at *
  have hfix : (afterScan I S r t p none).fix = S.fix := by simp [afterScan]
  have hit' : ¬ ((afterScan I S r t p none).iter ≥ 10 * n ∨ (afterScan I S r t p none).δ < 1 / 10 ^ 8) := by
    rintro (h | h)
    · exact absurd h (not_le.2 hit)
    · exact absurd h (not_lt.2 hδ)
  unfold stEnd
  dsimp only
  rw [if_pos (show (k.nrm fun i => r (Sum.inl i) + t (Sum.inl i)) ≤ 1 / 10 ^ 16 from hz), if_neg hit']
  simp only [Option.isSome_none, Bool.false_eq_true, if_false]
  have perm : act.Perm S.fix ↔ S.fix.Nodup ∧ ∀ i, i ∈ S.fix ↔ AtBound I (trialX S r t) i := by
    constructor
    · intro h
      exact ⟨h.nodup_iff.1 sc3, fun i => by rw [← h.mem_iff]; exact sc2 i⟩
    · rintro ⟨h1, h2⟩
      rw [List.perm_ext_iff_of_nodup sc3 h1]
      intro i
      rw [sc2, h2]
  unfold zeroStep
  dsimp only
  rw [hfix]
  by_cases h0 : S.fix = []
  · rw [if_pos h0]
    simp [h0]
  rw [if_neg h0]
  obtain ⟨⟨j, m1, m1'⟩, m2⟩ := minPos_spec (k.mult (trialX S r t)).1 S.fix h0
  by_cases hneg : (minPos (k.mult (trialX S r t)).1 S.fix).2 < 0
  · rw [if_pos hneg]
    have hall : ¬ ∀ i ∈ S.fix, 0 ≤ (k.mult (trialX S r t)).1 i := by
      intro h
      have := h j m1
      rw [m1'] at this
      exact absurd hneg (not_lt.2 this)
    by_cases hp : act.length = S.fix.length ∧ act.insertionSort (· ≤ ·) = S.fix.insertionSort (· ≤ ·)
    · rw [if_pos hp]
      have := perm.1 (sort_eq_iff.1 hp.2)
      simp [this]
    · rw [if_neg hp]
      have hnp : ¬ (S.fix.Nodup ∧ ∀ i, i ∈ S.fix ↔ AtBound I (trialX S r t) i) := by
        intro h
        have := perm.2 h
        exact hp ⟨this.length_eq, sort_eq_iff.2 this⟩
      simp only [Bool.false_eq_true, if_false, Option.some.injEq, reduceCtorEq, exists_false, h0,
        false_or, false_iff, not_or]
      refine ⟨⟨hall, hnp⟩, fun T hT => ?_⟩
      cases hT
      exact ⟨sc3, sc2⟩
  · rw [if_neg hneg]
    have hall : ∀ i ∈ S.fix, 0 ≤ (k.mult (trialX S r t)).1 i := fun i hi =>
      (not_lt.1 hneg).trans (m2 i hi)
    simp only [if_true, Option.some.injEq, Sum.inl.injEq, exists_eq', reduceCtorEq, false_implies,
      implies_true, and_true, true_iff]
    exact Or.inr (Or.inl hall)

/-! ### Witnesses -/

/-- Two equations `1000 x1 = 0` and `x2 = 1` with bounds close to the iterate zero. -/
def Ex.riseST : STIn ℚ 2 2 0 where
  x := 0
  sl := 0
  lb := Sum.elim ![- 1, - 1] ![]
  ub := Sum.elim ![9 / 10 ^ 6, 2 / 10 ^ 10] ![]
  δ := 1
  M := 1
  g := 0
  ce := Sum.elim ![0, -1] ![]
  ae := Sum.elim ![![1000, 0], ![0, 1]] ![]
  lm := (0, 0)
  precR := 1 / 10 ^ 6
  thr := 1 / 10 ^ 8

/-- C85 as a whole is false: the restoration step moves the first variable to its bound because this is within
`1e-5`; the norm of the linearised constraints grows and `rpred` is negative. -/
theorem C85_false : ∃ o, solveTR (Ex.tableST fun _ => 0) Ex.riseST = some o ∧
    o.rpred < - 1 / 10 ^ 5 ∧
    viol Ex.riseST 0 + 1 / 10 ^ 5 < viol Ex.riseST (Sum.elim (o.xnew - Ex.riseST.x) 0) := by
  cases h : solveTR (Ex.tableST fun _ => 0) Ex.riseST with
  | none =>
    have : (solveTR (Ex.tableST fun _ => 0) Ex.riseST).isSome = true := by decide +kernel
    rw [h] at this; cases this
  | some o =>
    have h1 : ∀ o ∈ solveTR (Ex.tableST fun _ => 0) Ex.riseST, o.rpred < - 1 / 10 ^ 5 ∧
        viol Ex.riseST 0 + 1 / 10 ^ 5 < viol Ex.riseST (Sum.elim (o.xnew - Ex.riseST.x) 0) := by
      decide +kernel
    exact ⟨o, rfl, h1 o h⟩

/-- Three variables, the equation `x3 = 0`, a quadratic model in the first two. -/
def Ex.relST : STIn ℚ 3 1 0 where
  x := 0
  sl := 0
  lb := Sum.elim ![- 10, - 91 / 80, -10] ![]
  ub := Sum.elim ![1, 10, 10] ![]
  δ := 10
  M := !![1, 9 / 10, 0; 9 / 10, 1, 0; 0, 0, 0]
  g := ![1 / 10, 1, 0]
  ce := 0
  ae := fun _ => ![0, 0, 1]
  lm := (0, 0)
  precR := 1 / 10 ^ 6
  thr := 1 / 10 ^ 8

/-- Minimisers of the model in the two tangent spaces, and the multipliers at the last point. -/
def Ex.relKer : STKer ℚ 3 1 0 :=
  { (Ex.tableST (fun l => if l = 1 then Sum.elim ![80 / 19, - 91 / 19, 0] ![]
      else Sum.elim ![0, - 61 / 80, - 61 / 80 * (19 / 80)] ![]) : STKer ℚ 3 1 0) with
    mult := fun _ => (![- 61 / 800, - 61 / 80, 0], 0) }

/-- C86 as a whole is false.  The third pass finds a zero step with the first two variables fixed; the multiplier of the
first one has the wrong sign.  One bound is released, but no further pass is made: the step returned is
worse than one within the bounds that differs only in the first variable. -/
theorem C86_false : ∃ o, solveTR Ex.relKer Ex.relST = some o ∧ o.passes = 3 ∧ 1 ≤ o.δ ∧
    o.lm.1 0 < 0 ∧ o.xnew 0 = Ex.relST.ub (.inl 0) ∧ o.xnew 1 = Ex.relST.lb (.inl 1) ∧
    quadVal Ex.relST.g Ex.relST.M (o.xnew - ![1 / 100, 0, 0]) < quadVal Ex.relST.g Ex.relST.M o.xnew := by
  cases h : solveTR Ex.relKer Ex.relST with
  | none =>
    have : (solveTR Ex.relKer Ex.relST).isSome = true := by decide +kernel
    rw [h] at this; cases this
  | some o =>
    have h1 : ∀ o ∈ solveTR Ex.relKer Ex.relST, o.passes = 3 ∧ 1 ≤ o.δ ∧
        o.lm.1 0 < 0 ∧ o.xnew 0 = Ex.relST.ub (.inl 0) ∧ o.xnew 1 = Ex.relST.lb (.inl 1) ∧
        quadVal Ex.relST.g Ex.relST.M (o.xnew - ![1 / 100, 0, 0]) <
          quadVal Ex.relST.g Ex.relST.M o.xnew := by
      unfold quadVal
      decide +kernel
    exact ⟨o, rfl, h1 o h⟩

/-- The same problem with the bound of the second variable farther away. -/
def Ex.cycST : STIn ℚ 3 1 0 := { Ex.relST with lb := Sum.elim ![- 10, - 6 / 5, -10] ![] }

/-- Going on with the variables at a bound fixed does not help: here the second variable is fixed before it is at its
bound (the shortened step is zero because the first variable is at its bound, `C70_false`), the zero step that
follows takes the fixing back, and so on until the limit on the passes.  The returned point is not even at the bound. -/
theorem C86_cycle : ∃ o, solveTR Ex.relKer Ex.cycST = some o ∧ o.passes = 31 ∧ 9 ≤ o.δ ∧
    o.xnew 1 = Ex.cycST.lb (.inl 1) + 1 / 16 ∧
    quadVal Ex.cycST.g Ex.cycST.M (o.xnew - ![0, 1 / 16, 0]) < quadVal Ex.cycST.g Ex.cycST.M o.xnew := by
  cases h : solveTR Ex.relKer Ex.cycST with
  | none =>
    have : (solveTR Ex.relKer Ex.cycST).isSome = true := by decide +kernel
    rw [h] at this; cases this
  | some o =>
    have h1 : ∀ o ∈ solveTR Ex.relKer Ex.cycST, o.passes = 31 ∧ 9 ≤ o.δ ∧
        o.xnew 1 = Ex.cycST.lb (.inl 1) + 1 / 16 ∧
        quadVal Ex.cycST.g Ex.cycST.M (o.xnew - ![0, 1 / 16, 0]) <
          quadVal Ex.cycST.g Ex.cycST.M o.xnew := by
      unfold quadVal
      decide +kernel
    exact ⟨o, rfl, h1 o h⟩

/-- `C85_rpred_partial` applies to exact arithmetic over the real numbers. -/
example (prec : ℝ) (mult : (Fin n → ℝ) → (Fin n → ℝ) × (Fin m ⊕ Fin q → ℝ)) (I : STIn ℝ n m q)
    (hthr : I.thr = 1 / 10 ^ 8) (hlu : ∀ v, I.lb v ≤ I.ub v)
    (hgap : ∀ i, I.lb (.inl i) + 9 / 10 ^ 8 ≤ I.ub (.inl i))
    (hx : Near 0 (fun i => I.lb (.inl i)) (fun i => I.ub (.inl i)) I.x) :
    ∃ o, solveTR (Ex.realST prec id mult) I = some o ∧ ∃ r : VS n q → ℝ,
      o.rpred ≤ √(viol I 0) - √(viol I r) := by
  obtain ⟨o, ho, -⟩ := C44_real_partial prec id mult I hthr hlu hgap hx
  obtain ⟨r, w, -, -, h, -⟩ := C85_rpred_partial (Ex.realST prec id mult) I o ho
    (fun a ha => ⟨Real.sqrt_nonneg a, Real.mul_self_sqrt ha⟩) (fun _ _ _ => rfl)
  exact ⟨o, ho, r, h⟩

/-- The state of the last pass in `C86_false`, up to the constraint rows. -/
def Ex.relState : STState ℚ 3 1 0 :=
  { stStart Ex.relST with
    x := ![1, - 91 / 80, 0], rows := [bndRow 0, bndRow 1, bndRow 2], fix := [0, 1], iter := 3 }

/-- `C86_zero_step_partial` applies to this state. -/
example : (∃ o, stPass Ex.relKer Ex.relST Ex.relState = some (.inl o)) ∧
    ¬ ∀ i ∈ Ex.relState.fix, 0 ≤ (Ex.relKer.mult Ex.relState.x).1 i := by
  have hx : trialX Ex.relState 0 0 = Ex.relState.x := by
    funext i; simp [trialX]
  refine ⟨(C86_zero_step_partial Ex.relKer Ex.relST Ex.relState 0 0 ⟨⟨false, 0, rfl⟩, rfl⟩ ?_ ?_ ?_ ?_).1.2
    (Or.inr (Or.inr ?_)), ?_⟩
  · unfold SmallStep; decide +kernel
  · decide +kernel
  · decide +kernel
  · rw [hx]; decide +kernel
  · rw [hx]; unfold AtBound; decide +kernel
  · decide +kernel

#print axioms C85_rpred_partial
#print axioms C85_false
#print axioms C86_zero_step_partial
#print axioms C86_false
#print axioms C86_cycle

end Sqpdfo
