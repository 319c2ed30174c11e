import Verif.Props.C28_C30_TruncCG
import Mathlib.LinearAlgebra.Dimension.Constructions
import Mathlib.LinearAlgebra.FiniteDimensional.Lemmas

/-! # C63: the truncated conjugate gradient solver needs at most as many steps as unknowns -/

namespace Sqpdfo
open Matrix
variable {n : ℕ}

/-- One conjugate gradient step without the stopping tests. -/
noncomputable def cgNext (A : Matrix (Fin n) (Fin n) ℝ) (iter : ℕ) (s : CGState n) : CGState n :=
  let d := cgDir iter s
  let α := - (s.g ⬝ᵥ d) / (d ⬝ᵥ A *ᵥ d)
  let g := s.g + α • A *ᵥ d
  { x := s.x + α • d, g := g, g2 := g ⬝ᵥ g, g2p := s.g2, d := d }

/-- The sequence of states. -/
noncomputable def cgSeq (A : Matrix (Fin n) (Fin n) ℝ) (b : Fin n → ℝ) : ℕ → CGState n
  | 0 => { x := 0, g := -b, g2 := (-b) ⬝ᵥ (-b), g2p := 0, d := 0 }
  | k + 1 => cgNext A (k + 1) (cgSeq A b k)

/-- The direction used in step `k`. -/
noncomputable def cgD (A : Matrix (Fin n) (Fin n) ℝ) (b : Fin n → ℝ) (k : ℕ) : Fin n → ℝ :=
  cgDir (k + 1) (cgSeq A b k)

/-- The gradient before step `k`. -/
noncomputable def cgG (A : Matrix (Fin n) (Fin n) ℝ) (b : Fin n → ℝ) (k : ℕ) : Fin n → ℝ :=
  (cgSeq A b k).g

variable (A : Matrix (Fin n) (Fin n) ℝ) (b : Fin n → ℝ)

theorem cgSeq_g2 (k : ℕ) : (cgSeq A b k).g2 = cgG A b k ⬝ᵥ cgG A b k := by
  cases k <;> rfl

theorem cgD_zero : cgD A b 0 = - cgG A b 0 := by
  unfold cgD cgDir
  rw [if_pos rfl]; rfl

theorem cgD_succ (k : ℕ) : cgD A b (k + 1) = - cgG A b (k + 1) +
    ((cgG A b (k + 1) ⬝ᵥ cgG A b (k + 1)) / (cgG A b k ⬝ᵥ cgG A b k)) • cgD A b k := by
  conv_lhs => unfold cgD cgDir
  rw [if_neg (by omega), cgSeq_g2, ← cgSeq_g2 A b k]
  rfl

theorem cgG_succ (k : ℕ) : cgG A b (k + 1) = cgG A b k +
    (- (cgG A b k ⬝ᵥ cgD A b k) / (cgD A b k ⬝ᵥ A *ᵥ cgD A b k)) • A *ᵥ cgD A b k := rfl

theorem symm_swap {A : Matrix (Fin n) (Fin n) ℝ} (hA : Aᵀ = A) (u v : Fin n → ℝ) :
    u ⬝ᵥ A *ᵥ v = v ⬝ᵥ A *ᵥ u := by
  rw [dotProduct_mulVec, ← mulVec_transpose, hA, dotProduct_comm]

/-- Orthogonal gradients and conjugate directions, as long as no test stops the iteration. -/
theorem cg_orth (hA : Aᵀ = A) (k : ℕ)
    (hg : ∀ i ≤ k, 0 < cgG A b i ⬝ᵥ cgG A b i)
    (hd : ∀ i < k, 0 < cgD A b i ⬝ᵥ A *ᵥ cgD A b i) :
    (∀ i < k, cgG A b k ⬝ᵥ cgD A b i = 0) ∧ (∀ i < k, cgG A b k ⬝ᵥ cgG A b i = 0) ∧
    (∀ i < k, cgD A b i ⬝ᵥ A *ᵥ cgD A b k = 0) := by
  induction k using Nat.strong_induction_on with
  | _ k ih =>
  cases k with
  | zero => exact ⟨fun i hi => absurd hi (by omega), fun i hi => absurd hi (by omega),
      fun i hi => absurd hi (by omega)⟩
  | succ k =>
    have I : ∀ m ≤ k, (∀ i < m, cgG A b m ⬝ᵥ cgD A b i = 0) ∧
        (∀ i < m, cgG A b m ⬝ᵥ cgG A b i = 0) ∧
        (∀ i < m, cgD A b i ⬝ᵥ A *ᵥ cgD A b m = 0) := fun m hm =>
      ih m (by omega) (fun i hi => hg i (by omega)) (fun i hi => hd i (by omega))
    have hgd : ∀ m ≤ k, cgG A b m ⬝ᵥ cgD A b m = - (cgG A b m ⬝ᵥ cgG A b m) := by
      intro m hm
      cases m with
      | zero => rw [cgD_zero, dotProduct_neg]
      | succ m => rw [cgD_succ, dotProduct_add, dotProduct_neg, dotProduct_smul,
          (I (m + 1) hm).1 m (by omega), smul_zero, add_zero]
    have hk := hd k (by omega)
    have h1 : ∀ i < k + 1, cgG A b (k + 1) ⬝ᵥ cgD A b i = 0 := by
      intro i hi
      rw [cgG_succ, add_dotProduct, smul_dotProduct, smul_eq_mul, dotProduct_comm (A *ᵥ _)]
      rcases Nat.lt_succ_iff_lt_or_eq.1 hi with hi | rfl
      · rw [(I k le_rfl).1 i hi, (I k le_rfl).2.2 i hi, mul_zero, add_zero]
      · field_simp
        ring
    have h2 : ∀ i < k + 1, cgG A b (k + 1) ⬝ᵥ cgG A b i = 0 := by
      intro i hi
      have hi1 := h1 i hi
      cases i with
      | zero => rw [cgD_zero, dotProduct_neg] at hi1; linarith
      | succ i => rw [cgD_succ, dotProduct_add, dotProduct_neg, dotProduct_smul,
          h1 i (by omega), smul_zero, add_zero] at hi1; linarith
    refine ⟨h1, h2, ?_⟩
    intro i hi
    rw [symm_swap hA, cgD_succ, add_dotProduct, neg_dotProduct, smul_dotProduct, smul_eq_mul]
    have hki := hd i hi
    have hgi := hg i (by omega)
    have hGA : cgG A b (k + 1) ⬝ᵥ cgG A b (i + 1) = cgG A b (k + 1) ⬝ᵥ cgG A b i +
        (cgG A b i ⬝ᵥ cgG A b i) / (cgD A b i ⬝ᵥ A *ᵥ cgD A b i) *
          (cgG A b (k + 1) ⬝ᵥ A *ᵥ cgD A b i) := by
      rw [cgG_succ A b i, dotProduct_add, dotProduct_smul, hgd i (by omega), neg_neg, smul_eq_mul]
    rw [h2 i hi, zero_add] at hGA
    rcases Nat.lt_succ_iff_lt_or_eq.1 hi with hi' | rfl
    · rw [h2 (i + 1) (by omega)] at hGA
      have : cgG A b (k + 1) ⬝ᵥ A *ᵥ cgD A b i = 0 := by
        rcases mul_eq_zero.1 hGA.symm with h | h
        · exact absurd h (div_pos hgi hki).ne'
        · exact h
      rw [this, symm_swap hA, (I k le_rfl).2.2 i hi']
      ring
    · rw [hGA]
      field_simp
      ring

/-- Nonzero orthogonal vectors: at most `n`. -/
theorem orth_count {m : ℕ} (v : Fin m → Fin n → ℝ) (h0 : ∀ i, 0 < v i ⬝ᵥ v i)
    (h : ∀ i j, i ≠ j → v i ⬝ᵥ v j = 0) : m ≤ n := by
  have hl : LinearIndependent ℝ v := by
    rw [Fintype.linearIndependent_iff]
    intro c hc i
    have h1 := congrArg (fun w => v i ⬝ᵥ w) hc
    simp only [dotProduct_sum, dotProduct_smul, smul_eq_mul, dotProduct_zero] at h1
    rw [Finset.sum_eq_single i (fun j _ hj => by rw [h i j (Ne.symm hj), mul_zero])
      (fun hi => absurd (Finset.mem_univ i) hi)] at h1
    rcases mul_eq_zero.1 h1 with h1 | h1
    · exact h1
    · exact absurd h1 (h0 i).ne'
  have := hl.fintype_card_le_finrank
  simpa using this

/-- At most `n` nonzero gradients. -/
theorem cg_count (hA : Aᵀ = A) (k : ℕ) (hg : ∀ i ≤ k, 0 < cgG A b i ⬝ᵥ cgG A b i)
    (hd : ∀ i < k, 0 < cgD A b i ⬝ᵥ A *ᵥ cgD A b i) : k + 1 ≤ n := by
  refine orth_count (fun i : Fin (k + 1) => cgG A b i) (fun i => hg i (by omega)) ?_
  have key : ∀ i j : ℕ, i < j → j ≤ k → cgG A b j ⬝ᵥ cgG A b i = 0 := fun i j hij hj =>
    (cg_orth A b hA j (fun l hl => hg l (by omega)) (fun l hl => hd l (by omega))).2.1 i hij
  intro i j hij
  rcases lt_or_gt_of_ne (fun h => hij (Fin.ext h) : (i : ℕ) ≠ j) with h | h
  · rw [dotProduct_comm]; exact key i j h (by omega)
  · exact key j i h (by omega)

/-- The loop follows the sequence. -/
theorem cgLoop_seq (δ tol : ℝ) (maxIter : ℕ) (hA : Aᵀ = A) (k : ℕ) (hk : k ≤ maxIter)
    (curv : Option ℝ) (trace : List (Fin n → ℝ))
    (hg : ∀ i < k, 0 < cgG A b i ⬝ᵥ cgG A b i)
    (hd : ∀ i < k, 0 < cgD A b i ⬝ᵥ A *ᵥ cgD A b i) (hn : n ≤ maxIter) :
    (cgLoop A δ tol maxIter (k + 1) (cgSeq A b k) curv trace).flag ≠ -1 ∧
    (cgLoop A δ tol maxIter (k + 1) (cgSeq A b k) curv trace).iter ≤ n + 1 ∧
    ((cgLoop A δ tol maxIter (k + 1) (cgSeq A b k) curv trace).flag ≠ 0 →
      (cgLoop A δ tol maxIter (k + 1) (cgSeq A b k) curv trace).iter ≤ n) := by
  have hkn : k ≤ n := by
    rcases Nat.eq_zero_or_pos k with h | h
    · omega
    · have := cg_count A b hA (k - 1) (fun i hi => hg i (by omega)) (fun i hi => hd i (by omega))
      omega
  generalize hr : maxIter - k = r
  induction r generalizing k curv trace with
  | zero =>
    rw [cgLoop]
    split_ifs with h1 h2
    · exact ⟨by simp, by simp; omega, by simp⟩
    all_goals
      exfalso
      have hpos : 0 < cgG A b k ⬝ᵥ cgG A b k := by
        rw [← cgSeq_g2]
        exact lt_of_le_of_lt (mul_self_nonneg tol) (not_le.1 h1)
      have := cg_count A b hA k (fun i hi => by
        rcases Nat.lt_or_eq_of_le hi with h | rfl
        · exact hg i h
        · exact hpos) hd
      omega
  | succ r ih =>
    rw [cgLoop]
    by_cases h1 : (cgSeq A b k).g2 ≤ tol * tol
    · rw [if_pos h1]
      exact ⟨by simp, by simp; omega, by simp⟩
    rw [if_neg h1, if_neg (by omega)]
    have hpos : 0 < cgG A b k ⬝ᵥ cgG A b k := by
      rw [← cgSeq_g2]
      exact lt_of_le_of_lt (mul_self_nonneg tol) (not_le.1 h1)
    have hg' : ∀ i < k + 1, 0 < cgG A b i ⬝ᵥ cgG A b i := fun i hi => by
      rcases Nat.lt_succ_iff_lt_or_eq.1 hi with h | rfl
      · exact hg i h
      · exact hpos
    have hcount := cg_count A b hA k (fun i hi => hg' i (by omega)) hd
    simp only
    split_ifs with h3 h4
    · exact ⟨by simp, by simp; omega, fun _ => by simpa using hcount⟩
    · exact ⟨by simp, by simp; omega, fun _ => by simpa using hcount⟩
    · have hd' : ∀ i < k + 1, 0 < cgD A b i ⬝ᵥ A *ᵥ cgD A b i := fun i hi => by
        rcases Nat.lt_succ_iff_lt_or_eq.1 hi with h | rfl
        · exact hd i h
        · exact not_le.1 h3
      exact ih (k + 1) (by omega) _ _ hg' hd' hcount (by omega)

/-- C63.  For a symmetric matrix the solver never reports the iteration limit if this limit is at least
the number `n` of unknowns; it enters the loop at most `n + 1` times, and a step that leaves the region
or finds nonpositive curvature is one of the first `n`. -/
theorem C63_finite (δ tol : ℝ) (maxIter : ℕ) (hA : Aᵀ = A) (hn : n ≤ maxIter) :
    (truncCG A b δ tol maxIter).flag ≠ -1 ∧ (truncCG A b δ tol maxIter).iter ≤ n + 1 ∧
    ((truncCG A b δ tol maxIter).flag ≠ 0 → (truncCG A b δ tol maxIter).iter ≤ n) :=
  cgLoop_seq A b δ tol maxIter hA 0 (by omega) none [0] (fun i hi => absurd hi (by omega))
    (fun i hi => absurd hi (by omega)) hn

/-- The gradients met in a run that takes `k` steps inside the region are pairwise orthogonal and its
directions conjugate. -/
theorem C63_conjugate (hA : Aᵀ = A) (k : ℕ) (hg : ∀ i ≤ k, 0 < cgG A b i ⬝ᵥ cgG A b i)
    (hd : ∀ i < k, 0 < cgD A b i ⬝ᵥ A *ᵥ cgD A b i) (i j : ℕ) (hij : i < j) (hj : j ≤ k) :
    cgG A b j ⬝ᵥ cgG A b i = 0 ∧ cgD A b i ⬝ᵥ A *ᵥ cgD A b j = 0 := by
  have := cg_orth A b hA j (fun l hl => hg l (by omega)) (fun l hl => hd l (by omega))
  exact ⟨this.2.1 i hij, this.2.2 i hij⟩

/-- A step inside the region. -/
theorem cgLoop_inside (δ tol : ℝ) (maxIter iter : ℕ) (s : CGState n) (curv : Option ℝ)
    (trace : List (Fin n → ℝ)) (d Ad : Fin n → ℝ) (α : ℝ) (hd : cgDir iter s = d) (hAd : A *ᵥ d = Ad)
    (hα : - (s.g ⬝ᵥ d) / (d ⬝ᵥ Ad) = α) (h1 : ¬ s.g2 ≤ tol * tol) (h2 : ¬ iter > maxIter)
    (h3 : ¬ d ⬝ᵥ Ad ≤ 0) (h4 : ¬ (s.x + α • d) ⬝ᵥ (s.x + α • d) > δ * δ) :
    ∃ c t, cgLoop A δ tol maxIter iter s curv trace = cgLoop A δ tol maxIter (iter + 1)
      { x := s.x + α • d, g := s.g + α • Ad, g2 := (s.g + α • Ad) ⬝ᵥ (s.g + α • Ad),
        g2p := s.g2, d := d } c t := by
  subst hd hAd hα
  refine ⟨some ((cgDir iter s ⬝ᵥ A *ᵥ cgDir iter s) / (cgDir iter s ⬝ᵥ cgDir iter s)), trace ++
    [s.x + (-(s.g ⬝ᵥ cgDir iter s) / (cgDir iter s ⬝ᵥ A *ᵥ cgDir iter s)) • cgDir iter s], ?_⟩
  conv_lhs => rw [cgLoop, if_neg h1, if_neg h2]
  simp only
  rw [if_neg h3, if_neg h4]

/-- Symmetry is needed: with the matrix below and two unknowns, two steps inside a large region do not
reach the tolerance. -/
theorem C63_needs_symmetry : ∃ (A : Matrix (Fin 2) (Fin 2) ℝ) (b : Fin 2 → ℝ),
    (truncCG A b 1000 (1 / 1000) 2).flag = -1 := by
  refine ⟨!![1, 1; -1, 1], ![1, 0], ?_⟩
  unfold truncCG
  obtain ⟨c, t, h⟩ := cgLoop_inside !![1, 1; -1, 1] 1000 (1 / 1000) 2 1
    { x := 0, g := -![1, 0], g2 := (-![1, 0]) ⬝ᵥ (-![1, 0]), g2p := 0, d := 0 } none [0]
    ![1, 0] ![1, -1] 1 (by simp [cgDir])
    (by funext i; fin_cases i <;> simp [mulVec, dotProduct, Fin.sum_univ_two]) (by simp) (by norm_num)
    (by norm_num) (by norm_num) (by norm_num)
  rw [h]
  obtain ⟨c, t, h⟩ := cgLoop_inside !![1, 1; -1, 1] 1000 (1 / 1000) 2 2
    { x := 0 + (1 : ℝ) • ![1, 0], g := -![1, 0] + (1 : ℝ) • ![1, -1],
      g2 := (-![1, 0] + (1 : ℝ) • ![1, -1]) ⬝ᵥ (-![1, 0] + (1 : ℝ) • ![1, -1]),
      g2p := (-![1, 0]) ⬝ᵥ (-![1, 0]), d := ![1, 0] } c t
    ![1, 1] ![2, 0] (1 / 2) (by simp [cgDir])
    (by funext i; fin_cases i <;> simp [mulVec, dotProduct, Fin.sum_univ_two] <;> norm_num) (by simp)
    (by norm_num)
    (by norm_num) (by norm_num) (by norm_num)
  rw [h, cgLoop, if_neg (by norm_num), if_pos (by norm_num)]

example : (!![2, 1; 1, 3] : Matrix (Fin 2) (Fin 2) ℝ)ᵀ = !![2, 1; 1, 3] := by
  ext i j; fin_cases i <;> fin_cases j <;> rfl

#print axioms C63_finite
#print axioms C63_conjugate
#print axioms C63_needs_symmetry

end Sqpdfo
