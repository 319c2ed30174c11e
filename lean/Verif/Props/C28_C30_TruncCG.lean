import Verif.Model.TruncCG
import Verif.Spec.Matrix
import Mathlib.Tactic.Linarith
import Mathlib.Tactic.Ring
import Mathlib.Tactic.FieldSimp
import Mathlib.Tactic.NormNum
import Mathlib.Algebra.Order.BigOperators.Ring.Finset
import Mathlib.Data.Fintype.BigOperators
import Mathlib.LinearAlgebra.Matrix.Notation

/-! # C28, C29, C30: truncated conjugate gradients -/

set_option linter.unusedSectionVars false

namespace Sqpdfo
open Matrix
variable {n : ℕ}

/-- The quadratic model `xᵀAx/2 - bᵀx`. -/
noncomputable def quadModel (A : Matrix (Fin n) (Fin n) ℝ) (b x : Fin n → ℝ) : ℝ :=
  x ⬝ᵥ A *ᵥ x / 2 - b ⬝ᵥ x

theorem dot_self_nonneg (v : Fin n → ℝ) : 0 ≤ v ⬝ᵥ v :=
  Finset.sum_nonneg (fun i _ => mul_self_nonneg (v i))

theorem dot_self_eq_zero {v : Fin n → ℝ} (h : v ⬝ᵥ v = 0) : v = 0 := by
  funext i
  have := (Finset.sum_eq_zero_iff_of_nonneg (fun i _ => mul_self_nonneg (v i))).1 h i
    (Finset.mem_univ i)
  exact mul_self_eq_zero.1 this

/-- The sphere intersection: result on the sphere, nonnegative step. -/
theorem compDir_spec {dc dn : Fin n → ℝ} {δ : ℝ} (hin : dc ⬝ᵥ dc ≤ δ ^ 2) (hne : dn ≠ dc) :
    ∃ t : ℝ, 0 ≤ t ∧ (compDir dc dn δ).1 = dc + t • (dn - dc) ∧
      (compDir dc dn δ).1 ⬝ᵥ (compDir dc dn δ).1 = δ ^ 2 ∧
      (δ ^ 2 ≤ dn ⬝ᵥ dn → t ≤ 1) := by
  have hd : (dn - dc) ⬝ᵥ (dn - dc) ≠ 0 := fun h => hne (sub_eq_zero.1 (dot_self_eq_zero h))
  have hdpos : 0 < (dn - dc) ⬝ᵥ (dn - dc) := lt_of_le_of_ne (dot_self_nonneg _) (Ne.symm hd)
  by_cases hc : dc ⬝ᵥ dc - δ ^ 2 ≥ 0
  · refine ⟨0, le_refl _, ?_, ?_, fun _ => zero_le_one⟩
    · simp only [compDir, if_neg hd, if_pos hc]; simp
    · simp only [compDir, if_neg hd, if_pos hc]; linarith
  · set D := (dn - dc) ⬝ᵥ (dn - dc) with hD
    set B := dc ⬝ᵥ (dn - dc) with hB
    set C := dc ⬝ᵥ dc - δ ^ 2 with hC
    have hCneg : C < 0 := not_le.1 hc
    have hrad : 0 ≤ B ^ 2 - D * C := by nlinarith [sq_nonneg B, mul_pos hdpos (neg_pos.2 hCneg)]
    have hsq : Real.sqrt (B ^ 2 - D * C) ^ 2 = B ^ 2 - D * C := Real.sq_sqrt hrad
    have hsge : |B| ≤ Real.sqrt (B ^ 2 - D * C) := by
      apply Real.abs_le_sqrt
      nlinarith [mul_pos hdpos (neg_pos.2 hCneg)]
    have hBle : B ≤ Real.sqrt (B ^ 2 - D * C) := le_trans (le_abs_self B) hsge
    set S := Real.sqrt (B ^ 2 - D * C) with hS
    have hres : (compDir dc dn δ).1 = dc + ((S - B) / D) • (dn - dc) := by
      simp only [compDir, ← hD, ← hB, ← hC, ← hS]
      rw [if_neg hd, if_neg hc]
    have hquad : ∀ t : ℝ, (dc + t • (dn - dc)) ⬝ᵥ (dc + t • (dn - dc)) =
        dc ⬝ᵥ dc + 2 * t * B + t ^ 2 * D := by
      intro t
      rw [add_dotProduct, dotProduct_add, dotProduct_add, smul_dotProduct, smul_dotProduct,
        dotProduct_smul, dotProduct_smul, dotProduct_comm (dn - dc) dc, ← hB, ← hD]
      simp only [smul_eq_mul]; ring
    refine ⟨(S - B) / D, div_nonneg (by linarith) hdpos.le, hres, ?_, ?_⟩
    · rw [hres, hquad]
      have : D ≠ 0 := hd
      field_simp
      have : dc ⬝ᵥ dc = C + δ ^ 2 := by rw [hC]; ring
      rw [this]
      nlinarith [hsq]
    · intro hout
      have h1 : dn ⬝ᵥ dn = dc ⬝ᵥ dc + 2 * B + D := by
        have := hquad 1
        rw [one_smul, add_sub_cancel] at this
        rw [this]; ring
      rw [div_le_one hdpos]
      have h2 : 0 ≤ C + 2 * B + D := by rw [hC]; linarith
      by_contra hlt
      push Not at hlt
      have h3 : 0 ≤ D + B := by
        by_contra hneg
        push Not at hneg
        nlinarith
      nlinarith [h3, hlt, hsq, Real.sqrt_nonneg (B ^ 2 - D * C)]

/-- Change of the model along a direction. -/
theorem quadModel_step {A : Matrix (Fin n) (Fin n) ℝ} (hA : ∀ i j, A i j = A j i)
    (b x d : Fin n → ℝ) (t : ℝ) :
    quadModel A b (x + t • d) =
      quadModel A b x + t * ((A *ᵥ x - b) ⬝ᵥ d) + t ^ 2 / 2 * (d ⬝ᵥ A *ᵥ d) := by
  have hsym : x ⬝ᵥ A *ᵥ d = d ⬝ᵥ A *ᵥ x := by
    rw [dotProduct_mulVec, ← mulVec_transpose, show Aᵀ = A from Matrix.ext fun i j => hA j i,
      dotProduct_comm]
  unfold quadModel
  rw [mulVec_add, mulVec_smul, add_dotProduct, dotProduct_add, dotProduct_add, smul_dotProduct,
    smul_dotProduct, dotProduct_smul, dotProduct_smul, dotProduct_add, dotProduct_smul, hsym,
    sub_dotProduct, dotProduct_comm (A *ᵥ x) d]
  simp only [smul_eq_mul]
  ring

/-- The invariant of the loop. -/
structure CGInv (A : Matrix (Fin n) (Fin n) ℝ) (b : Fin n → ℝ) (δ : ℝ) (iter : ℕ)
    (s : CGState n) : Prop where
  grad : s.g = A *ᵥ s.x - b
  g2 : s.g2 = s.g ⬝ᵥ s.g
  ball : s.x ⬝ᵥ s.x ≤ δ ^ 2
  orth : iter = 1 ∨ s.g ⬝ᵥ s.d = 0

theorem cgDir_grad {A : Matrix (Fin n) (Fin n) ℝ} {b : Fin n → ℝ} {δ : ℝ} {iter : ℕ}
    {s : CGState n} (h : CGInv A b δ iter s) : s.g ⬝ᵥ cgDir iter s = - s.g2 := by
  unfold cgDir
  by_cases hi : iter = 1
  · rw [if_pos hi, dotProduct_neg, h.g2]
  · rw [if_neg hi, dotProduct_add, dotProduct_neg, dotProduct_smul,
      h.orth.resolve_left hi, h.g2]
    simp

theorem CGInv.next {A : Matrix (Fin n) (Fin n) ℝ} {b : Fin n → ℝ} {δ : ℝ} {iter : ℕ}
    {s : CGState n} (h : CGInv A b δ iter s)
    (hpos : 0 < cgDir iter s ⬝ᵥ A *ᵥ cgDir iter s)
    (hball : ¬ (s.x + (-(s.g ⬝ᵥ cgDir iter s) / (cgDir iter s ⬝ᵥ A *ᵥ cgDir iter s)) •
      cgDir iter s) ⬝ᵥ (s.x + (-(s.g ⬝ᵥ cgDir iter s) / (cgDir iter s ⬝ᵥ A *ᵥ cgDir iter s)) •
      cgDir iter s) > δ * δ) :
    CGInv A b δ (iter + 1)
      { x := s.x + (-(s.g ⬝ᵥ cgDir iter s) / (cgDir iter s ⬝ᵥ A *ᵥ cgDir iter s)) • cgDir iter s
        g := s.g + (-(s.g ⬝ᵥ cgDir iter s) / (cgDir iter s ⬝ᵥ A *ᵥ cgDir iter s)) •
          A *ᵥ cgDir iter s
        g2 := (s.g + (-(s.g ⬝ᵥ cgDir iter s) / (cgDir iter s ⬝ᵥ A *ᵥ cgDir iter s)) •
          A *ᵥ cgDir iter s) ⬝ᵥ (s.g +
          (-(s.g ⬝ᵥ cgDir iter s) / (cgDir iter s ⬝ᵥ A *ᵥ cgDir iter s)) • A *ᵥ cgDir iter s)
        g2p := s.g2
        d := cgDir iter s } := by
  refine ⟨?_, rfl, ?_, Or.inr ?_⟩
  · simp only
    rw [mulVec_add, mulVec_smul, h.grad]
    abel
  · have := not_lt.1 hball
    simpa [sq] using this
  · simp only
    rw [add_dotProduct, smul_dotProduct, dotProduct_comm (A *ᵥ _)]
    simp only [smul_eq_mul]
    rw [div_mul_cancel₀ _ hpos.ne']
    ring

/-- The facts about the result proved by induction over the loop. `lo` is the first value of
the counter. -/
theorem cgLoop_spec {A : Matrix (Fin n) (Fin n) ℝ} {b : Fin n → ℝ} {δ tol : ℝ} {maxIter : ℕ}
    (k : ℕ) : ∀ (iter : ℕ) (s : CGState n) (curv : Option ℝ) (trace : List (Fin n → ℝ)),
    maxIter + 1 - iter = k → iter ≤ maxIter + 1 → CGInv A b δ iter s →
    trace.getLast? = some s.x →
    let o := cgLoop A δ tol maxIter iter s curv trace
    o.x ⬝ᵥ o.x ≤ δ ^ 2 ∧
    ((o.flag = 1 ∨ o.flag = 2) → o.x ⬝ᵥ o.x = δ ^ 2) ∧
    (o.flag = 0 → (A *ᵥ o.x - b) ⬝ᵥ (A *ᵥ o.x - b) ≤ tol ^ 2 ∧
      o.prec = Real.sqrt ((A *ᵥ o.x - b) ⬝ᵥ (A *ᵥ o.x - b))) ∧
    (o.flag = 2 → ∃ d : Fin n → ℝ, d ≠ 0 ∧ d ⬝ᵥ A *ᵥ d ≤ 0) ∧
    (o.flag = -1 → o.iter = maxIter ∧ tol ^ 2 < (A *ᵥ o.x - b) ⬝ᵥ (A *ᵥ o.x - b) ∧
      o.trace.length = trace.length + k) ∧
    (o.flag = 0 ∨ o.flag = -1 ∨ o.flag = 1 ∨ o.flag = 2) ∧
    o.iter ≤ maxIter + 1 ∧
    o.trace.getLast? = some o.x ∧
    ((∀ i j, A i j = A j i) →
      ∃ ext, o.trace = trace ++ ext ∧ List.IsChain (fun u v => quadModel A b v < quadModel A b u ∨
        (v = o.x ∧ quadModel A b v ≤ quadModel A b u)) (s.x :: ext)) := by
  induction k with
  | zero =>
    intro iter s curv trace hk hle h hl
    have hit : iter = maxIter + 1 := by omega
    unfold cgLoop
    by_cases h0 : s.g2 ≤ tol * tol
    · simp only [if_pos h0]
      refine ⟨h.ball, by simp, fun _ => ⟨?_, ?_⟩, by simp, by simp, by simp, by omega, hl,
        fun _ => ⟨[], by simp, by simp⟩⟩
      · rw [← h.grad, ← h.g2, sq]; exact h0
      · rw [← h.grad, ← h.g2]
    · simp only [if_neg h0, if_pos (show iter > maxIter by omega)]
      refine ⟨h.ball, by simp, by simp, by simp, fun _ => ⟨by simp, ?_, by simp⟩, by simp, by omega,
        hl, fun _ => ⟨[], by simp, by simp⟩⟩
      rw [← h.grad, ← h.g2, sq]; exact not_le.1 h0
  | succ k ih =>
    intro iter s curv trace hk hle h hl
    have hit : ¬ iter > maxIter := by omega
    unfold cgLoop
    by_cases h0 : s.g2 ≤ tol * tol
    · simp only [if_pos h0]
      refine ⟨h.ball, by simp, fun _ => ⟨?_, ?_⟩, by simp, by simp, by simp, by omega, hl,
        fun _ => ⟨[], by simp, by simp⟩⟩
      · rw [← h.grad, ← h.g2, sq]; exact h0
      · rw [← h.grad, ← h.g2]
    · have hg2 : 0 < s.g2 := lt_of_le_of_lt (mul_self_nonneg tol) (not_le.1 h0)
      have hgd := cgDir_grad h
      have hdne : cgDir iter s ≠ 0 := by
        intro hz; rw [hz, dotProduct_zero] at hgd; linarith
      by_cases hneg : cgDir iter s ⬝ᵥ A *ᵥ cgDir iter s ≤ 0
      · simp only [if_neg h0, if_neg hit, if_pos hneg]
        have hne : s.x + cgDir iter s ≠ s.x := by
          intro he; exact hdne (by simpa using he)
        obtain ⟨t, ht, hx, hs, -⟩ := compDir_spec (δ := δ) h.ball hne
        refine ⟨hs.le, fun _ => hs, by simp, fun _ => ⟨_, hdne, hneg⟩, by simp, by simp,
          by omega, by simp, fun hA => ⟨_, rfl, ?_⟩⟩
        rw [List.isChain_cons_cons]
        refine ⟨Or.inr ⟨rfl, ?_⟩, by simp⟩
        rw [hx, add_sub_cancel_left, quadModel_step hA, ← h.grad, hgd]
        nlinarith [mul_nonneg ht hg2.le, mul_nonneg (sq_nonneg t) (neg_nonneg.2 hneg)]
      · have hpos := not_le.1 hneg
        set α := -(s.g ⬝ᵥ cgDir iter s) / (cgDir iter s ⬝ᵥ A *ᵥ cgDir iter s) with hα
        have hαpos : 0 < α := by rw [hα, hgd, neg_neg]; exact div_pos hg2 hpos
        have hαmul : α * (cgDir iter s ⬝ᵥ A *ᵥ cgDir iter s) = s.g2 := by
          rw [hα, hgd, neg_neg, div_mul_cancel₀ _ hpos.ne']
        by_cases hout : (s.x + α • cgDir iter s) ⬝ᵥ (s.x + α • cgDir iter s) > δ * δ
        · simp only [if_neg h0, if_neg hit, if_neg hneg, ← hα, if_pos hout]
          have hne : s.x + α • cgDir iter s ≠ s.x := by
            intro he
            have : α • cgDir iter s = 0 := by simpa using he
            rcases smul_eq_zero.1 this with h1 | h1
            · exact hαpos.ne' h1
            · exact hdne h1
          obtain ⟨t, ht, hx, hs, ht1⟩ := compDir_spec (δ := δ) h.ball hne
          have ht1' := ht1 (by rw [sq]; exact hout.le)
          refine ⟨hs.le, fun _ => hs, by simp, by simp, by simp, by simp,
            by omega, by simp, fun hA => ⟨_, rfl, ?_⟩⟩
          rw [List.isChain_cons_cons]
          refine ⟨Or.inr ⟨rfl, ?_⟩, by simp⟩
          rw [hx, add_sub_cancel_left, smul_smul, quadModel_step hA, ← h.grad, hgd]
          have h1 : (t * α) ^ 2 / 2 * (cgDir iter s ⬝ᵥ A *ᵥ cgDir iter s) =
              t ^ 2 / 2 * α * s.g2 := by rw [← hαmul]; ring
          rw [h1]
          have h2 : 0 ≤ t * (1 - t / 2) := mul_nonneg ht (by linarith)
          nlinarith [mul_nonneg (mul_nonneg hαpos.le hg2.le) h2]
        · simp only [if_neg h0, if_neg hit, if_neg hneg, ← hα, if_neg hout]
          have hn := h.next hpos (by rw [← hα]; exact hout)
          rw [← hα] at hn
          obtain ⟨r1, r2, r3, r4, r5, r6, r7, r8, r9⟩ := ih (iter + 1) _
            (some (cgDir iter s ⬝ᵥ A *ᵥ cgDir iter s / (cgDir iter s ⬝ᵥ cgDir iter s)))
            (trace ++ [s.x + α • cgDir iter s]) (by omega) (by omega) hn (by simp)
          refine ⟨r1, r2, r3, r4, fun hf => ?_, r6, r7, r8, fun hA => ?_⟩
          · obtain ⟨q1, q2, q3⟩ := r5 hf
            refine ⟨q1, q2, ?_⟩
            rw [q3]; simp; omega
          · obtain ⟨ext, he, hc⟩ := r9 hA
            refine ⟨(s.x + α • cgDir iter s) :: ext, ?_, ?_⟩
            · rw [he]; simp
            · rw [List.isChain_cons_cons]
              refine ⟨Or.inl ?_, hc⟩
              rw [quadModel_step hA, ← h.grad, hgd]
              have h1 : α ^ 2 / 2 * (cgDir iter s ⬝ᵥ A *ᵥ cgDir iter s) = α / 2 * s.g2 := by
                rw [← hαmul]; ring
              rw [h1]
              nlinarith [mul_pos hαpos hg2]

theorem truncCG_inv (A : Matrix (Fin n) (Fin n) ℝ) (b : Fin n → ℝ) (δ : ℝ) :
    CGInv A b δ 1 { x := 0, g := -b, g2 := (-b) ⬝ᵥ (-b), g2p := 0, d := 0 } :=
  ⟨by simp, rfl, by simp [sq_nonneg], Or.inl rfl⟩

/-- C28: the step has norm at most `delta`, and exactly `delta` on a boundary or
negative-curvature exit.  Holds for every matrix, even a nonsymmetric one. -/
theorem C28_in_trust_region (A : Matrix (Fin n) (Fin n) ℝ) (b : Fin n → ℝ) (δ tol : ℝ)
    (hδ : 0 < δ) (maxIter : ℕ) :
    Real.sqrt ((truncCG A b δ tol maxIter).x ⬝ᵥ (truncCG A b δ tol maxIter).x) ≤ δ ∧
    ((truncCG A b δ tol maxIter).flag = 1 ∨ (truncCG A b δ tol maxIter).flag = 2 →
      Real.sqrt ((truncCG A b δ tol maxIter).x ⬝ᵥ (truncCG A b δ tol maxIter).x) = δ) := by
  have := cgLoop_spec (tol := tol) (maxIter := maxIter) _ 1 _ none [0] rfl (by omega)
    (truncCG_inv A b δ) (by simp)
  obtain ⟨h1, h2, -⟩ := this
  refine ⟨?_, fun hf => ?_⟩
  · exact Real.sqrt_le_iff.2 ⟨hδ.le, h1⟩
  · have h3 := h2 hf
    rw [show (truncCG A b δ tol maxIter).x ⬝ᵥ (truncCG A b δ tol maxIter).x = δ ^ 2 from h3]
    exact Real.sqrt_sq hδ.le

/-- C29: the status tells the truth.  `0`: the residual is within the tolerance and `prec` is
its norm; `2`: there is a direction of nonpositive curvature; `-1`: `maxIter` steps were made and
the residual is still above the tolerance; no other status than `0, -1, 1, 2` occurs and the
counter does not exceed `maxIter + 1`. -/
theorem C29_status_truthful (A : Matrix (Fin n) (Fin n) ℝ) (b : Fin n → ℝ) (δ tol : ℝ)
    (htol : 0 ≤ tol) (maxIter : ℕ) :
    let o := truncCG A b δ tol maxIter
    (o.flag = 0 → Real.sqrt ((A *ᵥ o.x - b) ⬝ᵥ (A *ᵥ o.x - b)) ≤ tol ∧
      o.prec = Real.sqrt ((A *ᵥ o.x - b) ⬝ᵥ (A *ᵥ o.x - b))) ∧
    (o.flag = 2 → ∃ d : Fin n → ℝ, d ≠ 0 ∧ d ⬝ᵥ A *ᵥ d ≤ 0) ∧
    (o.flag = -1 → o.iter = maxIter ∧ o.trace.length = maxIter + 1 ∧
      tol < Real.sqrt ((A *ᵥ o.x - b) ⬝ᵥ (A *ᵥ o.x - b))) ∧
    (o.flag = 0 ∨ o.flag = -1 ∨ o.flag = 1 ∨ o.flag = 2) ∧
    o.iter ≤ maxIter + 1 := by
  have := cgLoop_spec (tol := tol) (maxIter := maxIter) _ 1 _ none [0] rfl (by omega)
    (truncCG_inv A b δ) (by simp)
  obtain ⟨-, -, h3, h4, h5, h6, h7, -, -⟩ := this
  refine ⟨fun hf => ⟨?_, (h3 hf).2⟩, h4, fun hf => ⟨(h5 hf).1, ?_, ?_⟩, h6, h7⟩
  · exact Real.sqrt_le_iff.2 ⟨htol, (h3 hf).1⟩
  · have := (h5 hf).2.2
    simp only [List.length_singleton] at this
    rw [show (truncCG A b δ tol maxIter).trace.length = _ from this]; omega
  · exact Real.lt_sqrt_of_sq_lt (h5 hf).2.1

/-- A positive definite matrix never leads to status 2. -/
theorem C29_no_curvature_exit_if_PD (A : Matrix (Fin n) (Fin n) ℝ) (b : Fin n → ℝ) (δ tol : ℝ)
    (htol : 0 ≤ tol) (maxIter : ℕ) (hA : Spec.SymPD A) : (truncCG A b δ tol maxIter).flag ≠ 2 := by
  intro hf
  obtain ⟨d, hd, hle⟩ := (C29_status_truthful A b δ tol htol maxIter).2.1 hf
  exact absurd (hA.2 d hd) (not_lt.2 hle)

theorem chain_le {A : Matrix (Fin n) (Fin n) ℝ} {b : Fin n → ℝ} {P : (Fin n → ℝ) → Prop} :
    ∀ (l : List (Fin n → ℝ)) (u v : Fin n → ℝ),
    List.IsChain (fun u v => quadModel A b v < quadModel A b u ∨
      (P v ∧ quadModel A b v ≤ quadModel A b u)) (u :: l) → (u :: l).getLast? = some v →
    quadModel A b v ≤ quadModel A b u := by
  intro l
  induction l with
  | nil => intro u v _ h; simp at h; rw [h]
  | cons w l ih =>
    intro u v hc h
    rw [List.isChain_cons_cons] at hc
    rw [List.getLast?_cons_cons] at h
    have h1 := ih w v hc.2 h
    rcases hc.1 with h2 | h2
    · linarith
    · linarith [h2.2]

/-- C30: for a symmetric matrix the successive values of `x` (starting with 0 and ending with the
returned point) have nonincreasing model values, so the returned value is at most 0, the value
at the start. The decrease is strict except possibly in the last step. -/
theorem C30_model_decreases (A : Matrix (Fin n) (Fin n) ℝ) (hA : ∀ i j, A i j = A j i)
    (b : Fin n → ℝ) (δ tol : ℝ) (maxIter : ℕ) :
    let o := truncCG A b δ tol maxIter
    quadModel A b o.x ≤ 0 ∧ o.trace.head? = some 0 ∧ o.trace.getLast? = some o.x ∧
    List.IsChain (fun u v => quadModel A b v < quadModel A b u ∨
      (v = o.x ∧ quadModel A b v ≤ quadModel A b u)) o.trace := by
  have := cgLoop_spec (tol := tol) (maxIter := maxIter) _ 1 _ none [0] rfl (by omega)
    (truncCG_inv A b δ) (by simp)
  obtain ⟨-, -, -, -, -, -, -, h8, h9⟩ := this
  obtain ⟨ext, he, hc⟩ := h9 hA
  have he' : (truncCG A b δ tol maxIter).trace = 0 :: ext := he
  have h8' : (truncCG A b δ tol maxIter).trace.getLast? =
    some (truncCG A b δ tol maxIter).x := h8
  refine ⟨?_, by simp [he'], h8', by rw [he']; exact hc⟩
  rw [he'] at h8'
  have := chain_le ext 0 _ hc h8'
  simpa [quadModel] using this

/-- Instances: all four exits occur (`1 x = 1`, radius 2; negative curvature; radius too small;
no iteration allowed). -/
example : (truncCG !![1] ![1] 2 0 5).flag = 0 ∧ (truncCG !![1] ![1] 2 0 5).x = ![1] := by
  have hA : cgDir 1 ({ x := 0, g := -![1], g2 := (-![1]) ⬝ᵥ (-![1]), g2p := 0, d := 0 } :
      CGState 1) = ![1] := by simp [cgDir]
  have h : truncCG !![1] ![1] 2 0 5 = cgLoop !![1] 2 0 5 2 { x := ![1], g := 0, g2 := 0, g2p := 1, d := ![1] }
      (some 1) [0, ![1]] := by
    unfold truncCG
    rw [cgLoop]
    simp only [hA]
    norm_num [Matrix.mulVec, dotProduct]
    congr 2
    funext i
    simp [vecHead]
  rw [h, cgLoop]
  simp

example : (truncCG !![-1] ![1] 2 0 5).flag = 2 := by
  unfold truncCG
  rw [cgLoop]
  norm_num [cgDir, Matrix.mulVec, dotProduct]

example : (truncCG !![1] ![1] (1 / 2) 0 5).flag = 1 := by
  unfold truncCG
  rw [cgLoop]
  norm_num [cgDir, Matrix.mulVec, dotProduct]

example : (truncCG !![1] ![1] 2 0 0).flag = -1 := by
  unfold truncCG
  rw [cgLoop]
  norm_num [dotProduct]

#print axioms C28_in_trust_region
#print axioms C29_status_truthful
#print axioms C29_no_curvature_exit_if_PD
#print axioms C30_model_decreases

end Sqpdfo
