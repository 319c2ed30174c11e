import Verif.Model.NullSpace
import Verif.Props.C28_C30_TruncCG
import Verif.Props.C63_CGFinite
import Mathlib.LinearAlgebra.Matrix.NonsingularInverse
import Mathlib.Tactic.Linarith
import Mathlib.Tactic.Ring
import Mathlib.Tactic.NormNum
import Mathlib.Tactic.FinCases

/-! # C96: the tangent step of the trust-region solver with constraints -/

namespace Sqpdfo
open Matrix
variable {n q : ℕ}

/-- The squared length of the vector of the products of the rows with `w`. -/
def Spec.rowsSq (rows : List (VS n q → ℝ)) (w : VS n q → ℝ) : ℝ := (rows.map fun a => (a ⬝ᵥ w) ^ 2).sum

/-- A singular value decomposition of the matrix with the given rows, as `np.linalg.svd` returns it: `s` has the smaller of the two
dimensions as length, the rows of `vh` are orthonormal, and the images of the rows of `vh` are the singular values times orthonormal
vectors (zero for the rows of `vh` that have no singular value). -/
structure Spec.IsSvd (rows : List (VS n q → ℝ)) (s : List ℝ) (vh : Matrix (Fin (n + q)) (VS n q) ℝ) : Prop where
  len : s.length = min rows.length (n + q)
  nonneg : ∀ v ∈ s, 0 ≤ v
  orth : vh * vhᵀ = 1
  left : ∃ U : Fin (n + q) → Fin rows.length → ℝ,
    (∀ i j : Fin (n + q), i.1 < s.length → j.1 < s.length → U i ⬝ᵥ U j = if i = j then 1 else 0) ∧
    (∀ (i : Fin (n + q)) (v : ℝ), s[i.1]? = some v → ∀ r : Fin rows.length, rows[r] ⬝ᵥ vh i = v * U i r)
  rest : ∀ i : Fin (n + q), s.length ≤ i.1 → ∀ r : Fin rows.length, rows[r] ⬝ᵥ vh i = 0

/-- The model `gᵀt + tᵀMt/2` of the tangent step. -/
noncomputable def Spec.tangModel (M : Matrix (VS n q) (VS n q) ℝ) (g t : VS n q → ℝ) : ℝ := g ⬝ᵥ t + t ⬝ᵥ M *ᵥ t / 2

open Spec

/-- The rows as a matrix. -/
def rowMat (rows : List (VS n q → ℝ)) : Matrix (Fin rows.length) (VS n q) ℝ := fun r => rows[r]

theorem rowsSq_eq (rows : List (VS n q → ℝ)) (w : VS n q → ℝ) : rowsSq rows w = (rowMat rows *ᵥ w) ⬝ᵥ (rowMat rows *ᵥ w) := by
  unfold rowsSq
  rw [← Fin.sum_univ_fun_getElem]
  exact Finset.sum_congr rfl fun r _ => pow_two _

theorem svd_gram {rows : List (VS n q → ℝ)} {s : List ℝ} {vh : Matrix (Fin (n + q)) (VS n q) ℝ} (h : IsSvd rows s vh)
    (i j : Fin (n + q)) :
    (rowMat rows *ᵥ vh i) ⬝ᵥ (rowMat rows *ᵥ vh j) = if i = j then (s[i.1]?.getD 0) ^ 2 else 0 := by
  obtain ⟨U, hU, hA⟩ := h.left
  have key : ∀ i : Fin (n + q), (i.1 < s.length ∧ rowMat rows *ᵥ vh i = (s[i.1]?.getD 0) • U i) ∨
      (s.length ≤ i.1 ∧ rowMat rows *ᵥ vh i = 0) := by
    intro i
    rcases lt_or_ge i.1 s.length with hi | hi
    · left
      refine ⟨hi, ?_⟩
      funext r
      rw [List.getElem?_eq_getElem hi]
      exact hA i _ (List.getElem?_eq_getElem hi) r
    · exact Or.inr ⟨hi, funext fun r => h.rest i hi r⟩
  rcases key i with ⟨hi, ei⟩ | ⟨hi, ei⟩
  · rcases key j with ⟨hj, ej⟩ | ⟨hj, ej⟩
    · rw [ei, ej, smul_dotProduct, dotProduct_smul, hU i j hi hj]
      by_cases hij : i = j
      · subst hij; simp [pow_two]
      · simp [hij]
    · rw [ej, dotProduct_zero, if_neg (fun e => by rw [e] at hi; omega)]
  · rw [ei, zero_dotProduct]
    split_ifs
    · rw [List.getElem?_eq_none hi]; simp
    · rfl

theorem rowsSq_comb {rows : List (VS n q → ℝ)} {s : List ℝ} {vh : Matrix (Fin (n + q)) (VS n q) ℝ} (h : IsSvd rows s vh)
    {d : ℕ} (f : Fin d → Fin (n + q)) (hf : Function.Injective f) (u : Fin d → ℝ) (Z : Matrix (VS n q) (Fin d) ℝ)
    (hZ : ∀ x j, Z x j = vh (f j) x) :
    rowsSq rows (Z *ᵥ u) = ∑ j, u j ^ 2 * (s[(f j).1]?.getD 0) ^ 2 := by
  rw [rowsSq_eq]
  have e : rowMat rows *ᵥ (Z *ᵥ u) = ∑ j, u j • (rowMat rows *ᵥ vh (f j)) := by
    have : Z *ᵥ u = ∑ j, u j • vh (f j) := by
      funext x
      rw [Finset.sum_apply]
      change ∑ j, Z x j * u j = ∑ j, (u j • vh (f j)) x
      refine Finset.sum_congr rfl fun j _ => ?_
      rw [hZ, Pi.smul_apply, smul_eq_mul, mul_comm]
    rw [this, mulVec_sum]
    exact Finset.sum_congr rfl fun j _ => mulVec_smul _ _ _
  rw [e, sum_dotProduct]
  refine Finset.sum_congr rfl fun j _ => ?_
  rw [dotProduct_sum, Finset.sum_eq_single j]
  · rw [smul_dotProduct, dotProduct_smul, svd_gram h, if_pos rfl, smul_eq_mul, smul_eq_mul]; ring
  · intro k _ hk
    rw [smul_dotProduct, dotProduct_smul, svd_gram h, if_neg (fun e => hk (hf e).symm)]; simp
  · intro hn; exact absurd (Finset.mem_univ j) hn

theorem mem_nullIdx {N : ℕ} {eps : ℝ} {s : List ℝ} (i : Fin N) :
    i ∈ nullIdx N eps s ↔ ∀ v, s[i.1]? = some v → v ≤ eps := by
  unfold nullIdx
  rw [List.mem_filter]
  cases hs : s[i.1]? with
  | none => simp [List.mem_finRange]
  | some v => simp [List.mem_finRange]

theorem nullIdx_nodup (N : ℕ) (eps : ℝ) (s : List ℝ) : (nullIdx N eps s).Nodup := (List.nodup_finRange N).filter _

theorem nullIdx_inj (N : ℕ) (eps : ℝ) (s : List ℝ) : Function.Injective fun j : Fin (nullIdx N eps s).length => (nullIdx N eps s)[j] :=
  List.nodup_iff_injective_get.1 (nullIdx_nodup N eps s)

theorem nullIdx_card {N : ℕ} {eps : ℝ} {s : List ℝ} (hs : ∀ v ∈ s, eps < v) : (nullIdx N eps s).length = N - s.length := by
  have e : (nullIdx N eps s).toFinset = Finset.univ.filter fun i : Fin N => s.length ≤ i.1 := by
    ext i
    rw [List.mem_toFinset, mem_nullIdx, Finset.mem_filter]
    constructor
    · intro h
      refine ⟨Finset.mem_univ _, ?_⟩
      by_contra hc
      have hi : i.1 < s.length := by omega
      exact absurd (h _ (List.getElem?_eq_getElem hi)) (not_le.2 (hs _ (List.getElem_mem hi)))
    · rintro ⟨-, h⟩ v hv
      rw [List.getElem?_eq_none h] at hv; cases hv
  rw [← List.toFinset_card_of_nodup (nullIdx_nodup N eps s), e]
  have h1 : (Finset.univ.filter fun i : Fin N => i.1 < s.length).card = min N s.length := Fin.card_filter_val_lt
  have h2 := Finset.card_filter_add_card_filter_not (s := (Finset.univ : Finset (Fin N))) (fun i : Fin N => i.1 < s.length)
  simp only [not_lt, Finset.card_univ, Fintype.card_fin] at h2
  omega

variable {svd : List (VS n q → ℝ) → List ℝ × Matrix (Fin (n + q)) (VS n q) ℝ}

theorem nullSvd_orth {rows : List (VS n q → ℝ)} (h : IsSvd rows (svd rows).1 (svd rows).2) :
    (nullSvd svd rows).2ᵀ * (nullSvd svd rows).2 = 1 := by
  ext i j
  have e : ((svd rows).2 * (svd rows).2ᵀ) (nullIdx (n + q) (1 / 10 ^ 15) (svd rows).1)[i] (nullIdx (n + q) (1 / 10 ^ 15) (svd rows).1)[j]
      = ((nullSvd svd rows).2ᵀ * (nullSvd svd rows).2) i j := rfl
  rw [← e, h.orth, one_apply, one_apply]
  by_cases hij : i = j
  · rw [hij, if_pos rfl, if_pos rfl]
  · rw [if_neg hij]
    split_ifs with e'
    · exact absurd (nullIdx_inj _ _ _ e') hij
    · rfl

theorem nullSvd_len {rows : List (VS n q → ℝ)} (h : IsSvd rows (svd rows).1 (svd rows).2) (u : Fin (nullSvd svd rows).1 → ℝ) :
    ((nullSvd svd rows).2 *ᵥ u) ⬝ᵥ ((nullSvd svd rows).2 *ᵥ u) = u ⬝ᵥ u := by
  rw [dotProduct_mulVec, vecMul_mulVec, nullSvd_orth h, vecMul_one]

theorem nullSvd_rows {rows : List (VS n q → ℝ)} (h : IsSvd rows (svd rows).1 (svd rows).2) (u : Fin (nullSvd svd rows).1 → ℝ) :
    rowsSq rows ((nullSvd svd rows).2 *ᵥ u) =
      ∑ j : Fin (nullIdx (n + q) (1 / 10 ^ 15) (svd rows).1).length,
        u j ^ 2 * ((svd rows).1[((nullIdx (n + q) (1 / 10 ^ 15) (svd rows).1)[j]).1]?.getD 0) ^ 2 :=
  rowsSq_comb h _ (nullIdx_inj _ _ _) u _ fun _ _ => rfl

theorem nullSvd_small {rows : List (VS n q → ℝ)} (h : IsSvd rows (svd rows).1 (svd rows).2) (u : Fin (nullSvd svd rows).1 → ℝ) :
    rowsSq rows ((nullSvd svd rows).2 *ᵥ u) ≤ (1 / 10 ^ 15) ^ 2 * (u ⬝ᵥ u) := by
  rw [nullSvd_rows h]
  change _ ≤ (1 / 10 ^ 15) ^ 2 * ∑ j, u j * u j
  rw [Finset.mul_sum]
  refine Finset.sum_le_sum fun j _ => ?_
  have hm := (mem_nullIdx (nullIdx (n + q) (1 / 10 ^ 15) (svd rows).1)[j]).1 (List.getElem_mem _)
  generalize (nullIdx (n + q) (1 / 10 ^ 15) (svd rows).1)[j] = i at hm
  have hv : ((svd rows).1[i.1]?.getD 0) ^ 2 ≤ ((1 : ℝ) / 10 ^ 15) ^ 2 := by
    cases hs : (svd rows).1[i.1]? with
    | none => simp
    | some v => exact pow_le_pow_left₀ (h.nonneg v (List.mem_of_getElem? hs)) (hm v hs) 2
  nlinarith [sq_nonneg (u j)]

theorem nullSvd_zero {rows : List (VS n q → ℝ)} (h : IsSvd rows (svd rows).1 (svd rows).2)
    (hz : ∀ v ∈ (svd rows).1, v ≤ 1 / 10 ^ 15 → v = 0) (u : Fin (nullSvd svd rows).1 → ℝ) :
    rowsSq rows ((nullSvd svd rows).2 *ᵥ u) = 0 := by
  rw [nullSvd_rows h]
  refine Finset.sum_eq_zero fun j _ => ?_
  have hm := (mem_nullIdx (nullIdx (n + q) (1 / 10 ^ 15) (svd rows).1)[j]).1 (List.getElem_mem _)
  generalize (nullIdx (n + q) (1 / 10 ^ 15) (svd rows).1)[j] = i at hm
  cases hs : (svd rows).1[i.1]? with
  | none => simp
  | some v => simp [hz v (List.mem_of_getElem? hs) (hm v hs)]

theorem rowsSq_zero_iff (rows : List (VS n q → ℝ)) (w : VS n q → ℝ) : rowsSq rows w = 0 ↔ ∀ a ∈ rows, a ⬝ᵥ w = 0 := by
  unfold rowsSq
  induction rows with
  | nil => simp
  | cons a l ih =>
    have hn : 0 ≤ (l.map fun a => (a ⬝ᵥ w) ^ 2).sum := List.sum_nonneg (by
      intro x hx
      obtain ⟨b, -, rfl⟩ := List.mem_map.1 hx
      exact sq_nonneg _)
    rw [List.map_cons, List.sum_cons, List.forall_mem_cons, ← ih]
    constructor
    · intro h
      have h1 : (a ⬝ᵥ w) ^ 2 = 0 := by nlinarith [sq_nonneg (a ⬝ᵥ w)]
      exact ⟨pow_eq_zero_iff (two_ne_zero) |>.1 h1, by linarith⟩
    · rintro ⟨h1, h2⟩; rw [h1, h2]; ring

/-- Every vector orthogonal to the rows is a combination of the columns. -/
theorem nullSvd_complete {rows : List (VS n q → ℝ)} (h : IsSvd rows (svd rows).1 (svd rows).2) (w : VS n q → ℝ)
    (hw : ∀ a ∈ rows, a ⬝ᵥ w = 0) : ∃ u, w = (nullSvd svd rows).2 *ᵥ u ∧ u ⬝ᵥ u = w ⬝ᵥ w := by
  have hc : (svd rows).2ᵀ * (svd rows).2 = 1 :=
    (mul_eq_one_comm_of_equiv (finSumFinEquiv.symm : Fin (n + q) ≃ Fin n ⊕ Fin q)).1 h.orth
  have hw2 : w = (svd rows).2ᵀ *ᵥ ((svd rows).2 *ᵥ w) := by rw [mulVec_mulVec, hc, one_mulVec]
  have h0 := (rowsSq_zero_iff rows w).2 hw
  rw [hw2, rowsSq_comb h id Function.injective_id ((svd rows).2 *ᵥ w) (svd rows).2ᵀ (fun _ _ => rfl),
    Finset.sum_eq_zero_iff_of_nonneg (fun i _ => by positivity)] at h0
  set c := (svd rows).2 *ᵥ w with hcd
  set S := nullIdx (n + q) (1 / 10 ^ 15) (svd rows).1 with hS
  have hc0 : ∀ i, i ∉ S → c i = 0 := by
    intro i hi
    rw [hS, mem_nullIdx] at hi
    push Not at hi
    obtain ⟨v, hv, hlt⟩ := hi
    have := h0 i (Finset.mem_univ _)
    simp only [id] at this
    rw [hv, Option.getD_some] at this
    have hv0 : v ^ 2 ≠ 0 := pow_ne_zero 2 (by have : (0 : ℝ) < 1 / 10 ^ 15 := by positivity
                                              linarith)
    have := (mul_eq_zero.1 this).resolve_right hv0
    exact (pow_eq_zero_iff two_ne_zero).1 this
  have hsum : ∀ f : Fin (n + q) → ℝ, (∀ i, i ∉ S → f i = 0) → ∑ i, f i = ∑ j : Fin S.length, f S[j] := by
    intro f hf
    have e1 : ∑ j : Fin S.length, f S[j] = (S.map f).sum := Fin.sum_univ_fun_getElem S f
    rw [e1, ← List.sum_toFinset f (nullIdx_nodup _ _ _)]
    symm
    refine Finset.sum_subset (Finset.subset_univ _) fun i _ hi => hf i ?_
    rwa [List.mem_toFinset] at hi
  have hwz : w = (nullSvd svd rows).2 *ᵥ (fun j : Fin S.length => c S[j]) := by
    conv_lhs => rw [hw2]
    funext x
    change ∑ i, (svd rows).2 i x * c i = ∑ j : Fin S.length, (svd rows).2 S[j] x * c S[j]
    exact hsum (fun i => (svd rows).2 i x * c i) fun i hi => by simp only [hc0 i hi, mul_zero]
  have hl := nullSvd_len h (fun j : Fin S.length => c S[j])
  rw [← hwz] at hl
  exact ⟨fun j : Fin S.length => c S[j], hwz, hl.symm⟩

/-- The reduced model is the model of the step. -/
theorem tang_reduced {d : ℕ} (Z : Matrix (VS n q) (Fin d) ℝ) (M : Matrix (VS n q) (VS n q) ℝ) (g : VS n q → ℝ) (u : Fin d → ℝ) :
    quadModel (Zᵀ * (M * Z)) (-(Zᵀ *ᵥ g)) u = tangModel M g (Z *ᵥ u) := by
  unfold quadModel tangModel
  have e1 : u ⬝ᵥ (Zᵀ * (M * Z)) *ᵥ u = Z *ᵥ u ⬝ᵥ M *ᵥ (Z *ᵥ u) := by
    rw [← mulVec_mulVec, ← mulVec_mulVec, dotProduct_mulVec, vecMul_transpose]
  have e2 : (Zᵀ *ᵥ g) ⬝ᵥ u = g ⬝ᵥ Z *ᵥ u := by rw [dotProduct_mulVec, mulVec_transpose]
  rw [e1, neg_dotProduct, e2]; ring

/-- C96: the tangent step for a singular value decomposition that is what it should be.  The step stays in the region and reaches its
border if it is reported active; the products with the rows are within `1e-15` times its length; the model does not grow; and if no
singular value lies strictly between `0` and `1e-15`, the step is exactly orthogonal to the rows. -/
theorem C96_tangent (m : ℕ) (prec : ℝ) (rows : List (VS n q → ℝ)) (M : Matrix (VS n q) (VS n q) ℝ) (g : VS n q → ℝ) (δ : ℝ)
    (hδ : 0 < δ) (hM : Mᵀ = M) (h : IsSvd rows (svd rows).1 (svd rows).2) :
    let o := cgTang (nullSvd svd) prec m rows M g δ
    o.1 ⬝ᵥ o.1 ≤ δ ^ 2 ∧ (o.2 = true → o.1 ⬝ᵥ o.1 = δ ^ 2) ∧
    rowsSq rows o.1 ≤ (1 / 10 ^ 15) ^ 2 * (o.1 ⬝ᵥ o.1) ∧
    tangModel M g o.1 ≤ 0 ∧
    ((∀ v ∈ (svd rows).1, v ≤ 1 / 10 ^ 15 → v = 0) → ∀ a ∈ rows, a ⬝ᵥ o.1 = 0) := by
  intro o
  set Z := (nullSvd svd rows).2 with hZ
  set c := truncCG (Zᵀ * (M * Z)) (-(Zᵀ *ᵥ g)) δ prec (20 * (n + q - (m + q))) with hcd
  have ho : o = (Z *ᵥ c.x, decide (c.flag = 1 ∨ c.flag = 2)) := rfl
  have hlen : o.1 ⬝ᵥ o.1 = c.x ⬝ᵥ c.x := by
    rw [ho]
    change Z *ᵥ c.x ⬝ᵥ Z *ᵥ c.x = _
    rw [dotProduct_mulVec, vecMul_mulVec, nullSvd_orth h, vecMul_one]
  have hsym : ∀ i j, (Zᵀ * (M * Z)) i j = (Zᵀ * (M * Z)) j i := by
    intro i j
    have e : (Zᵀ * (M * Z))ᵀ = Zᵀ * (M * Z) := by
      rw [transpose_mul, transpose_mul, transpose_transpose, hM, Matrix.mul_assoc]
    conv_lhs => rw [← e]
    rfl
  have h28 := C28_in_trust_region (Zᵀ * (M * Z)) (-(Zᵀ *ᵥ g)) δ prec hδ (20 * (n + q - (m + q)))
  rw [← hcd] at h28
  refine ⟨?_, ?_, ?_, ?_, ?_⟩
  · rw [hlen]
    exact (Real.sqrt_le_left hδ.le).1 h28.1
  · intro ha
    rw [hlen]
    rw [ho] at ha
    have := h28.2 (of_decide_eq_true ha)
    rw [← this, Real.sq_sqrt (dot_self_nonneg _)]
  · rw [hlen]; exact nullSvd_small h c.x
  · have := (C30_model_decreases (Zᵀ * (M * Z)) hsym (-(Zᵀ *ᵥ g)) δ prec (20 * (n + q - (m + q)))).1
    rw [tang_reduced] at this
    exact this
  · intro hz
    exact (rowsSq_zero_iff rows _).1 (nullSvd_zero h hz c.x)

/-- C96: how good the tangent step is.  If all singular values exceed `1e-15` and there are at least as many rows as equality
constraints and slacks, then a step that is not reported active has a gradient of at most `prec` along every tangent direction, and if
the model is convex along the tangent directions, no tangent vector at all is better by more than `prec` times its distance. -/
theorem C96_optimal (m : ℕ) (prec : ℝ) (hp : 0 ≤ prec) (rows : List (VS n q → ℝ)) (M : Matrix (VS n q) (VS n q) ℝ) (g : VS n q → ℝ)
    (δ : ℝ) (hM : Mᵀ = M) (h : IsSvd rows (svd rows).1 (svd rows).2)
    (hrank : ∀ v ∈ (svd rows).1, 1 / 10 ^ 15 < v) (hk : m + q ≤ rows.length)
    (hact : (cgTang (nullSvd svd) prec m rows M g δ).2 = false) :
    let t := (cgTang (nullSvd svd) prec m rows M g δ).1
    (∀ w, (∀ a ∈ rows, a ⬝ᵥ w = 0) → |w ⬝ᵥ (g + M *ᵥ t)| ≤ prec * Real.sqrt (w ⬝ᵥ w)) ∧
    ((∀ w, (∀ a ∈ rows, a ⬝ᵥ w = 0) → 0 ≤ w ⬝ᵥ M *ᵥ w) →
      ∀ w, (∀ a ∈ rows, a ⬝ᵥ w = 0) →
        tangModel M g t ≤ tangModel M g w + prec * Real.sqrt ((w - t) ⬝ᵥ (w - t))) := by
  intro t
  set Z := (nullSvd svd rows).2 with hZ
  set c := truncCG (Zᵀ * (M * Z)) (-(Zᵀ *ᵥ g)) δ prec (20 * (n + q - (m + q))) with hcd
  have ht : t = Z *ᵥ c.x := rfl
  have hact' : ¬ (c.flag = 1 ∨ c.flag = 2) := of_decide_eq_false hact
  have hsymT : (Zᵀ * (M * Z))ᵀ = Zᵀ * (M * Z) := by
    rw [transpose_mul, transpose_mul, transpose_transpose, hM, Matrix.mul_assoc]
  have hd : (nullSvd svd rows).1 ≤ 20 * (n + q - (m + q)) := by
    have e : (nullSvd svd rows).1 = n + q - (svd rows).1.length := nullIdx_card hrank
    rw [e, h.len]
    omega
  have h63 := (C63_finite (A := Zᵀ * (M * Z)) (b := -(Zᵀ *ᵥ g)) δ prec (20 * (n + q - (m + q))) hsymT hd).1
  have h29 := C29_status_truthful (Zᵀ * (M * Z)) (-(Zᵀ *ᵥ g)) δ prec hp (20 * (n + q - (m + q)))
  have hflag : c.flag = 0 := by
    rcases h29.2.2.2.1 with e | e | e | e
    · exact e
    · exact absurd e h63
    · exact absurd (Or.inl e) hact'
    · exact absurd (Or.inr e) hact'
  have hres := (h29.1 hflag).1
  have er : (Zᵀ * (M * Z)) *ᵥ c.x - -(Zᵀ *ᵥ g) = Zᵀ *ᵥ (g + M *ᵥ t) := by
    rw [ht, mulVec_add, sub_neg_eq_add, add_comm, ← mulVec_mulVec, ← mulVec_mulVec]
  have hfirst : ∀ w, (∀ a ∈ rows, a ⬝ᵥ w = 0) → |w ⬝ᵥ (g + M *ᵥ t)| ≤ prec * Real.sqrt (w ⬝ᵥ w) := by
    intro w hw
    obtain ⟨u, hu, hul⟩ := nullSvd_complete h w hw
    have e : w ⬝ᵥ (g + M *ᵥ t) = u ⬝ᵥ Zᵀ *ᵥ (g + M *ᵥ t) := by
      rw [dotProduct_mulVec, vecMul_transpose, ← hu]
    have hres' : Real.sqrt ((Zᵀ *ᵥ (g + M *ᵥ t)) ⬝ᵥ (Zᵀ *ᵥ (g + M *ᵥ t))) ≤ prec := by
      rw [← er]; exact hres
    rw [e, ← hul]
    generalize Zᵀ *ᵥ (g + M *ᵥ t) = y at hres'
    have hcs : (u ⬝ᵥ y) ^ 2 ≤ (u ⬝ᵥ u) * (y ⬝ᵥ y) := by
      have := Finset.sum_mul_sq_le_sq_mul_sq Finset.univ u y
      simpa [dotProduct, pow_two] using this
    have h1 : |u ⬝ᵥ y| ≤ Real.sqrt (u ⬝ᵥ u) * Real.sqrt (y ⬝ᵥ y) := by
      rw [← Real.sqrt_mul (dot_self_nonneg u)]
      exact Real.abs_le_sqrt hcs
    nlinarith [Real.sqrt_nonneg (u ⬝ᵥ u)]
  refine ⟨hfirst, ?_⟩
  intro hpsd w hw
  have htt : ∀ a ∈ rows, a ⬝ᵥ t = 0 :=
    (rowsSq_zero_iff rows _).1 (nullSvd_zero h (fun v hv hle => absurd hle (not_le.2 (hrank v hv))) c.x)
  have hd0 : ∀ a ∈ rows, a ⬝ᵥ (w - t) = 0 := fun a ha => by rw [dotProduct_sub, hw a ha, htt a ha, sub_zero]
  have h1 := hfirst _ hd0
  have h2 := hpsd _ hd0
  have e : tangModel M g w = tangModel M g t + (w - t) ⬝ᵥ (g + M *ᵥ t) + (w - t) ⬝ᵥ M *ᵥ (w - t) / 2 := by
    have es : t ⬝ᵥ M *ᵥ w = w ⬝ᵥ M *ᵥ t := by
      rw [dotProduct_mulVec, ← mulVec_transpose, hM, dotProduct_comm]
    unfold tangModel
    simp only [sub_dotProduct, dotProduct_add, mulVec_sub, dotProduct_sub, es, dotProduct_comm g]
    ring
  have h3 := neg_abs_le ((w - t) ⬝ᵥ (g + M *ᵥ t))
  linarith

/-! ### A concrete case: one row `(3, 4)`, gradient `(-4, 3)`, model matrix `1` -/

/-- The row. -/
def Ex.tRow : VS 2 0 → ℝ := Sum.elim ![3, 4] ![]
/-- The gradient. -/
def Ex.tGrad : VS 2 0 → ℝ := Sum.elim ![-4, 3] ![]
/-- The decomposition. -/
noncomputable def Ex.tSvd (_ : List (VS 2 0 → ℝ)) : List ℝ × Matrix (Fin (2 + 0)) (VS 2 0) ℝ :=
  ([5], fun i => Sum.elim (![![3 / 5, 4 / 5], ![-4 / 5, 3 / 5]] i) ![])

theorem Ex.tSvd_spec : IsSvd [Ex.tRow] (Ex.tSvd [Ex.tRow]).1 (Ex.tSvd [Ex.tRow]).2 where
  len := rfl
  nonneg := by simp [Ex.tSvd]
  orth := by
    ext i j
    rw [mul_apply]
    simp only [transpose_apply]
    fin_cases i <;> fin_cases j <;> simp [Ex.tSvd, one_apply, Fintype.sum_sum_type, Fin.sum_univ_two] <;> norm_num
  left := by
    refine ⟨fun _ _ => 1, ?_, ?_⟩
    · intro i j hi hj
      have hi' : i.1 < 1 := hi
      have hj' : j.1 < 1 := hj
      have e : i = j := Fin.ext (by omega)
      rw [if_pos e]
      change ∑ _r : Fin 1, (1 : ℝ) * 1 = 1
      simp
    · intro i v hv r
      fin_cases i
      · have e : (5 : ℝ) = v := by simpa [Ex.tSvd] using hv
        fin_cases r
        rw [← e]
        simp [Ex.tSvd, Ex.tRow, dotProduct, Fintype.sum_sum_type, Fin.sum_univ_two]
        norm_num
      · simp [Ex.tSvd] at hv
  rest := by
    intro i hi r
    fin_cases i
    · simp [Ex.tSvd] at hi
    · fin_cases r
      simp [Ex.tSvd, Ex.tRow, dotProduct, Fintype.sum_sum_type, Fin.sum_univ_two]
      norm_num

/-- Radius 100: the step is inside the region, lies on the line along `(4, -3)` and its gradient there is at most `prec`. -/
example : let o := cgTang (nullSvd Ex.tSvd) (1 / 10) 1 [Ex.tRow] 1 Ex.tGrad 100
    o.2 = false ∧ Ex.tRow ⬝ᵥ o.1 = 0 ∧ |Ex.tGrad ⬝ᵥ (Ex.tGrad + o.1)| ≤ 1 / 10 * Real.sqrt (Ex.tGrad ⬝ᵥ Ex.tGrad) := by
  intro o
  obtain ⟨h1, h2, -, h4, h5⟩ := C96_tangent (svd := Ex.tSvd) 1 (1 / 10) [Ex.tRow] 1 Ex.tGrad 100 (by norm_num) transpose_one Ex.tSvd_spec
  have hr : ∀ v ∈ (Ex.tSvd [Ex.tRow]).1, (1 : ℝ) / 10 ^ 15 < v := by
    intro v hv
    have : v = 5 := by simpa [Ex.tSvd] using hv
    rw [this]; norm_num
  have hact : o.2 = false := by
    by_contra hc
    have ht := h2 ((Bool.not_eq_false _).mp hc)
    have hm : Ex.tGrad ⬝ᵥ o.1 + o.1 ⬝ᵥ o.1 / 2 ≤ 0 := by
      have := h4
      unfold tangModel at this
      rwa [one_mulVec] at this
    change o.1 ⬝ᵥ o.1 = 100 ^ 2 at ht
    have hg : Ex.tGrad ⬝ᵥ o.1 = -4 * o.1 (.inl 0) + 3 * o.1 (.inl 1) := by
      simp [Ex.tGrad, dotProduct, Fintype.sum_sum_type, Fin.sum_univ_two]
    have ho : o.1 ⬝ᵥ o.1 = o.1 (.inl 0) * o.1 (.inl 0) + o.1 (.inl 1) * o.1 (.inl 1) := by
      simp [dotProduct, Fintype.sum_sum_type, Fin.sum_univ_two]
    rw [hg, ho] at hm
    rw [ho] at ht
    nlinarith [sq_nonneg (o.1 (.inl 0) - 8), sq_nonneg (o.1 (.inl 1) + 6), sq_nonneg (o.1 (.inl 0)), sq_nonneg (o.1 (.inl 1))]
  have htan : ∀ a ∈ [Ex.tRow], a ⬝ᵥ Ex.tGrad = 0 := by
    simp [Ex.tGrad, Ex.tRow, dotProduct, Fintype.sum_sum_type, Fin.sum_univ_two]
    norm_num
  refine ⟨hact, h5 (fun v hv hle => absurd hle (not_le.2 (hr v hv))) _ (by simp), ?_⟩
  have := (C96_optimal (svd := Ex.tSvd) 1 (1 / 10) (by norm_num) [Ex.tRow] 1 Ex.tGrad 100 transpose_one Ex.tSvd_spec hr (by simp) hact).1
    Ex.tGrad htan
  rwa [one_mulVec] at this

#print axioms C96_tangent
#print axioms C96_optimal

end Sqpdfo
