import Verif.Model.Norm
import Verif.Props.C105_C106_Runtime
import Verif.Props.C112_Cauchy
import Mathlib.Topology.MetricSpace.ProperSpace.Lemmas
import Mathlib.Topology.Order.Compact

/-!
# C117: `norm_` gives the norm of a vector whatever its shape
-/

namespace Sqpdfo
open Matrix

namespace Spec

/-- The array is a vector: one dimension, one row or one column. -/
def IsVector {α : Type} : Arr α → Prop
  | .d1 _ => True
  | .d2 c rows => rows.length = 1 ∨ c = 1

/-- `r` is the largest absolute value, 0 if there is no entry. -/
structure LargestAbs (l : List ℝ) (r : ℝ) : Prop where
  bound : ∀ x ∈ l, |x| ≤ r
  attained : l = [] ∧ r = 0 ∨ ∃ x ∈ l, |x| = r

/-- The Euclidean length. -/
noncomputable def euclid (l : List ℝ) : ℝ := Real.sqrt (l.map fun x => x ^ 2).sum

/-- The largest factor by which a matrix lengthens a vector. -/
structure Lengthens {r c : ℕ} (A : Matrix (Fin r) (Fin c) ℝ) (σ : ℝ) : Prop where
  nonneg : 0 ≤ σ
  bound : ∀ v, (A *ᵥ v) ⬝ᵥ (A *ᵥ v) ≤ σ ^ 2 * (v ⬝ᵥ v)
  attained : ∃ v, 0 < v ⬝ᵥ v ∧ (A *ᵥ v) ⬝ᵥ (A *ᵥ v) = σ ^ 2 * (v ⬝ᵥ v)

/-- What is assumed of the largest singular value. -/
def GoodSigma (sig : SigmaMax) : Prop := ∀ r c (A : Matrix (Fin r) (Fin c) ℝ), 0 < c → Lengthens A (sig r c A)

end Spec
open Spec

/-! ### The largest singular value exists -/

theorem exists_lengthens {r c : ℕ} (A : Matrix (Fin r) (Fin c) ℝ) (hc : 0 < c) : ∃ σ, Lengthens A σ := by
  have hcont : Continuous fun v : Fin c → ℝ => v ⬝ᵥ v := by unfold dotProduct; fun_prop
  have hcont2 : Continuous fun v : Fin c → ℝ => (A *ᵥ v) ⬝ᵥ (A *ᵥ v) := by unfold mulVec dotProduct; fun_prop
  have hcomp : IsCompact {v : Fin c → ℝ | v ⬝ᵥ v = 1} := by
    refine Metric.isCompact_of_isClosed_isBounded (isClosed_eq hcont continuous_const) ?_
    refine (Metric.isBounded_iff_subset_closedBall 0).2 ⟨1, fun v hv => ?_⟩
    rw [mem_closedBall_zero_iff, pi_norm_le_iff_of_nonneg zero_le_one]
    intro i
    have h1 : v i * v i ≤ v ⬝ᵥ v := Finset.single_le_sum (f := fun j => v j * v j) (fun j _ => mul_self_nonneg _) (Finset.mem_univ i)
    rw [show v ⬝ᵥ v = 1 from hv] at h1
    rw [Real.norm_eq_abs]
    exact abs_le_one_iff_mul_self_le_one.2 h1
  have hne : {v : Fin c → ℝ | v ⬝ᵥ v = 1}.Nonempty := ⟨Pi.single ⟨0, hc⟩ 1, by simp⟩
  obtain ⟨u, hu, hmax⟩ := hcomp.exists_isMaxOn hne hcont2.continuousOn
  have hu1 : u ⬝ᵥ u = 1 := hu
  have h0 : 0 ≤ (A *ᵥ u) ⬝ᵥ (A *ᵥ u) := ms_dot_self_nonneg _
  refine ⟨Real.sqrt ((A *ᵥ u) ⬝ᵥ (A *ᵥ u)), Real.sqrt_nonneg _, fun v => ?_, u, by rw [hu1]; norm_num, ?_⟩
  · rw [Real.sq_sqrt h0]
    rcases (ms_dot_self_nonneg v).eq_or_lt with h | h
    · have hv : v = 0 := dotProduct_self_eq_zero.1 h.symm
      simp [hv]
    · have hs := Real.sqrt_pos.2 h
      have h2 : Real.sqrt (v ⬝ᵥ v) * Real.sqrt (v ⬝ᵥ v) = v ⬝ᵥ v := Real.mul_self_sqrt h.le
      have h3 : ((Real.sqrt (v ⬝ᵥ v))⁻¹ • v) ∈ {v : Fin c → ℝ | v ⬝ᵥ v = 1} := by
        show ((Real.sqrt (v ⬝ᵥ v))⁻¹ • v) ⬝ᵥ ((Real.sqrt (v ⬝ᵥ v))⁻¹ • v) = 1
        rw [smul_dotProduct, dotProduct_smul, smul_eq_mul, smul_eq_mul, ← mul_assoc, ← mul_inv, h2, inv_mul_cancel₀ h.ne']
      have h4 : (A *ᵥ ((Real.sqrt (v ⬝ᵥ v))⁻¹ • v)) ⬝ᵥ (A *ᵥ ((Real.sqrt (v ⬝ᵥ v))⁻¹ • v)) ≤ (A *ᵥ u) ⬝ᵥ (A *ᵥ u) := hmax h3
      rw [mulVec_smul, smul_dotProduct, dotProduct_smul, smul_eq_mul, smul_eq_mul, ← mul_assoc, ← mul_inv, h2, inv_mul_le_iff₀ h] at h4
      linarith
  · rw [hu1, Real.sq_sqrt h0, mul_one]

theorem exists_goodSigma : ∃ sig, GoodSigma sig := by
  classical
  refine ⟨fun r c A => if h : 0 < c then (exists_lengthens A h).choose else 0, fun r c A h => ?_⟩
  simp only [h, dif_pos]
  exact (exists_lengthens A h).choose_spec

theorem lengthens_unique {r c : ℕ} {A : Matrix (Fin r) (Fin c) ℝ} {σ τ : ℝ} (h : Lengthens A σ) (h' : Lengthens A τ) : σ = τ := by
  have key : ∀ {a b : ℝ}, Lengthens A a → Lengthens A b → a ≤ b := by
    intro a b ha hb
    obtain ⟨v, v0, hv⟩ := ha.attained
    have := hb.bound v
    rw [hv] at this
    exact (pow_le_pow_iff_left₀ ha.nonneg hb.nonneg two_ne_zero).1 (le_of_mul_le_mul_right this v0)
  exact le_antisymm (key h h') (key h' h)

/-! ### Lists -/

theorem listMax_spec : ∀ (l : List ℝ) (b : ℝ), 0 ≤ b → (∀ x ∈ l, 0 ≤ x) →
    (∀ x ∈ l, x ≤ l.foldl max b) ∧ b ≤ l.foldl max b ∧ (l.foldl max b = b ∨ l.foldl max b ∈ l) := by
  intro l
  induction l with
  | nil => intro b _ _; simp
  | cons a l ih =>
    intro b hb h
    obtain ⟨h1, h2, h3⟩ := ih (max b a) (le_max_of_le_left hb) (fun x hx => h x (List.mem_cons_of_mem _ hx))
    simp only [List.foldl_cons]
    refine ⟨fun x hx => ?_, le_trans (le_max_left _ _) h2, ?_⟩
    · rcases List.mem_cons.1 hx with rfl | hx
      · exact le_trans (le_max_right _ _) h2
      · exact h1 x hx
    · rcases h3 with h3 | h3
      · rcases max_choice b a with h4 | h4
        · left; rw [h3, h4]
        · right; rw [h3, h4]; exact List.mem_cons_self
      · right; exact List.mem_cons_of_mem _ h3

theorem listMax_largest (l : List ℝ) (f : List ℝ → List ℝ) (hf : f l = l.map fun x => |x|) : LargestAbs l (listMax (f l)) := by
  rw [hf]
  obtain ⟨h1, h2, h3⟩ := listMax_spec (l.map fun x => |x|) 0 le_rfl (by
    intro x hx; obtain ⟨y, -, rfl⟩ := List.mem_map.1 hx; exact abs_nonneg y)
  refine ⟨fun x hx => h1 _ (List.mem_map_of_mem hx), ?_⟩
  rcases h3 with h3 | h3
  · cases l with
    | nil => left; exact ⟨rfl, rfl⟩
    | cons a l =>
      right
      refine ⟨a, List.mem_cons_self, ?_⟩
      have := h1 |a| (by simp)
      unfold listMax
      rw [h3] at this ⊢
      exact le_antisymm this (abs_nonneg a)
  · right
    obtain ⟨y, hy, h4⟩ := List.mem_map.1 h3
    exact ⟨y, hy, h4⟩

theorem flat_entries {α : Type} (a : Arr α) : a.flat = Spec.entries a := by cases a <;> rfl

theorem isVec_iff {α : Type} {a : Arr α} (hw : a.WF) (hf : Spec.Filled a) : a.isVec = true ↔ IsVector a := by
  have he : a.isEmpty = false := (Arr.filled_iff hw).1 hf
  unfold Arr.isVec
  rw [he]
  cases a with
  | d1 l => simp only [Arr.shape, IsVector, List.length_singleton]; simp
  | d2 c rows =>
    simp only [Arr.shape, IsVector, Bool.not_false, Bool.true_and, decide_eq_true_eq, List.length_cons, List.length_nil, List.count_cons,
      List.count_nil, beq_iff_eq]
    by_cases h1 : rows.length = 1 <;> by_cases h2 : c = 1 <;> simp [h1, h2]

theorem row_lengthens (l : List ℝ) (hl : l ≠ []) : Lengthens (rowsMat l.length [l]) (euclid l) := by
  set w : Fin l.length → ℝ := fun j => l.getD j 0 with hw
  have hww : w ⬝ᵥ w = (l.map fun x => x ^ 2).sum := by
    have : l.map (fun x => x ^ 2) = List.ofFn fun j : Fin l.length => w j * w j := by
      apply List.ext_getElem
      · simp
      · intro i h1 h2
        have h3 : i < l.length := by simpa using h1
        simp [hw, List.getD_eq_getElem?_getD, h3, sq]
    rw [this, List.sum_ofFn]; rfl
  have hA : ∀ v, (rowsMat l.length [l] *ᵥ v) ⬝ᵥ (rowsMat l.length [l] *ᵥ v) = (w ⬝ᵥ v) ^ 2 := by
    intro v
    have : ∀ u : Fin [l].length → ℝ, u ⬝ᵥ u = u ⟨0, by simp⟩ ^ 2 := fun u => by
      show ∑ i : Fin 1, u i * u i = _
      rw [Fin.sum_univ_one, sq]; rfl
    rw [this]; rfl
  have h0 : 0 ≤ w ⬝ᵥ w := ms_dot_self_nonneg w
  have he : euclid l ^ 2 = w ⬝ᵥ w := by unfold euclid; rw [← hww, Real.sq_sqrt h0]
  refine ⟨Real.sqrt_nonneg _, fun v => ?_, ?_⟩
  · rw [hA, he]
    have := Finset.sum_mul_sq_le_sq_mul_sq Finset.univ w v
    simpa [dotProduct, sq] using this
  · rcases h0.eq_or_lt with h | h
    · have hw0 : w = 0 := dotProduct_self_eq_zero.1 h.symm
      refine ⟨Pi.single ⟨0, List.length_pos_of_ne_nil hl⟩ 1, by simp, ?_⟩
      rw [hA, he, hw0]; simp
    · exact ⟨w, h, by rw [hA, he, sq]⟩

/-! ### The statements -/

/-- **C117.**  The order 2 of a vector is its Euclidean length, for each of the shapes `(n,)`, `(n,1)`, `(1,n)`. -/
theorem C117_two {sig : SigmaMax} (hs : GoodSigma sig) {a : Arr ℝ} (hw : a.WF) (hv : IsVector a) :
    normU sig a .two = some (euclid (Spec.entries a)) := by
  unfold normU
  cases he : a.isEmpty with
  | true =>
    rw [if_pos rfl, (Arr.isEmpty_iff hw).1 he]
    simp [euclid]
  | false =>
    have hf := (Arr.filled_iff hw).2 he
    rw [if_neg (by simp), (isVec_iff hw hf).2 hv, if_pos rfl]
    simp only [npNorm, Arr.toRow, flat_entries]
    refine congrArg some (lengthens_unique (hs _ _ _ ?_) (row_lengthens _ hf))
    exact List.length_pos_of_ne_nil hf

/-- **C117.**  The order `inf` of a vector is its largest absolute entry, for each shape. -/
theorem C117_inf (sig : SigmaMax) {a : Arr ℝ} (hw : a.WF) (hv : IsVector a) :
    ∃ r, normU sig a .inf = some r ∧ LargestAbs (Spec.entries a) r := by
  unfold normU
  cases he : a.isEmpty with
  | true =>
    rw [if_pos rfl, (Arr.isEmpty_iff hw).1 he]
    exact ⟨0, rfl, by simp, Or.inl ⟨rfl, rfl⟩⟩
  | false =>
    have hf := (Arr.filled_iff hw).2 he
    rw [if_neg (by simp), (isVec_iff hw hf).2 hv, if_pos rfl]
    simp only [npNorm, Arr.toCol, flat_entries]
    refine ⟨_, rfl, ?_⟩
    refine listMax_largest _ (fun l => (l.map fun x => [x]).map fun r => (r.map fun x => |x|).sum) ?_
    simp [Function.comp_def]

/-- **C117.**  The norms of a vector do not depend on its shape. -/
theorem C117_shape {sig : SigmaMax} (hs : GoodSigma sig) {a b : Arr ℝ} (ha : a.WF) (hb : b.WF) (va : IsVector a) (vb : IsVector b)
    (h : Spec.entries a = Spec.entries b) (o : NormOrd) (ho : o ≠ .fro) : normU sig a o = normU sig b o := by
  cases o with
  | two => rw [C117_two hs ha va, C117_two hs hb vb, h]
  | inf =>
    obtain ⟨r, h1, h2⟩ := C117_inf sig ha va
    obtain ⟨t, h3, h4⟩ := C117_inf sig hb vb
    rw [h1, h3]
    rw [← h] at h4
    have key : ∀ {x y : ℝ}, LargestAbs (Spec.entries a) x → LargestAbs (Spec.entries a) y → x ≤ y := by
      intro x y hx hy
      rcases hx.attained with ⟨e1, e2⟩ | ⟨z, z1, rfl⟩
      · rcases hy.attained with ⟨-, e3⟩ | ⟨z, z1, -⟩
        · rw [e2, e3]
        · rw [e1] at z1; cases z1
      · exact hy.bound z z1
    exact congrArg some (le_antisymm (key h2 h4) (key h4 h2))
  | fro => exact absurd rfl ho

/-- **C117.**  For a matrix with several rows and columns: the largest singular value, the largest sum of absolute values in a row, and the
length of all entries. -/
theorem C117_matrix {sig : SigmaMax} (hs : GoodSigma sig) {c : ℕ} {rows : List (List ℝ)} (hw : (Arr.d2 c rows).WF) (hr : 2 ≤ rows.length)
    (hc : 2 ≤ c) :
    (∃ σ, normU sig (.d2 c rows) .two = some σ ∧
      ∀ A : Matrix (Fin rows.length) (Fin c) ℝ, (∀ (i : Fin rows.length) (j : Fin c), rows[i][(j : ℕ)]? = some (A i j)) → Lengthens A σ) ∧
    (∃ m, normU sig (.d2 c rows) .inf = some m ∧ (∀ r ∈ rows, (r.map fun x => |x|).sum ≤ m) ∧ ∃ r ∈ rows, (r.map fun x => |x|).sum = m) ∧
    normU sig (.d2 c rows) .fro = some (euclid rows.flatten) := by
  have he : (Arr.d2 c rows).isEmpty = false := by
    simp only [Arr.isEmpty, Arr.shape, decide_eq_false_iff_not, List.mem_cons, List.not_mem_nil, or_false]
    omega
  have hv : (Arr.d2 c rows).isVec = false := by
    rw [← Bool.not_eq_true, isVec_iff hw ((Arr.filled_iff hw).2 he)]
    simp only [IsVector]; omega
  unfold normU
  rw [he, hv]
  simp only [Bool.false_eq_true, if_false, npNorm]
  refine ⟨⟨_, rfl, fun A hA => ?_⟩, ⟨_, rfl, ?_⟩, ?_⟩
  · have : A = rowsMat c rows := by
      funext i j
      have h1 := hA i j
      simp only [Fin.getElem_fin] at h1
      simp [rowsMat, List.getD_eq_getElem?_getD, h1]
    rw [this]
    exact hs _ _ _ (by omega)
  · have h0 : ∀ r : List ℝ, 0 ≤ (r.map fun x => |x|).sum := fun r => List.sum_nonneg (by
      intro x hx; obtain ⟨y, -, rfl⟩ := List.mem_map.1 hx; exact abs_nonneg y)
    obtain ⟨h1, h2, h3⟩ := listMax_spec (rows.map fun r => (r.map fun x => |x|).sum) 0 le_rfl (by
      intro x hx; obtain ⟨y, -, rfl⟩ := List.mem_map.1 hx; exact h0 y)
    refine ⟨fun r h => h1 _ (List.mem_map_of_mem h), ?_⟩
    rcases h3 with h3 | h3
    · have hne : rows ≠ [] := by rintro rfl; simp at hr
      obtain ⟨r, h⟩ := List.exists_mem_of_ne_nil _ hne
      refine ⟨r, h, le_antisymm (h1 _ (List.mem_map_of_mem h)) ?_⟩
      unfold listMax; rw [h3]; exact h0 r
    · obtain ⟨r, h, h4⟩ := List.mem_map.1 h3
      exact ⟨r, h, h4⟩
  · refine congrArg (fun z => some (Real.sqrt z)) ?_
    rw [List.map_flatten, List.sum_flatten, List.map_map]
    simp [Function.comp_def, sq]

/-- **C117.**  The only error: `'fro'` for a one-dimensional array with entries. -/
theorem C117_raise (sig : SigmaMax) (a : Arr ℝ) (hw : a.WF) (o : NormOrd) :
    normU sig a o = none ↔ o = .fro ∧ ∃ l, a = .d1 l ∧ l ≠ [] := by
  unfold normU
  cases he : a.isEmpty with
  | true =>
    have h := (Arr.isEmpty_iff hw).1 he
    simp only [if_true, reduceCtorEq, false_iff, not_and, not_exists]
    rintro - l rfl
    simpa [Spec.entries] using h
  | false =>
    have hf := (Arr.filled_iff hw).2 he
    cases a with
    | d1 l =>
      have hl : l ≠ [] := hf
      cases o <;> cases hv : (Arr.d1 l).isVec <;> simp [npNorm, Arr.toRow, Arr.toCol, hl]
    | d2 c rows =>
      cases o <;> cases hv : (Arr.d2 c rows).isVec <;> simp [npNorm, Arr.toRow, Arr.toCol]

/-- **C117, for the runs.**  `norm_` of columns meets what `C113_solver` assumes of the norm. -/
theorem C117_run {sig : SigmaMax} (hs : GoodSigma sig) {n : ℕ} (v : Fin n → ℝ) :
    ∃ r, normU sig (.d2 1 ((List.ofFn v).map fun x => [x])) .two = some r ∧ 0 ≤ r ∧ r * r = v ⬝ᵥ v := by
  have hw : (Arr.d2 1 ((List.ofFn v).map fun x => [x])).WF := by
    intro r hr; obtain ⟨y, -, rfl⟩ := List.mem_map.1 hr; rfl
  have he : Spec.entries (Arr.d2 1 ((List.ofFn v).map fun x => [x])) = List.ofFn v := by
    simp only [Spec.entries]
    induction List.ofFn v with
    | nil => rfl
    | cons a l ih => simpa using ih
  refine ⟨_, C117_two hs hw (Or.inr rfl), Real.sqrt_nonneg _, ?_⟩
  rw [he]
  unfold euclid
  rw [Real.mul_self_sqrt, List.map_ofFn, List.sum_ofFn]
  · simp [dotProduct, sq]
  · exact List.sum_nonneg (by intro x hx; obtain ⟨y, -, rfl⟩ := List.mem_map.1 hx; positivity)

/-! ### Examples -/

/-- A row, a column and a one-dimensional array with the entries 3 and -4. -/
example : ∃ sig, GoodSigma sig ∧ normU sig (.d1 [3, -4]) .two = some 5 ∧ normU sig (.d2 1 [[3], [-4]]) .two = some 5 ∧
    normU sig (.d2 2 [[3, -4]]) .two = some 5 ∧ normU sig (.d2 2 [[3, -4]]) .inf = some 4 := by
  obtain ⟨sig, hs⟩ := exists_goodSigma
  have h5 : euclid [3, -4] = 5 := by
    unfold euclid
    rw [show ((([3, -4] : List ℝ).map fun x => x ^ 2).sum) = 5 ^ 2 by norm_num]
    exact Real.sqrt_sq (by norm_num)
  refine ⟨sig, hs, ?_, ?_, ?_, ?_⟩
  · rw [C117_two hs (a := .d1 [3, -4]) trivial trivial]; exact congrArg some h5
  · rw [C117_two hs (a := .d2 1 [[3], [-4]]) (by intro r hr; simp at hr; rcases hr with rfl | rfl <;> rfl) (Or.inr rfl)]; exact congrArg some h5
  · rw [C117_two hs (a := .d2 2 [[3, -4]]) (by intro r hr; simp at hr; rw [hr]; rfl) (Or.inl rfl)]; exact congrArg some h5
  · obtain ⟨r, h1, h2⟩ := C117_inf sig (a := .d2 2 [[3, -4]]) (by intro r hr; simp at hr; rw [hr]; rfl) (Or.inl rfl)
    rw [h1]
    refine congrArg some (le_antisymm ?_ ?_)
    · rcases h2.attained with ⟨e, -⟩ | ⟨x, hx, rfl⟩
      · cases e
      · simp [Spec.entries] at hx
        rcases hx with rfl | rfl <;> norm_num
    · have := h2.bound (-4) (by simp [Spec.entries])
      norm_num at this; exact this

/-- Without the change of the shape the order `inf` of that row would be 7. -/
example (sig : SigmaMax) : npNorm sig (.d2 2 [[3, -4]]) .inf = some 7 := by
  simp only [npNorm, listMax]
  norm_num

/-- A matrix with two rows. -/
example (sig : SigmaMax) (hs : GoodSigma sig) : normU sig (.d2 2 [[1, -2], [3, 4]]) .inf = some 7 := by
  obtain ⟨-, ⟨m, h1, h2, r, h3, h4⟩, -⟩ := C117_matrix hs (c := 2) (rows := [[1, -2], [3, 4]])
    (by intro r hr; simp at hr; rcases hr with rfl | rfl <;> rfl) (by simp) le_rfl
  rw [h1]
  refine congrArg some (le_antisymm ?_ ?_)
  · rw [← h4]
    simp at h3
    rcases h3 with rfl | rfl <;> norm_num
  · have := h2 [3, 4] (by simp)
    norm_num at this; exact this

#print axioms C117_two
#print axioms C117_inf
#print axioms C117_shape
#print axioms C117_matrix
#print axioms C117_raise
#print axioms C117_run

end Sqpdfo
