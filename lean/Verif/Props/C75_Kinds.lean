import Verif.Model.WhichModel
import Verif.Lemmas.QRExists
import Mathlib.Tactic.Linarith

/-! # C75: models and Lagrange polynomials of all kinds -/

set_option linter.unusedSectionVars false

namespace Sqpdfo
open Matrix Finset
variable {n p : ℕ}

/-- What is assumed of `numpy.linalg.qr` and `numpy.linalg.pinv`. -/
structure Spec.GoodKit (K : LinKit) : Prop where
  qr : ∀ r c (Z : Matrix (Fin r) (Fin c) ℝ), Poised Z → IsQR (K.qr r c Z).1 (K.qr r c Z).2 Z ∧
    ∀ i j, j < i → (K.qr r c Z).2 i j = 0
  pinv : ∀ c (A : Matrix (Fin c) (Fin c) ℝ), IsUnit A.det → K.pinv c A = A⁻¹

/-- The number of coefficients that a kind of model determines. -/
def Spec.dofs (kind : Kind) (n p1 : ℕ) : ℕ :=
  match kind with
  | .subbasis | .frobnorm => p1
  | .l2norm | .regression => (n + 1) * (n + 2) / 2

/-- Values of a row of coefficients in the frame of the set. -/
noncomputable def Spec.value (kind : Kind) (Y : Fin (p + 1) → Fin n → ℝ) (shift : Bool) (c : Coefs) (x : Fin n → ℝ) : ℝ :=
  c.eval x (kind.frame Y shift).xbase (kind.frame Y shift).scale shift

/-- The set is poised for the kind of model: up to the number of coefficients the points give independent conditions; beyond it they
determine the coefficients. -/
def Spec.WellPosed (kind : Kind) (Y : Fin (p + 1) → Fin n → ℝ) (shift : Bool) : Prop :=
  if p + 1 ≤ dofs kind n (p + 1) then Poised (zMat (dofs kind n (p + 1)) (kind.frame Y shift).pts)
  else Poised (zMat (dofs kind n (p + 1)) (kind.frame Y shift).pts)ᵀ

open Spec

theorem fullSize_ge (n : ℕ) : n + 1 ≤ fullSize n := by
  unfold fullSize
  have : 2 * (n + 1) ≤ (n + 1) * (n + 2) := by nlinarith
  omega

theorem size_ge (kind : Kind) (hnp : n ≤ p) : n + 1 ≤ kind.size n (p + 1) := by
  unfold Kind.size
  split
  · omega
  · exact fullSize_ge n

theorem poised_transpose {k : ℕ} {A : Matrix (Fin k) (Fin k) ℝ} (h : Poised A) : Poised Aᵀ := by
  have hi : Function.Injective (A *ᵥ · : (Fin k → ℝ) → _) := by
    intro v w hvw
    exact sub_eq_zero.1 (h _ (by rw [mulVec_sub]; exact sub_eq_zero.2 hvw))
  rw [Matrix.mulVec_injective_iff_isUnit, ← Matrix.isUnit_transpose, ← Matrix.mulVec_injective_iff_isUnit] at hi
  intro v hv
  exact hi (by simp only [hv, mulVec_zero])

theorem poised_transpose' {a b : ℕ} (hab : a = b) {A : Matrix (Fin a) (Fin b) ℝ} (h : Poised A) : Poised Aᵀ := by
  subst hab
  exact poised_transpose h

/-- Values are scalar products with the monomials. -/
theorem value_eq (kind : Kind) (Y : Fin (p + 1) → Fin n → ℝ) (shift : Bool) (hn : 1 ≤ n) (hnp : n ≤ p) {m : ℕ} (hm : n + 1 ≤ m)
    (hm2 : m ≤ (n + 1) * (n + 2) / 2) (c : Fin m → ℝ) (x : Fin n → ℝ) :
    value kind Y shift ⟨m, c⟩ x =
      c ⬝ᵥ zCol m (frameMap (kind.frame Y shift).xbase (kind.frame Y shift).scale shift x) := by
  unfold value Coefs.eval
  rw [evalP_zCol _ _ _ _ _ (by omega) hm2]
  have hs := size_ge (n := n) kind hnp
  have : ext (padTo m (kind.frame Y shift).scale) 1 = ext (kind.frame Y shift).scale 1 := by
    unfold ext padTo
    rw [dif_pos (show 1 < m by omega), dif_pos (show 1 < kind.size n (p + 1) by omega)]
  unfold frameMap
  rw [this]

theorem value_pts (kind : Kind) (Y : Fin (p + 1) → Fin n → ℝ) (shift : Bool) (hn : 1 ≤ n) (hnp : n ≤ p) {m : ℕ} (hm : n + 1 ≤ m)
    (hm2 : m ≤ (n + 1) * (n + 2) / 2) (c : Fin m → ℝ) (j : Fin (p + 1)) :
    value kind Y shift ⟨m, c⟩ (Y j) = ((zMat m (kind.frame Y shift).pts)ᵀ *ᵥ c) j := by
  rw [value_eq kind Y shift hn hnp hm hm2, Kind.frame, frameMap_pts Y shift (size_ge kind hnp) hn, mulVec, dotProduct_comm]
  rfl

theorem solveE_ok {k : ℕ} {A : Matrix (Fin k) (Fin k) ℝ} (h : IsUnit A.det) (b : Fin k → ℝ) : solveE A b = .ok (A⁻¹ *ᵥ b) := by
  unfold solveE solve
  rw [if_pos h]

/-- Coefficients as a linear function of the values, for the three kinds with complete code. -/
structure Lin (K : LinKit) (kind : Kind) (Y : Fin (p + 1) → Fin n → ℝ) (shift : Bool) (m : ℕ)
    (B : Matrix (Fin m) (Fin (p + 1)) ℝ) : Prop where
  model : ∀ f, modelCoefs K kind Y shift f = .ok ⟨m, B *ᵥ f⟩
  lag : ∀ j, lagrangeCoefs K kind Y shift j = .ok ⟨m, B *ᵥ Pi.single j 1⟩
  val : ∀ j x, lagrangeVal K kind Y shift j x = .ok (some (value kind Y shift ⟨m, B *ᵥ Pi.single j 1⟩ x))
  fit : p + 1 ≤ m → (zMat m (kind.frame Y shift).pts)ᵀ * B = 1
  range : p + 1 ≤ m → ∃ C, B = zMat m (kind.frame Y shift).pts * C
  normal : m < p + 1 → zMat m (kind.frame Y shift).pts * ((zMat m (kind.frame Y shift).pts)ᵀ * B) = zMat m (kind.frame Y shift).pts

theorem inv_tr {k : ℕ} (A : Matrix (Fin k) (Fin k) ℝ) : Aᵀ⁻¹ = A⁻¹ᵀ := (transpose_nonsing_inv A).symm

theorem unit_tr {k : ℕ} {A : Matrix (Fin k) (Fin k) ℝ} (h : IsUnit A.det) : IsUnit Aᵀ.det := by rw [det_transpose]; exact h

/-- Factorisation of the matrix of monomials. -/
theorem lin_tall {m : ℕ} {Z Q : Matrix (Fin m) (Fin (p + 1)) ℝ} {R : Matrix (Fin (p + 1)) (Fin (p + 1)) ℝ} (h : IsQR Q R Z)
    (hu : IsUnit R.det) : Zᵀ * (Q * Rᵀ⁻¹) = 1 ∧ Q * Rᵀ⁻¹ = Z * (R⁻¹ * Rᵀ⁻¹) := by
  constructor
  · rw [← h.eq, transpose_mul, Matrix.mul_assoc, ← Matrix.mul_assoc Qᵀ, h.orth, Matrix.one_mul, mul_nonsing_inv _ (unit_tr hu)]
  · rw [← h.eq, Matrix.mul_assoc, ← Matrix.mul_assoc R, mul_nonsing_inv _ hu, Matrix.one_mul]

theorem row_eq {m : ℕ} (B : Matrix (Fin m) (Fin (p + 1)) ℝ) (j : Fin (p + 1)) : B *ᵥ Pi.single j 1 = Bᵀ j := by
  rw [mulVec_single_one]; rfl

theorem lin_subbasis {K : LinKit} (hK : GoodKit K) (Y : Fin (p + 1) → Fin n → ℝ) (shift : Bool)
    (hp : WellPosed .subbasis Y shift) : ∃ B, Lin K .subbasis Y shift (p + 1) B := by
  have hp' : Poised (zMat (p + 1) (Kind.subbasis.frame Y shift).pts) := by
    have := hp
    unfold WellPosed dofs at this
    rwa [if_pos le_rfl] at this
  have hQR := (hK.qr _ _ _ hp').1
  have hu := R_unit hQR hp'
  obtain ⟨e1, e2⟩ := lin_tall hQR hu
  have he : Kind.subbasis.eff (p + 1) (fullSize n) = .subbasis := by simp [Kind.eff]
  refine ⟨_, ⟨fun f => ?_, fun j => ?_, fun j x => ?_, fun _ => e1, fun _ => ⟨_, e2⟩, fun h => absurd h (lt_irrefl _)⟩⟩
  · unfold modelCoefs
    simp only [he]
    rw [solveE_ok (unit_tr hu), ← mulVec_mulVec]
    rfl
  · unfold lagrangeCoefs
    simp only [he]
    rw [solveE_ok (unit_tr hu), ← mulVec_mulVec]
    rfl
  · unfold lagrangeVal
    simp only [he]
    rw [if_pos hu, row_eq, inv_tr, transpose_mul, transpose_transpose]
    rfl

theorem lin_l2 {K : LinKit} (hK : GoodKit K) (kind : Kind) (Y : Fin (p + 1) → Fin n → ℝ) (shift : Bool)
    (he : kind.eff (p + 1) (fullSize n) = .l2norm)
    (hp : Poised (zMat (fullSize n) (kind.frame Y shift).pts)) (hle : p + 1 ≤ fullSize n) : ∃ B, Lin K kind Y shift (fullSize n) B := by
  have hQR := (hK.qr _ _ _ hp).1
  have hu := R_unit hQR hp
  obtain ⟨e1, e2⟩ := lin_tall hQR hu
  refine ⟨_, ⟨fun f => ?_, fun j => ?_, fun j x => ?_, fun _ => e1, fun _ => ⟨_, e2⟩, fun h => absurd hle (not_le.2 h)⟩⟩
  · unfold modelCoefs
    simp only [he]
    rw [solveE_ok (unit_tr hu), ← mulVec_mulVec]
    rfl
  · unfold lagrangeCoefs
    simp only [he]
    rw [solveE_ok (unit_tr hu), hK.pinv _ _ (unit_tr hu), ← mulVec_mulVec]
    split <;> rfl
  · unfold lagrangeVal
    simp only [he]
    rw [if_pos hu, hK.pinv _ _ hu, row_eq, inv_tr, transpose_mul, transpose_transpose]
    split <;> rfl

theorem lin_regression {K : LinKit} (hK : GoodKit K) (Y : Fin (p + 1) → Fin n → ℝ) (shift : Bool)
    (hp : Poised (zMat (fullSize n) (Kind.regression.frame Y shift).pts)ᵀ) (hle : fullSize n ≤ p + 1) :
    ∃ B, Lin K .regression Y shift (fullSize n) B := by
  have hQR := (hK.qr _ _ _ hp).1
  have hu := R_unit hQR hp
  have he : Kind.regression.eff (p + 1) (fullSize n) = .regression := by
    unfold Kind.eff
    rw [if_neg (fun h => absurd h.2 (not_lt.2 hle))]
  generalize hF : K.qr (p + 1) (fullSize n) (zMat (fullSize n) (Kind.regression.frame Y shift).pts)ᵀ = F at hQR hu
  have hn2 : zMat (fullSize n) (Kind.regression.frame Y shift).pts *
      ((zMat (fullSize n) (Kind.regression.frame Y shift).pts)ᵀ * (F.2⁻¹ * F.1ᵀ)) =
      zMat (fullSize n) (Kind.regression.frame Y shift).pts := by
    have hz : zMat (fullSize n) (Kind.regression.frame Y shift).pts = (F.1 * F.2)ᵀ := by
      rw [hQR.eq, transpose_transpose]
    rw [← hQR.eq, hz, transpose_mul]
    have : F.1 * F.2 * (F.2⁻¹ * F.1ᵀ) = F.1 * F.1ᵀ := by
      rw [Matrix.mul_assoc, ← Matrix.mul_assoc F.2, mul_nonsing_inv _ hu, Matrix.one_mul]
    rw [this, Matrix.mul_assoc, ← Matrix.mul_assoc F.1ᵀ, hQR.orth, Matrix.one_mul]
  have hl : F.2⁻¹ * F.1ᵀ * (zMat (fullSize n) (Kind.regression.frame Y shift).pts)ᵀ = 1 := by
    rw [← hQR.eq, Matrix.mul_assoc, ← Matrix.mul_assoc F.1ᵀ, hQR.orth, Matrix.one_mul, nonsing_inv_mul _ hu]
  refine ⟨F.2⁻¹ * F.1ᵀ, ⟨fun f => ?_, fun j => ?_, fun j x => ?_, fun h => ?_, fun h => ?_, fun _ => hn2⟩⟩
  · unfold modelCoefs
    simp only [he]
    rw [hF, hK.pinv _ _ hu, ← mulVec_mulVec]
  · unfold lagrangeCoefs
    simp only [he]
    rw [hF, hK.pinv _ _ hu, ← mulVec_mulVec]
  · unfold lagrangeVal
    simp only [he]
    rw [hF, hK.pinv _ _ (unit_tr hu), row_eq, inv_tr, transpose_mul, transpose_transpose]
    rfl
  · have hq : p + 1 = fullSize n := le_antisymm h hle
    exact (Matrix.mul_eq_one_comm_of_card_eq _ _ _ (by simpa using hq.symm)).1 hl
  · have hq : p + 1 = fullSize n := le_antisymm h hle
    refine ⟨(F.2⁻¹ * F.1ᵀ)ᵀ * (F.2⁻¹ * F.1ᵀ), ?_⟩
    rw [← Matrix.mul_assoc]
    have : zMat (fullSize n) (Kind.regression.frame Y shift).pts * (F.2⁻¹ * F.1ᵀ)ᵀ = 1 := by
      have := congrArg transpose hl
      rwa [transpose_mul, transpose_transpose, transpose_one] at this
    rw [this, Matrix.one_mul]

/-- There are such functions. -/
theorem exists_goodKit : ∃ K, GoodKit K := by
  classical
  refine ⟨⟨fun r c Z => if h : Poised Z then ((exists_qr_tri Z h).choose, (exists_qr_tri Z h).choose_spec.choose) else (Z, 1),
    fun _ A => A⁻¹⟩, ⟨fun r c Z h => ?_, fun _ _ _ => rfl⟩⟩
  simp only [dif_pos h]
  exact (exists_qr_tri Z h).choose_spec.choose_spec

/-- The kinds for which the code is complete, with the sizes of sets that the program builds: regression with any number of points, the others
with at most as many points as a quadratic polynomial has coefficients. -/
def Spec.Handled (kind : Kind) (n p1 : ℕ) : Prop :=
  kind = .regression ∨ (kind ≠ .frobnorm ∧ p1 ≤ (n + 1) * (n + 2) / 2)

theorem lin_all {K : LinKit} (hK : GoodKit K) (kind : Kind) (Y : Fin (p + 1) → Fin n → ℝ) (shift : Bool)
    (hh : Handled kind n (p + 1)) (hp : WellPosed kind Y shift) : ∃ B, Lin K kind Y shift (dofs kind n (p + 1)) B := by
  cases kind with
  | subbasis => exact lin_subbasis hK Y shift hp
  | frobnorm => rcases hh with h | h <;> simp at h
  | l2norm =>
    have hle : p + 1 ≤ fullSize n := by
      rcases hh with h | h
      · simp at h
      · exact h.2
    unfold WellPosed at hp
    have hle' : p + 1 ≤ dofs .l2norm n (p + 1) := hle
    rw [if_pos hle'] at hp
    exact lin_l2 hK .l2norm Y shift (by simp [Kind.eff]) hp hle
  | regression =>
    unfold WellPosed at hp
    by_cases hle : p + 1 ≤ fullSize n
    · have hle' : p + 1 ≤ dofs .regression n (p + 1) := hle
      rw [if_pos hle'] at hp
      by_cases hlt : p + 1 < fullSize n
      · exact lin_l2 hK .regression Y shift (by simp [Kind.eff, hlt]) hp hle
      · have hq : p + 1 = fullSize n := by omega
        refine lin_regression hK Y shift ?_ hq.symm.le
        have : Poised (zMat (fullSize n) (Kind.regression.frame Y shift).pts) := hp
        exact poised_transpose' hq.symm this
    · have hle' : ¬ p + 1 ≤ dofs .regression n (p + 1) := hle
      rw [if_neg hle'] at hp
      exact lin_regression hK Y shift hp (by omega)

theorem dofs_ge (kind : Kind) (hnp : n ≤ p) : n + 1 ≤ dofs kind n (p + 1) := by
  cases kind
  · exact Nat.succ_le_succ hnp
  · exact Nat.succ_le_succ hnp
  · exact fullSize_ge n
  · exact fullSize_ge n

theorem dofs_le {kind : Kind} (hh : Handled kind n (p + 1)) : dofs kind n (p + 1) ≤ (n + 1) * (n + 2) / 2 := by
  cases kind with
  | subbasis => rcases hh with h | h; · simp at h
                exact h.2
  | frobnorm => rcases hh with h | h <;> simp at h
  | l2norm => exact le_rfl
  | regression => exact le_rfl

/-- Pythagoras. -/
theorem dot_add_orth {m : ℕ} {u v : Fin m → ℝ} (h : u ⬝ᵥ v = 0) : (u + v) ⬝ᵥ (u + v) = u ⬝ᵥ u + v ⬝ᵥ v := by
  rw [add_dotProduct, dotProduct_add, dotProduct_add, h, dotProduct_comm v u, h]
  ring

theorem dot_pos {m : ℕ} {u : Fin m → ℝ} (h : u ≠ 0) : 0 < u ⬝ᵥ u :=
  lt_of_le_of_ne (Finset.sum_nonneg fun i _ => mul_self_nonneg (u i)) fun h0 => h (dotProduct_self_eq_zero.1 h0.symm)

theorem min_norm {m k : ℕ} {Z B : Matrix (Fin m) (Fin k) ℝ} (fit : Zᵀ * B = 1) (range : ∃ C, B = Z * C) {f : Fin k → ℝ}
    {c : Fin m → ℝ} (hc : Zᵀ *ᵥ c = f) (hne : c ≠ B *ᵥ f) : (B *ᵥ f) ⬝ᵥ (B *ᵥ f) < c ⬝ᵥ c := by
  obtain ⟨C, hC⟩ := range
  have hz : Zᵀ *ᵥ (c - B *ᵥ f) = 0 := by
    rw [mulVec_sub, mulVec_mulVec, fit, one_mulVec, hc, sub_self]
  have ho : (B *ᵥ f) ⬝ᵥ (c - B *ᵥ f) = 0 := by
    have hbf : B *ᵥ f = Z *ᵥ (C *ᵥ f) := by rw [mulVec_mulVec, ← hC]
    rw [dotProduct_comm]
    nth_rewrite 2 [hbf]
    rw [dotProduct_mulVec, ← mulVec_transpose, hz, zero_dotProduct]
  have := dot_add_orth ho
  rw [add_sub_cancel] at this
  have h0 := dot_pos (sub_ne_zero.2 hne)
  linarith

theorem least_sq {m k : ℕ} {Z B : Matrix (Fin m) (Fin k) ℝ} (normal : Z * (Zᵀ * B) = Z) (hinj : Poised Zᵀ) {f : Fin k → ℝ}
    {c : Fin m → ℝ} (hne : c ≠ B *ᵥ f) :
    (Zᵀ *ᵥ (B *ᵥ f) - f) ⬝ᵥ (Zᵀ *ᵥ (B *ᵥ f) - f) < (Zᵀ *ᵥ c - f) ⬝ᵥ (Zᵀ *ᵥ c - f) := by
  have ho : (Zᵀ *ᵥ (B *ᵥ f) - f) ⬝ᵥ (Zᵀ *ᵥ (c - B *ᵥ f)) = 0 := by
    rw [dotProduct_mulVec, vecMul_transpose, mulVec_sub, mulVec_mulVec, mulVec_mulVec, Matrix.mul_assoc, normal, sub_self,
      zero_dotProduct]
  have h := dot_add_orth ho
  have he : Zᵀ *ᵥ (B *ᵥ f) - f + Zᵀ *ᵥ (c - B *ᵥ f) = Zᵀ *ᵥ c - f := by
    rw [mulVec_sub]; abel
  rw [he] at h
  have h0 := dot_pos (u := Zᵀ *ᵥ (c - B *ᵥ f)) fun h0 => sub_ne_zero.2 hne (hinj _ h0)
  linarith

/-- **C75 (models).** For sub-basis, minimum-norm and regression models on a set that is poised for the kind, with any number of points that the
kind admits, coefficients are returned.  With at most as many points as coefficients the model interpolates, and its coefficients are the unique
shortest among those of interpolating polynomials.  With at least as many points as coefficients it is the unique least-squares fit. -/
theorem C75_models {K : LinKit} (hK : GoodKit K) (kind : Kind) (Y : Fin (p + 1) → Fin n → ℝ) (shift : Bool) (hn : 1 ≤ n) (hnp : n ≤ p)
    (hh : Handled kind n (p + 1)) (hp : WellPosed kind Y shift) (f : Fin (p + 1) → ℝ) :
    ∃ c : Fin (dofs kind n (p + 1)) → ℝ, modelCoefs K kind Y shift f = .ok ⟨_, c⟩ ∧
    (p + 1 ≤ dofs kind n (p + 1) → (∀ j, value kind Y shift ⟨_, c⟩ (Y j) = f j) ∧
      ∀ c' : Fin (dofs kind n (p + 1)) → ℝ, (∀ j, value kind Y shift ⟨_, c'⟩ (Y j) = f j) → c' ≠ c → c ⬝ᵥ c < c' ⬝ᵥ c') ∧
    (dofs kind n (p + 1) ≤ p + 1 → ∀ c' : Fin (dofs kind n (p + 1)) → ℝ, c' ≠ c →
      ∑ j, (value kind Y shift ⟨_, c⟩ (Y j) - f j) ^ 2 < ∑ j, (value kind Y shift ⟨_, c'⟩ (Y j) - f j) ^ 2) := by
  obtain ⟨B, hB⟩ := lin_all hK kind Y shift hh hp
  have hv := fun c j => value_pts (m := dofs kind n (p + 1)) kind Y shift hn hnp (dofs_ge kind hnp) (dofs_le hh) c j
  refine ⟨B *ᵥ f, hB.model f, fun hle => ⟨fun j => ?_, fun c' hc' hne => ?_⟩, fun hge c' hne => ?_⟩
  · rw [hv, mulVec_mulVec, hB.fit hle, one_mulVec]
  · exact min_norm (hB.fit hle) (hB.range hle) (funext fun j => by rw [← hv, hc' j]) hne
  · have key : ∀ c : Fin (dofs kind n (p + 1)) → ℝ, ∑ j, (value kind Y shift ⟨_, c⟩ (Y j) - f j) ^ 2 =
        ((zMat (dofs kind n (p + 1)) (kind.frame Y shift).pts)ᵀ *ᵥ c - f) ⬝ᵥ
          ((zMat (dofs kind n (p + 1)) (kind.frame Y shift).pts)ᵀ *ᵥ c - f) := by
      intro c
      refine Finset.sum_congr rfl fun j _ => ?_
      rw [hv c j, pow_two]; rfl
    rw [key, key]
    refine least_sq ?_ ?_ hne
    · rcases Nat.lt_or_ge (dofs kind n (p + 1)) (p + 1) with h | h
      · exact hB.normal h
      · rw [hB.fit h, Matrix.mul_one]
    · unfold WellPosed at hp
      by_cases hle : p + 1 ≤ dofs kind n (p + 1)
      · rw [if_pos hle] at hp
        exact poised_transpose' (le_antisymm hge hle) hp
      · rwa [if_neg hle] at hp

/-- **C75 (Lagrange polynomials).** Under the same hypotheses the Lagrange polynomials exist, the values of `bcdfo_evalL_` are their values, every
model is the combination of them with the data, and with at most as many points as coefficients they are 1 at their own point and 0 at the
others. -/
theorem C75_lagrange {K : LinKit} (hK : GoodKit K) (kind : Kind) (Y : Fin (p + 1) → Fin n → ℝ) (shift : Bool) (hn : 1 ≤ n) (hnp : n ≤ p)
    (hh : Handled kind n (p + 1)) (hp : WellPosed kind Y shift) :
    ∃ L : Fin (p + 1) → Coefs, (∀ j, lagrangeCoefs K kind Y shift j = .ok (L j)) ∧
    (∀ j x, lagrangeVal K kind Y shift j x = .ok (some (value kind Y shift (L j) x))) ∧
    (∀ f c, modelCoefs K kind Y shift f = .ok c → ∀ x, value kind Y shift c x = ∑ j, f j * value kind Y shift (L j) x) ∧
    (p + 1 ≤ dofs kind n (p + 1) → ∀ i j, value kind Y shift (L j) (Y i) = if i = j then 1 else 0) := by
  obtain ⟨B, hB⟩ := lin_all hK kind Y shift hh hp
  have hv := fun c x => value_eq (m := dofs kind n (p + 1)) kind Y shift hn hnp (dofs_ge kind hnp) (dofs_le hh) c x
  have hv2 := fun c x => value_pts (m := dofs kind n (p + 1)) kind Y shift hn hnp (dofs_ge kind hnp) (dofs_le hh) c x
  refine ⟨fun j => ⟨_, B *ᵥ Pi.single j 1⟩, hB.lag, hB.val, fun f c hc x => ?_, fun hle i j => ?_⟩
  · rw [hB.model] at hc
    cases hc
    rw [hv]
    have : B *ᵥ f = ∑ j, f j • (B *ᵥ Pi.single j 1) := by
      funext r
      simp only [Finset.sum_apply, Pi.smul_apply, mulVec_single_one, smul_eq_mul, mulVec, dotProduct, col_apply]
      exact Finset.sum_congr rfl fun j _ => mul_comm (B r j) (f j)
    rw [this, sum_dotProduct]
    refine Finset.sum_congr rfl fun j _ => ?_
    rw [smul_dotProduct, hv, smul_eq_mul]
  · rw [hv2, mulVec_mulVec, hB.fit hle, one_mulVec, Pi.single_apply]

theorem solveE_cases {k : ℕ} (A : Matrix (Fin k) (Fin k) ℝ) (b : Fin k → ℝ) :
    IsUnit A.det ∧ solveE A b = .ok (A⁻¹ *ᵥ b) ∨ ¬ IsUnit A.det ∧ solveE A b = .error .singular := by
  by_cases h : IsUnit A.det
  · exact Or.inl ⟨h, solveE_ok h b⟩
  · refine Or.inr ⟨h, ?_⟩
    unfold solveE solve
    rw [if_neg h]

/-- **C75 (without poisedness).** For sub-basis and minimum-norm models with at most as many points as coefficients: if the factors reproduce the matrix of
monomials, a model that is returned interpolates, whatever the set; for a set that is not poised an exception is raised. -/
theorem C75_returned (K : LinKit) (kind : Kind) (Y : Fin (p + 1) → Fin n → ℝ) (shift : Bool) (hn : 1 ≤ n) (hnp : n ≤ p)
    (hk : kind ≠ .frobnorm) (hle : p + 1 ≤ dofs kind n (p + 1)) (hfull : p + 1 ≤ (n + 1) * (n + 2) / 2)
    (hreg : kind = .regression → p + 1 < (n + 1) * (n + 2) / 2)
    (hQR : IsQR (K.qr (dofs kind n (p + 1)) (p + 1) (zMat (dofs kind n (p + 1)) (kind.frame Y shift).pts)).1
      (K.qr (dofs kind n (p + 1)) (p + 1) (zMat (dofs kind n (p + 1)) (kind.frame Y shift).pts)).2
      (zMat (dofs kind n (p + 1)) (kind.frame Y shift).pts)) (f : Fin (p + 1) → ℝ) :
    (∀ c, modelCoefs K kind Y shift f = .ok c → ∀ j, value kind Y shift c (Y j) = f j) ∧
    (¬ WellPosed kind Y shift → modelCoefs K kind Y shift f = .error .singular) := by
  have hv := fun c j => value_pts (m := dofs kind n (p + 1)) kind Y shift hn hnp (dofs_ge kind hnp)
    (by unfold dofs; cases kind <;> simp_all) c j
  have hm : modelCoefs K kind Y shift f =
      (solveE (K.qr (dofs kind n (p + 1)) (p + 1) (zMat (dofs kind n (p + 1)) (kind.frame Y shift).pts)).2ᵀ f).map fun w =>
        ⟨dofs kind n (p + 1), (K.qr (dofs kind n (p + 1)) (p + 1) (zMat (dofs kind n (p + 1)) (kind.frame Y shift).pts)).1 *ᵥ w⟩ := by
    unfold modelCoefs
    cases kind with
    | subbasis => rfl
    | frobnorm => exact absurd rfl hk
    | l2norm => rfl
    | regression =>
      have he : Kind.regression.eff (p + 1) (fullSize n) = .l2norm := by
        unfold Kind.eff
        rw [if_pos ⟨rfl, hreg rfl⟩]
      simp only [he]
      rfl
  rw [hm]
  generalize K.qr (dofs kind n (p + 1)) (p + 1) (zMat (dofs kind n (p + 1)) (kind.frame Y shift).pts) = F at hQR
  rcases solveE_cases F.2ᵀ f with ⟨hu, he⟩ | ⟨hu, he⟩
  · have hu' : IsUnit F.2.det := by rw [← det_transpose]; exact hu
    refine ⟨fun c hc j => ?_, fun hp => absurd ?_ hp⟩
    · rw [he] at hc
      injection hc with hc
      rw [← hc, hv, mulVec_mulVec, mulVec_mulVec, Matrix.mul_assoc, (lin_tall hQR hu').1, one_mulVec]
    · unfold WellPosed
      rw [if_pos hle]
      intro v hz
      have h1 : F.2 *ᵥ v = 0 := by
        have : F.1ᵀ *ᵥ (zMat (dofs kind n (p + 1)) (kind.frame Y shift).pts *ᵥ v) = F.2 *ᵥ v := by
          rw [← hQR.eq, mulVec_mulVec, ← Matrix.mul_assoc, hQR.orth, Matrix.one_mul]
        rw [← this, hz, mulVec_zero]
      have h2 : F.2⁻¹ *ᵥ (F.2 *ᵥ v) = v := by rw [mulVec_mulVec, nonsing_inv_mul _ hu', one_mulVec]
      rw [← h2, h1, mulVec_zero]
  · rw [he]
    exact ⟨fun c hc => (by cases hc), fun _ => rfl⟩

/-! ## Minimum Frobenius norm -/

theorem evalZ_lin (x : ℕ → ℝ) {q : ℕ} (hn : 1 ≤ n) (hq : n + 1 ≤ q) : ∃ t, evalZ n x q = (1 :: (List.range n).map x) ++ t := by
  unfold evalZ
  simp only
  rw [if_neg (show q ≠ 1 by omega)]
  split
  · have : q = n + 1 := by omega
    subst this
    exact ⟨[], by simp⟩
  · split
    · exact ⟨_, List.append_assoc _ _ _⟩
    · exact ⟨_, rfl⟩

theorem zCol_lin (y : Fin n → ℝ) {q q' : ℕ} (hn : 1 ≤ n) (hq : n + 1 ≤ q) (hq' : n + 1 ≤ q') (r : ℕ) (hr : r < n + 1) :
    zCol q y ⟨r, by omega⟩ = zCol q' y ⟨r, by omega⟩ := by
  obtain ⟨t, ht⟩ := evalZ_lin (ext y) hn hq
  obtain ⟨t', ht'⟩ := evalZ_lin (ext y) hn hq'
  unfold zCol
  have hl : r < (1 :: (List.range n).map (ext y)).length := by simpa using hr
  simp only [ht, ht', List.getD_eq_getElem?_getD, List.getElem?_append_left hl]

/-- Appending zeros does not change values. -/
theorem pad_dot (y : Fin n → ℝ) {m q : ℕ} (hle : m ≤ q) (w : Fin m → ℝ)
    (h : ∀ r (hr : r < m), zCol q y ⟨r, by omega⟩ = zCol m y ⟨r, hr⟩) : padTo q w ⬝ᵥ zCol q y = w ⬝ᵥ zCol m y := by
  obtain ⟨k, rfl⟩ := Nat.exists_eq_add_of_le hle
  unfold dotProduct
  rw [Fin.sum_univ_add]
  have h0 : ∑ i : Fin k, padTo (m + k) w (Fin.natAdd m i) * zCol (m + k) y (Fin.natAdd m i) = 0 := by
    refine Finset.sum_eq_zero fun i _ => ?_
    unfold padTo
    rw [dif_neg (by simp), zero_mul]
  rw [h0, add_zero]
  refine Finset.sum_congr rfl fun i _ => ?_
  have e1 : padTo (m + k) w (Fin.castAdd k i) = w i := by
    unfold padTo
    rw [dif_pos (by simp)]
    rfl
  rw [e1, ← h i i.2]
  rfl

/-- **C75 (Frobenius, models): what holds.** With as many points as a linear or a quadratic polynomial has coefficients, models and Lagrange
polynomials interpolate.  Missing: the sizes in between, see `C75_frob_raises`. -/
theorem C75_frob_partial {K : LinKit} (hK : GoodKit K) (Y : Fin (p + 1) → Fin n → ℝ) (shift : Bool) (hn : 1 ≤ n)
    (hs : p = n ∨ p + 1 = (n + 1) * (n + 2) / 2) (hp : WellPosed .frobnorm Y shift) :
    (∀ f, ∃ c, modelCoefs K .frobnorm Y shift f = .ok c ∧ ∀ j, value .frobnorm Y shift c (Y j) = f j) ∧
    ∀ j, ∃ c, lagrangeCoefs K .frobnorm Y shift j = .ok c ∧ ∀ i, value .frobnorm Y shift c (Y i) = if i = j then 1 else 0 := by
  have he : Kind.frobnorm.eff (p + 1) (fullSize n) = .frobnorm := by simp [Kind.eff]
  have hc : p + 1 = n + 1 ∨ p + 1 = fullSize n := by unfold fullSize; omega
  have hnp : n ≤ p := by have := fullSize_ge n; omega
  have hle : p + 1 ≤ fullSize n := by have := fullSize_ge n; omega
  have hp' : Poised (zMat (p + 1) (Kind.frobnorm.frame Y shift).pts)ᵀ := by
    have h := hp
    unfold WellPosed dofs at h
    rw [if_pos le_rfl] at h
    exact poised_transpose h
  have hQR := (hK.qr _ _ _ hp').1
  have hu := R_unit hQR hp'
  have hpre : ∀ (y : Fin n → ℝ) r (hr : r < p + 1), zCol (fullSize n) y ⟨r, by omega⟩ = zCol (p + 1) y ⟨r, hr⟩ := by
    intro y r hr
    rcases hc with h | h
    · exact zCol_lin y hn (fullSize_ge n) (by omega) r (by omega)
    · simp only [zCol, h]
  generalize hF : K.qr (p + 1) (p + 1) (zMat (p + 1) (Kind.frobnorm.frame Y shift).pts)ᵀ = F at hQR hu
  have hQ : F.1 * F.1ᵀ = 1 := mul_eq_one_comm.1 hQR.orth
  have hfit : ∀ f, (zMat (p + 1) (Kind.frobnorm.frame Y shift).pts)ᵀ *ᵥ (F.2⁻¹ *ᵥ (F.1ᵀ *ᵥ f)) = f := by
    intro f
    rw [← hQR.eq, mulVec_mulVec, mulVec_mulVec, Matrix.mul_assoc F.1, mul_nonsing_inv _ hu, Matrix.mul_one, hQ,
      one_mulVec]
  have hval : ∀ f j, value .frobnorm Y shift ⟨p + 1, F.2⁻¹ *ᵥ (F.1ᵀ *ᵥ f)⟩ (Y j) = f j := by
    intro f j
    rw [value_pts _ Y shift hn hnp (by omega) hle, hfit]
  refine ⟨fun f => ⟨⟨_, padTo (fullSize n) (F.2⁻¹ *ᵥ (F.1ᵀ *ᵥ f))⟩, ?_, fun j => ?_⟩, fun j => ⟨⟨p + 1, F.2⁻¹ *ᵥ (F.1ᵀ *ᵥ Pi.single j 1)⟩, ?_, fun i => ?_⟩⟩
  · unfold modelCoefs
    simp only [he, if_pos hc, hF]
    rw [solveE_ok hu]
    rfl
  · rw [← hval f j, value_eq _ Y shift hn hnp (fullSize_ge n) le_rfl, value_eq _ Y shift hn hnp (by omega) hle]
    exact pad_dot _ hle _ (hpre _)
  · unfold lagrangeCoefs
    simp only [he, if_pos hc, hF]
    rw [solveE_ok hu]
    rfl
  · rw [hval, Pi.single_apply]

/-- **C75 (Frobenius): between linear and quadratic size** computing a model, a Lagrange polynomial or its values raises an exception, whatever
the points, the values and the factorisation. -/
theorem C75_frob_raises (K : LinKit) (Y : Fin (p + 1) → Fin n → ℝ) (shift : Bool) (h1 : n < p) (h2 : p + 1 < (n + 1) * (n + 2) / 2) :
    (∀ f, modelCoefs K .frobnorm Y shift f = .error .frobP) ∧ (∀ j, lagrangeCoefs K .frobnorm Y shift j = .error .frobL) ∧
    ∀ j x, lagrangeVal K .frobnorm Y shift j x = .error .frobV := by
  have he : Kind.frobnorm.eff (p + 1) (fullSize n) = .frobnorm := by simp [Kind.eff]
  have hc : ¬ (p + 1 = n + 1 ∨ p + 1 = fullSize n) := by unfold fullSize; omega
  refine ⟨fun f => ?_, fun j => ?_, fun j x => ?_⟩
  · unfold modelCoefs
    simp only [he, if_neg hc]
  · unfold lagrangeCoefs
    simp only [he, if_neg hc]
  · unfold lagrangeVal
    simp only [he, if_neg hc]

/-- **C75 (Frobenius, values): refuted.** At linear and quadratic size the value of every Lagrange polynomial but the last is not finite: the code
divides by the zeros of the triangular factor. -/
theorem C75_frob_values_false {K : LinKit} (hK : GoodKit K) (Y : Fin (p + 1) → Fin n → ℝ) (shift : Bool)
    (hs : p = n ∨ p + 1 = (n + 1) * (n + 2) / 2) (hp : WellPosed .frobnorm Y shift) (j : Fin (p + 1)) (hj : (j : ℕ) < p) (x : Fin n → ℝ) :
    lagrangeVal K .frobnorm Y shift j x = .ok none := by
  have he : Kind.frobnorm.eff (p + 1) (fullSize n) = .frobnorm := by simp [Kind.eff]
  have hc : p + 1 = n + 1 ∨ p + 1 = fullSize n := by unfold fullSize; omega
  have hp' : Poised (zMat (p + 1) (Kind.frobnorm.frame Y shift).pts)ᵀ := by
    have h := hp
    unfold WellPosed dofs at h
    rw [if_pos le_rfl] at h
    exact poised_transpose h
  have ht := (hK.qr _ _ _ hp').2 (Fin.last p) j (by rw [Fin.lt_def]; exact hj)
  unfold lagrangeVal
  simp only [he, if_pos hc]
  unfold fdot
  rw [if_neg]
  intro hall
  have := hall (Fin.last p)
  simp [transpose_apply, ht, fdiv] at this

/-! ## The hypotheses can be met -/

namespace Ex

theorem col2' (y : Fin 1 → ℝ) : zCol 2 y = ![1, y 0] := by
  funext r
  fin_cases r <;> simp [zCol, evalZ, ext, List.range_succ]

theorem col3' (y : Fin 1 → ℝ) : zCol 3 y = ![1, y 0, 1 / 2 * y 0 ^ 2] := by
  funext r
  fin_cases r <;> simp [zCol, evalZ, ext, List.range_succ]

/-- The points 0 and 1. -/
noncomputable def line2 : Fin (1 + 1) → Fin 1 → ℝ := fun j _ => (j : ℕ)

/-- The points 0, 1, 2 and 3. -/
noncomputable def line4 : Fin (3 + 1) → Fin 1 → ℝ := fun j _ => (j : ℕ)

theorem poised_line2 (q : ℕ) (h : q = 2 ∨ q = 3) : Poised (zMat q line2) := by
  intro v hv
  have e : v 0 + v 1 = 0 ∧ v 1 = 0 := by
    rcases h with rfl | rfl
    · have h0 := congrFun hv 0
      have h1 := congrFun hv 1
      simpa [mulVec, dotProduct, Fin.sum_univ_two, zMat, col2', line2] using And.intro h0 h1
    · have h0 := congrFun hv 0
      have h1 := congrFun hv 1
      simpa [mulVec, dotProduct, Fin.sum_univ_two, zMat, col3', line2] using And.intro h0 h1
  funext i
  fin_cases i
  · have := e.1
    rw [e.2, add_zero] at this
    exact this
  · exact e.2

theorem poised_line4 : Poised (zMat 3 line4)ᵀ := by
  intro v hv
  have h0 := congrFun hv 0
  have h1 := congrFun hv 1
  have h2 := congrFun hv 2
  simp [mulVec, dotProduct, Fin.sum_univ_three, zMat, col3', line4] at h0 h1 h2
  funext i
  fin_cases i <;> simp only [Pi.zero_apply] <;> simp <;> linarith

theorem wp_sub : WellPosed .subbasis line2 false := by
  unfold WellPosed dofs
  rw [if_pos le_rfl]
  exact poised_line2 2 (.inl rfl)

theorem wp_frob : WellPosed .frobnorm line2 false := by
  unfold WellPosed dofs
  rw [if_pos le_rfl]
  exact poised_line2 2 (.inl rfl)

theorem wp_l2 : WellPosed .l2norm line2 false := by
  unfold WellPosed
  rw [if_pos (by decide)]
  exact poised_line2 3 (.inr rfl)

theorem wp_reg2 : WellPosed .regression line2 false := by
  unfold WellPosed
  rw [if_pos (by decide)]
  exact poised_line2 3 (.inr rfl)

theorem wp_reg4 : WellPosed .regression line4 false := by
  unfold WellPosed
  rw [if_neg (by decide)]
  exact poised_line4

end Ex

open Ex in
/-- Four points, three coefficients: the regression model of 1, 0, 0, 1 is the least-squares parabola. -/
example : ∃ K, GoodKit K ∧ ∃ c : Fin 3 → ℝ, modelCoefs K .regression line4 false ![1, 0, 0, 1] = .ok ⟨3, c⟩ ∧
    ∀ c' : Fin 3 → ℝ, c' ≠ c → ∑ j, (value .regression line4 false ⟨3, c⟩ (line4 j) - ![1, 0, 0, 1] j) ^ 2 <
      ∑ j, (value .regression line4 false ⟨3, c'⟩ (line4 j) - ![1, 0, 0, 1] j) ^ 2 := by
  obtain ⟨K, hK⟩ := exists_goodKit
  obtain ⟨c, h1, _, h3⟩ := C75_models hK .regression line4 false le_rfl (by decide) (.inl rfl) wp_reg4 ![1, 0, 0, 1]
  exact ⟨K, hK, c, h1, h3 (by decide)⟩

open Ex in
/-- Two points, three coefficients. -/
example : ∃ K, GoodKit K ∧ ∃ c : Fin 3 → ℝ, modelCoefs K .l2norm line2 false ![1, 2] = .ok ⟨3, c⟩ ∧
    value .l2norm line2 false ⟨3, c⟩ (line2 1) = 2 := by
  obtain ⟨K, hK⟩ := exists_goodKit
  obtain ⟨c, h1, h2, _⟩ := C75_models hK .l2norm line2 false le_rfl le_rfl (.inr ⟨by decide, by decide⟩) wp_l2 ![1, 2]
  exact ⟨K, hK, c, h1, (h2 (by decide)).1 1⟩

/-- Twice the same point. -/
example (K : LinKit) (hK : K.qr 2 2 = fun Z => (1, Z)) (f : Fin (1 + 1) → ℝ) :
    modelCoefs K .subbasis (fun _ _ => 0 : Fin (1 + 1) → Fin 1 → ℝ) false f = .error .singular := by
  refine (C75_returned K .subbasis _ false le_rfl le_rfl (by decide) le_rfl (by decide) (fun h => (by cases h)) ?_ f).2 fun h => ?_
  · show IsQR (K.qr 2 2 _).1 (K.qr 2 2 _).2 _
    rw [hK]
    exact ⟨by rw [transpose_one, Matrix.one_mul], Matrix.one_mul _⟩
  · unfold WellPosed dofs at h
    rw [if_pos le_rfl] at h
    have := congrFun (h ![1, -1] (by
      funext i
      fin_cases i <;> simp [mulVec, dotProduct, Fin.sum_univ_two, zMat, Ex.col2', Kind.frame, buildFrame])) 0
    simp at this

open Ex in
example : ∃ K, GoodKit K ∧ ∃ L : Fin 2 → Coefs, (∀ j, lagrangeCoefs K .subbasis line2 false j = .ok (L j)) ∧
    value .subbasis line2 false (L 1) (line2 1) = 1 := by
  obtain ⟨K, hK⟩ := exists_goodKit
  obtain ⟨L, h1, _, _, h4⟩ := C75_lagrange hK .subbasis line2 false le_rfl le_rfl (.inr ⟨by decide, by decide⟩) wp_sub
  exact ⟨K, hK, L, h1, by simpa using h4 (by decide) 1 1⟩

open Ex in
example : ∃ K, GoodKit K ∧ (∃ c, modelCoefs K .frobnorm line2 false ![1, 2] = .ok c ∧ value .frobnorm line2 false c (line2 1) = 2) ∧
    ∀ x, lagrangeVal K .frobnorm line2 false 0 x = .ok none := by
  obtain ⟨K, hK⟩ := exists_goodKit
  obtain ⟨c, h1, h2⟩ := (C75_frob_partial hK line2 false le_rfl (.inl rfl) wp_frob).1 ![1, 2]
  exact ⟨K, hK, ⟨c, h1, h2 1⟩, fun x => C75_frob_values_false hK line2 false (.inl rfl) wp_frob 0 (by decide) x⟩

example (K : LinKit) (Y : Fin (3 + 1) → Fin 2 → ℝ) (f : Fin 4 → ℝ) : modelCoefs K .frobnorm Y true f = .error .frobP :=
  (C75_frob_raises K Y true (by decide) (by decide)).1 f

#print axioms C75_models
#print axioms C75_lagrange
#print axioms C75_returned
#print axioms C75_frob_partial
#print axioms C75_frob_raises
#print axioms C75_frob_values_false

end Sqpdfo
