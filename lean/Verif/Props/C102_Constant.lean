import Verif.Props.C75_Kinds
import Verif.Props.C74_Certificate
import Verif.Props.C101_Shift

/-! # C102: a constant added to the values does not change the derivatives of the models -/

set_option linter.unusedSectionVars false

namespace Sqpdfo
open Matrix Finset
variable {n p : ℕ}

/-- Gradient of a row of coefficients in the frame of the set. -/
noncomputable def Spec.slope (kind : Kind) (Y : Fin (p + 1) → Fin n → ℝ) (shift : Bool) (c : Coefs) (x : Fin n → ℝ) : Fin n → ℝ :=
  gradP c.2 x (kind.frame Y shift).xbase (padTo c.1 (kind.frame Y shift).scale) shift

/-- Hessian of a row of coefficients in the frame of the set. -/
noncomputable def Spec.bend (kind : Kind) (Y : Fin (p + 1) → Fin n → ℝ) (shift : Bool) (c : Coefs) : Matrix (Fin n) (Fin n) ℝ :=
  hessP n c.2 (padTo c.1 (kind.frame Y shift).scale) shift

open Spec

/-! ### The first monomial -/

theorem evalZ_cons (x : ℕ → ℝ) (q : ℕ) : ∃ t, evalZ n x q = 1 :: t := by
  unfold evalZ
  simp only
  split
  · exact ⟨_, rfl⟩
  · split
    · exact ⟨_, rfl⟩
    · split
      · exact ⟨_, rfl⟩
      · exact ⟨_, rfl⟩

theorem zCol_first {q : ℕ} (y : Fin n → ℝ) (h : 0 < q) : zCol q y ⟨0, h⟩ = 1 := by
  obtain ⟨t, ht⟩ := evalZ_cons (n := n) (ext y) q
  unfold zCol
  rw [ht]
  rfl

theorem zSub_zero : ∀ c k m, ∀ z ∈ zSub n (fun _ => (0 : ℝ)) c k m, z = 0 := by
  intro c
  induction c with
  | zero => intro k m z hz; cases hz
  | succ c ih =>
    intro k m z hz
    have hpart : ∀ z ∈ (if min (n - k) m > 0 then (List.range (min (n - k) m)).map (fun _ => (0 : ℝ) * 0) else []), z = 0 := by
      intro z hz
      split at hz
      · obtain ⟨_, _, h⟩ := List.mem_map.1 hz
        rw [← h, mul_zero]
      · cases hz
    simp only [zSub] at hz
    split at hz
    · exact hpart z hz
    · rcases List.mem_append.1 hz with h | h
      · exact hpart z h
      · exact ih _ _ z h

theorem evalZ_zero (q : ℕ) : ∃ t, evalZ n (fun _ => (0 : ℝ)) q = 1 :: t ∧ ∀ z ∈ t, z = 0 := by
  have h1 : ∀ m, ∀ z ∈ (List.range m).map (fun _ => (0 : ℝ)), z = 0 := by
    intro m z hz
    obtain ⟨_, _, h⟩ := List.mem_map.1 hz
    exact h.symm
  have h2 : ∀ m, ∀ z ∈ (List.range m).map (fun _ => 1 / 2 * (0 : ℝ) ^ 2), z = 0 := by
    intro m z hz
    obtain ⟨_, _, h⟩ := List.mem_map.1 hz
    rw [← h]
    norm_num
  unfold evalZ
  simp only
  split
  · exact ⟨[], rfl, fun _ h => (by cases h)⟩
  · split
    · exact ⟨_, rfl, h1 _⟩
    · split
      · refine ⟨_, rfl, fun z hz => ?_⟩
        rcases List.mem_append.1 hz with h | h
        · rcases List.mem_append.1 h with h | h
          · exact h1 _ z h
          · exact h2 _ z h
        · exact zSub_zero _ _ _ z h
      · refine ⟨_, rfl, fun z hz => ?_⟩
        rcases List.mem_append.1 hz with h | h
        · exact h1 _ z h
        · exact h2 _ z h

/-- The monomials at the base point. -/
theorem zCol_base {q : ℕ} (h : 0 < q) : zCol q (0 : Fin n → ℝ) = Pi.single ⟨0, h⟩ 1 := by
  funext r
  have he : ext (0 : Fin n → ℝ) = fun _ => (0 : ℝ) := by
    funext i
    unfold ext
    split <;> rfl
  obtain ⟨t, ht, hz⟩ := evalZ_zero (n := n) q
  unfold zCol
  rw [he, ht, Pi.single_apply]
  rcases r with ⟨r, hr⟩
  cases r with
  | zero => simp
  | succ r =>
    rw [if_neg (by simp), List.getD_cons_succ, List.getD_eq_getElem?_getD]
    cases hg : t[r]? with
    | none => rfl
    | some z => exact hz z (List.mem_of_getElem? hg)

theorem tr_first {q k : ℕ} (pts : Fin k → Fin n → ℝ) (h : 0 < q) :
    (zMat q pts)ᵀ *ᵥ Pi.single ⟨0, h⟩ 1 = fun _ => (1 : ℝ) := by
  funext j
  rw [mulVec_single_one]
  exact zCol_first _ h

/-! ### Derivatives do not read the first coefficient -/

theorem gradP_first {q : ℕ} (P P' scale : Fin q → ℝ) (x xbase : Fin n → ℝ) (shift : Bool)
    (h : ∀ i : Fin q, 1 ≤ (i : ℕ) → P' i = P i) : gradP P' x xbase scale shift = gradP P x xbase scale shift := by
  have he : ∀ i, 1 ≤ i → ext P' i = ext P i := by
    intro i hi
    unfold ext
    split
    · exact h _ hi
    · rfl
  funext r
  unfold gradP
  cases shift
  · simp only [Bool.false_eq_true, if_false]
    have := gradRaw_scale (n := n) 1 (ext P) (ext P') (ext x) q (fun i h1 _ _ => by rw [he i h1, mul_one])
      (fun i h1 _ => by rw [he i (by omega), one_pow, mul_one]) r
    simpa using this
  · simp only [if_true]
    have := gradRaw_scale (n := n) 1 (fun i => ext P i * ext scale i) (fun i => ext P' i * ext scale i) (fun i => ext x i - ext xbase i) q
      (fun i h1 _ _ => by rw [he i h1, mul_one]) (fun i h1 _ => by rw [he i (by omega), one_pow, mul_one]) r
    simpa using this

theorem hessP_first {q : ℕ} (P P' scale : Fin q → ℝ) (shift : Bool)
    (h : ∀ i : Fin q, 1 ≤ (i : ℕ) → P' i = P i) : hessP n P' scale shift = hessP n P scale shift := by
  have he : ∀ i, 1 ≤ i → ext P' i = ext P i := by
    intro i hi
    unfold ext
    split
    · exact h _ hi
    · rfl
  funext r s
  unfold hessP
  cases shift
  · simp only [Bool.false_eq_true, if_false]
    have := hessRaw_scale (n := n) 1 (ext P) (ext P') q (fun i h1 _ => by rw [he i (by omega), one_pow, mul_one]) r s
    simpa using this
  · simp only [if_true]
    have := hessRaw_scale (n := n) 1 (fun i => ext P i * ext scale i) (fun i => ext P' i * ext scale i) q
      (fun i h1 _ => by rw [he i (by omega), one_pow, mul_one]) r s
    simpa using this

/-! ### The model of a constant -/

/-- The model of the constant 1 is the constant 1. -/
theorem lin_one {K : LinKit} {kind : Kind} {Y : Fin (p + 1) → Fin n → ℝ} {shift : Bool}
    {B : Matrix (Fin (dofs kind n (p + 1))) (Fin (p + 1)) ℝ} (hB : Lin K kind Y shift (dofs kind n (p + 1)) B)
    (hp : WellPosed kind Y shift) (hm : 0 < dofs kind n (p + 1))
    (hs : (shift = true ∧ 1 ≤ p) ∨ dofs kind n (p + 1) ≤ p + 1) :
    B *ᵥ (fun _ => (1 : ℝ)) = Pi.single ⟨0, hm⟩ 1 := by
  set Z := zMat (dofs kind n (p + 1)) (kind.frame Y shift).pts with hZ
  have h1 : Zᵀ *ᵥ Pi.single ⟨0, hm⟩ 1 = fun _ => (1 : ℝ) := tr_first _ hm
  by_cases hle : p + 1 ≤ dofs kind n (p + 1)
  · -- both are combinations of the columns and agree at the points
    have hfit := hB.fit hle
    obtain ⟨C, hC⟩ := hB.range hle
    unfold WellPosed at hp
    rw [if_pos hle] at hp
    rw [← hZ] at hfit hC hp
    have hrange : ∃ u, Pi.single ⟨0, hm⟩ 1 = Z *ᵥ u := by
      rcases hs with ⟨rfl, h1p⟩ | hge
      · refine ⟨Pi.single 0 1, ?_⟩
        rw [mulVec_single_one]
        have h0 : (kind.frame Y true).pts 0 = 0 := by
          unfold Kind.frame buildFrame
          rw [if_pos ⟨rfl, by omega⟩]
          funext i
          simp
        have : Z.col 0 = zCol (dofs kind n (p + 1)) ((kind.frame Y true).pts 0) := rfl
        rw [this, h0, zCol_base hm]
      · have hq : p + 1 = dofs kind n (p + 1) := le_antisymm hle hge
        have hinv : B * Zᵀ = 1 := (Matrix.mul_eq_one_comm_of_card_eq _ _ _ (by simpa using hq)).1 hfit
        refine ⟨C *ᵥ (Zᵀ *ᵥ Pi.single ⟨0, hm⟩ 1), ?_⟩
        rw [mulVec_mulVec, mulVec_mulVec, ← hC, hinv, one_mulVec]
    obtain ⟨u, hu⟩ := hrange
    have hz : Zᵀ *ᵥ (Z *ᵥ (C *ᵥ (fun _ => (1 : ℝ)) - u)) = 0 := by
      rw [mulVec_sub, mulVec_sub, ← hu, h1, mulVec_mulVec (fun _ => (1 : ℝ)) Z C, ← hC, mulVec_mulVec, hfit, one_mulVec, sub_self]
    have hn : (Z *ᵥ (C *ᵥ (fun _ => (1 : ℝ)) - u)) ⬝ᵥ (Z *ᵥ (C *ᵥ (fun _ => (1 : ℝ)) - u)) = 0 := by
      rw [dotProduct_mulVec, ← mulVec_transpose, hz, zero_dotProduct]
    have h0 := dotProduct_self_eq_zero.1 hn
    rw [hu, hC, ← mulVec_mulVec]
    rw [mulVec_sub] at h0
    exact sub_eq_zero.1 h0
  · have hnorm := hB.normal (by omega)
    unfold WellPosed at hp
    rw [if_neg hle] at hp
    rw [← hZ] at hnorm hp
    have hz : Z *ᵥ (Zᵀ *ᵥ (B *ᵥ (fun _ => (1 : ℝ)) - Pi.single ⟨0, hm⟩ 1)) = 0 := by
      rw [mulVec_sub, mulVec_sub, h1, mulVec_mulVec (fun _ => (1 : ℝ)) Zᵀ B, mulVec_mulVec, hnorm, sub_self]
    have hn : (Zᵀ *ᵥ (B *ᵥ (fun _ => (1 : ℝ)) - Pi.single ⟨0, hm⟩ 1)) ⬝ᵥ
        (Zᵀ *ᵥ (B *ᵥ (fun _ => (1 : ℝ)) - Pi.single ⟨0, hm⟩ 1)) = 0 := by
      rw [dotProduct_mulVec, ← mulVec_transpose, transpose_transpose, hz, zero_dotProduct]
    exact sub_eq_zero.1 (hp _ (dotProduct_self_eq_zero.1 hn))

/-- **C102 (models).** For sub-basis, minimum-norm and regression models on a set that is poised for the kind, in the shifted
coordinates that the program uses, or in any coordinates with at least as many points as coefficients: the model of the values plus
a constant has everywhere the value of the model plus this constant, and the same gradients and Hessian. -/
theorem C102_models {K : LinKit} (hK : GoodKit K) (kind : Kind) (Y : Fin (p + 1) → Fin n → ℝ) (shift : Bool) (hn : 1 ≤ n) (hnp : n ≤ p)
    (hh : Handled kind n (p + 1)) (hp : WellPosed kind Y shift) (hs : shift = true ∨ dofs kind n (p + 1) ≤ p + 1)
    (f : Fin (p + 1) → ℝ) (d : ℝ) :
    ∃ c c', modelCoefs K kind Y shift f = .ok c ∧ modelCoefs K kind Y shift (fun j => f j + d) = .ok c' ∧
      (∀ x, value kind Y shift c' x = value kind Y shift c x + d) ∧
      (∀ x, slope kind Y shift c' x = slope kind Y shift c x) ∧ bend kind Y shift c' = bend kind Y shift c := by
  obtain ⟨B, hB⟩ := lin_all hK kind Y shift hh hp
  have hge := dofs_ge (n := n) kind hnp
  have hm : 0 < dofs kind n (p + 1) := by omega
  have h1 := lin_one hB hp hm (hs.imp_left fun h => ⟨h, by omega⟩)
  have hf : (fun j => f j + d) = f + d • fun _ => (1 : ℝ) := by
    funext j
    simp
  have hc : B *ᵥ (fun j => f j + d) = B *ᵥ f + d • Pi.single ⟨0, hm⟩ 1 := by
    rw [hf, mulVec_add, mulVec_smul, h1]
  have hi : ∀ i : Fin (dofs kind n (p + 1)), 1 ≤ (i : ℕ) → (B *ᵥ (fun j => f j + d)) i = (B *ᵥ f) i := by
    intro i hi
    rw [hc, Pi.add_apply, Pi.smul_apply, Pi.single_apply, if_neg, smul_zero, add_zero]
    intro h
    rw [h] at hi
    simp at hi
  refine ⟨_, _, hB.model f, hB.model _, fun x => ?_, fun x => ?_, ?_⟩
  · rw [value_eq kind Y shift hn hnp hge (dofs_le hh), value_eq kind Y shift hn hnp hge (dofs_le hh), hc, add_dotProduct,
      smul_dotProduct, single_one_dotProduct, zCol_first, smul_eq_mul, mul_one]
  · exact gradP_first _ _ _ _ _ _ hi
  · exact hessP_first _ _ _ _ hi

/-! ### The loop with its models -/

/-- `numpy.linalg.qr` is exact for matrices with independent columns, and for other square matrices the triangular factor is singular. -/
def Spec.ExactQR (k : Kern n) : Prop :=
  GoodQR k ∧ ∀ q (Z : Matrix (Fin q) (Fin q) ℝ), ¬ Poised Z → ¬ IsUnit (k.qr q q Z).2.det

theorem vec_plus (v : List ℝ) (d : ℝ) (m : ℕ) (h : v.length = m) : vec m (v.map (· + d)) = vec m v + d • fun _ => (1 : ℝ) := by
  funext i
  have hi : (i : ℕ) < v.length := by omega
  simp [vec, hi]

theorem gradOf_plus {k : Kern n} (hk : ExactQR k) (Y : List (List ℝ)) (x v : List ℝ) (hv : v.length = p + 1) (d : ℝ) :
    gradOf k p Y x (v.map (· + d)) = gradOf k p Y x v := by
  unfold gradOf computeP solve
  by_cases hp : Poised (zMat (p + 1) (frameOf n p Y).pts)
  · have hQR : IsQR (facOf k p Y).1 (facOf k p Y).2 _ := hk.1 _ _ _ hp
    have hu := R_unit hQR hp
    have hut : IsUnit (facOf k p Y).2ᵀ.det := unit_tr hu
    simp only [if_pos hut, Option.map_some]
    congr 1
    apply gradP_first
    intro i hi
    have hinv : (facOf k p Y).1 * (facOf k p Y).2ᵀ⁻¹ * (zMat (p + 1) (frameOf n p Y).pts)ᵀ = 1 :=
      mul_eq_one_comm.1 (lin_tall hQR hu).1
    have h1 : (facOf k p Y).1 *ᵥ ((facOf k p Y).2ᵀ⁻¹ *ᵥ fun _ => (1 : ℝ)) = Pi.single ⟨0, Nat.succ_pos p⟩ 1 := by
      rw [← tr_first (frameOf n p Y).pts (Nat.succ_pos p), mulVec_mulVec, mulVec_mulVec, hinv, one_mulVec]
    rw [vec_plus v d _ hv, mulVec_add, mulVec_add, mulVec_smul, mulVec_smul, h1, Pi.add_apply, Pi.smul_apply, Pi.single_apply, if_neg,
      smul_zero, add_zero]
    intro h
    rw [h] at hi
    simp at hi
  · have hu : ¬ IsUnit (facOf k p Y).2ᵀ.det := by
      rw [det_transpose]
      exact hk.2 _ _ hp
    simp only [if_neg hu, Option.map_none]

/-- **C102 (loop).** The main loop with the sub-basis models of the code: for an objective whose values with and without the constant
do not exceed `1e25` in absolute value, if the kernels of a pass depend on the values of the objective through the gradients only, the
runs for the objective and for the objective plus the constant have in every pass the same points, decisions, radii and gradients, and
end in the same way. -/
theorem C102_loop {e : Env ℝ (List (List ℝ))} {k : Kern e.n} (hu : UsesKern e k) (hk : ExactQR k) {x0 : List ℝ} {fuel : ℕ} {Δ : ℝ}
    {sl : List ℝ} {s0 : MSt ℝ (List (List ℝ))} (H : Starts e x0 fuel Δ sl s0) (d : ℝ) (hU : Moderate d e.U)
    (kern : MSt ℝ (List (List ℝ)) → Orc ℝ (List (List ℝ))) (hkern : ∀ s t, ShiftedBy d s t → t.infoG = s.infoG → kern t = kern s) :
    ∃ t0, startState (plusEnv d e) x0 fuel Δ sl = some t0 ∧
      ∀ n, (play e kern n s0).Both (fun s t => ShiftedBy d s t ∧ t.infoG = s.infoG) (play (plusEnv d e) kern n t0) := by
  refine C101_kernels H d hU (fun Y x fY ceY hl h0 => ?_) kern hkern
  have hpos : 0 < Y.length := by
    cases Y with
    | nil => cases h0
    | cons => simp
  rw [hu.build, hu.model]
  unfold modelOf
  rw [id, gradOf_plus hk Y x fY (by omega) d]

/-! ### The minimum-norm models without shift -/

namespace Ex

/-- The points 1 and 2. -/
noncomputable def off2 : Fin (1 + 1) → Fin 1 → ℝ := fun j _ => (j : ℕ) + 1

theorem poised_off2 : Poised (zMat 3 off2) := by
  intro v hv
  have h0 := congrFun hv 0
  have h1 := congrFun hv 1
  simp [mulVec, dotProduct, Fin.sum_univ_two, zMat, col3', off2] at h0 h1
  funext i
  fin_cases i <;> simp only [Pi.zero_apply] <;> simp <;> linarith

theorem wp_off2 : WellPosed .l2norm off2 false := by
  unfold WellPosed
  rw [if_pos (by decide)]
  exact poised_off2

theorem val_off2 (c : Fin 3 → ℝ) (x : Fin 1 → ℝ) :
    value .l2norm off2 false ⟨3, c⟩ x = c 0 + c 1 * x 0 + c 2 * (1 / 2 * x 0 ^ 2) := by
  rw [value_eq .l2norm off2 false le_rfl le_rfl (by decide) (by decide)]
  simp [frameMap, col3', dotProduct, Fin.sum_univ_three]

theorem l2_off2 {K : LinKit} (hK : GoodKit K) (f : Fin (1 + 1) → ℝ) :
    ∃ c : Fin 3 → ℝ, modelCoefs K .l2norm off2 false f = .ok ⟨3, c⟩ ∧
      ∀ c' : Fin 3 → ℝ, (∀ j, c' 0 + c' 1 * off2 j 0 + c' 2 * (1 / 2 * off2 j 0 ^ 2) = f j) → c' ≠ c → c ⬝ᵥ c < c' ⬝ᵥ c' := by
  obtain ⟨c, h1, h2, -⟩ := C75_models hK .l2norm off2 false le_rfl le_rfl (.inr ⟨by decide, by decide⟩) wp_off2 f
  exact ⟨c, h1, fun c' hc' hne => (h2 (by decide)).2 c' (fun j => (val_off2 c' _).trans (hc' j)) hne⟩

end Ex

open Ex in
/-- C102, the hypothesis on the coordinates is needed: without the shift (which the program always uses) the minimum-norm model of the
constant 1 at the points 1 and 2 is not constant. -/
theorem C102_unshifted_false {K : LinKit} (hK : GoodKit K) :
    ¬ ∃ c c', modelCoefs K .l2norm off2 false 0 = .ok c ∧ modelCoefs K .l2norm off2 false (fun j => (0 : Fin (1 + 1) → ℝ) j + 1) = .ok c' ∧
      ∀ x, value .l2norm off2 false c' x = value .l2norm off2 false c x + 1 := by
  rintro ⟨c, c', hc, hc', h⟩
  obtain ⟨a, ha, ha2⟩ := l2_off2 hK 0
  obtain ⟨b, hb, hb2⟩ := l2_off2 hK (fun j => (0 : Fin (1 + 1) → ℝ) j + 1)
  rw [hc] at ha
  rw [hc'] at hb
  injection ha with ha
  injection hb with hb
  subst ha hb
  have a0 : a = 0 := by
    by_contra hne
    have h := ha2 (0 : Fin 3 → ℝ) (fun j => by simp) (fun h => hne h.symm)
    have h0 := dot_pos hne
    rw [dotProduct_zero] at h
    exact absurd h (not_lt.2 h0.le)
  have hv := fun x : ℝ => h (fun _ => x)
  have hv' : ∀ x : ℝ, b 0 + b 1 * x + b 2 * (1 / 2 * x ^ 2) = 1 := by
    intro x
    have := hv x
    rw [val_off2, val_off2, a0] at this
    simpa using this
  have e0 := hv' 0
  have e1 := hv' 1
  have e2 := hv' 2
  have b0 : b 0 = 1 := by linarith
  have b1 : b 1 = 0 := by linarith
  have b2 : b 2 = 0 := by linarith
  have hm := hb2 (![13 / 17, 6 / 17, -4 / 17] : Fin 3 → ℝ) (fun j => by
    fin_cases j <;> simp [off2] <;> norm_num) (fun h => by
      have := congrFun h 1
      rw [b1] at this
      norm_num at this)
  have e3 : b ⬝ᵥ b = 1 := by
    simp [dotProduct, Fin.sum_univ_three, b0, b1, b2]
  have e4 : (![13 / 17, 6 / 17, -4 / 17] : Fin 3 → ℝ) ⬝ᵥ ![13 / 17, 6 / 17, -4 / 17] = 221 / 289 := by
    simp [dotProduct, Fin.sum_univ_three]
    norm_num
  rw [e3, e4] at hm
  norm_num at hm

/-! ### Examples -/

open Ex in
/-- Minimum-norm model of two points in shifted coordinates: values 1, 2 and 11, 12. -/
example : ∃ K, GoodKit K ∧ ∃ c c', modelCoefs K .l2norm line2 true ![1, 2] = .ok c ∧
    modelCoefs K .l2norm line2 true (fun j => (![1, 2] : Fin (1 + 1) → ℝ) j + 10) = .ok c' ∧
    (∀ x, value .l2norm line2 true c' x = value .l2norm line2 true c x + 10) ∧
    (∀ x, slope .l2norm line2 true c' x = slope .l2norm line2 true c x) := by
  obtain ⟨K, hK⟩ := exists_goodKit
  have hwp : WellPosed .l2norm line2 true := by
    unfold WellPosed
    rw [if_pos (by decide)]
    have hs := (scaleY_spec line2 ⟨1, fun h => by simpa [line2] using congrFun h 0⟩).1
    have h0 : scaleY line2 ≠ 0 := by linarith
    intro v hv
    change zMat 3 _ *ᵥ v = 0 at hv
    have e0 := congrFun hv 0
    have e1 := congrFun hv 1
    have hf : (Kind.l2norm.frame line2 true).pts = fun j i => (line2 j i - line2 0 i) / scaleY line2 := by
      unfold Kind.frame buildFrame
      rw [if_pos ⟨rfl, by decide⟩]
    rw [hf] at e0 e1
    simp [mulVec, dotProduct, Fin.sum_univ_two, zMat, col3', line2, h0] at e0 e1
    funext i
    fin_cases i <;> simp only [Pi.zero_apply] <;> simp <;> linarith
  obtain ⟨c, c', h1, h2, h3, h4, -⟩ := C102_models hK .l2norm line2 true le_rfl le_rfl (.inr ⟨by decide, by decide⟩) hwp (.inl rfl) ![1, 2] 10
  exact ⟨K, hK, c, c', h1, h2, h3, h4⟩

namespace Ex

theorem kern_exact : ExactQR kern := by
  refine ⟨kern_qr, fun q Z hZ => ?_⟩
  by_cases h : ∃ QR : Matrix (Fin q) (Fin q) ℝ × Matrix (Fin q) (Fin q) ℝ, IsQR QR.1 QR.2 Z
  · have hk : kern.qr q q Z = h.choose := dif_pos h
    have hQR : IsQR (kern.qr q q Z).1 (kern.qr q q Z).2 Z := by rw [hk]; exact h.choose_spec
    generalize kern.qr q q Z = F at hQR
    intro hu
    refine hZ fun v hv => ?_
    have h1 : F.2 *ᵥ v = 0 := by
      have : F.1ᵀ *ᵥ (Z *ᵥ v) = F.2 *ᵥ v := by
        rw [← hQR.eq, mulVec_mulVec, ← Matrix.mul_assoc, hQR.orth, Matrix.one_mul]
      rw [← this, hv, mulVec_zero]
    have h2 : F.2⁻¹ *ᵥ (F.2 *ᵥ v) = v := by rw [mulVec_mulVec, nonsing_inv_mul _ hu, one_mulVec]
    rw [← h2, h1, mulVec_zero]
  · have hk : kern.qr q q Z = 0 := dif_neg h
    rw [hk]
    cases q with
    | zero => exact fun _ => hZ fun v _ => Subsingleton.elim _ _
    | succ q => simp

theorem sq_moderate : Moderate (-5) sqEnv.U := by
  intro w y q h
  simp only [sqEnv] at h
  split at h
  · rename_i hle
    cases h
    have := sq_nonneg (y.getD 0 0)
    exact ⟨abs_le.2 ⟨by linarith, hle⟩, abs_le.2 ⟨by linarith, by linarith⟩⟩
  · cases h

/-- The objectives `x²` and `x² - 5`. -/
example : ∃ s0 t0, startState sqEnv [1 / 2000] 1 (1 / 1000) [] = some s0 ∧ startState (plusEnv (-5) sqEnv) [1 / 2000] 1 (1 / 1000) [] = some t0 ∧
    ∀ n, (play sqEnv (fun _ => sqOrc) n s0).Both (fun s t => ShiftedBy (-5) s t ∧ t.infoG = s.infoG)
      (play (plusEnv (-5) sqEnv) (fun _ => sqOrc) n t0) := by
  obtain ⟨s0, H, -⟩ := sq_start
  obtain ⟨t0, h1, h2⟩ := C102_loop (k := kern) ⟨rfl, rfl⟩ kern_exact H (-5) sq_moderate (fun _ => sqOrc) (fun _ _ _ _ => rfl)
  exact ⟨s0, t0, H.state, h1, h2⟩

end Ex

#print axioms C102_models
#print axioms C102_loop
#print axioms C102_unshifted_false

end Sqpdfo
