import Verif.Model.Hessian
import Verif.Props.C31_C32_Bfgs
import Verif.Props.C75_Kinds

/-! # C76, C77: the matrix of the quadratic subproblems -/

set_option linter.unusedSectionVars false

namespace Sqpdfo
open Matrix Finset
variable {n me p : ℕ}

/-! ## C76: the mode `model` -/

/-- The Lagrangian of the models: `cf` model of the objective, `cc r` of the constraints, `sl r` squared slack variables. -/
noncomputable def Spec.lagrModel (kind : Kind) (Y : Fin (p + 1) → Fin n → ℝ) (shift : Bool) (cf : Coefs) (cc : Fin me → Coefs)
    (lm sl : Fin me → ℝ) (x : Fin n → ℝ) : ℝ :=
  value kind Y shift cf x + ∑ r, lm r * (value kind Y shift (cc r) x - sl r)

open Spec

theorem scaleOf_build (q : ℕ) (Y : Fin (p + 1) → Fin n → ℝ) (hn : 1 ≤ n) (hq : n + 1 ≤ q) :
    ∃ σ, (1 ≤ p → ScaleOf n σ (buildFrame q Y true).scale) := by
  refine ⟨(scaleY Y)⁻¹, fun hp r => ?_⟩
  unfold buildFrame
  rw [if_pos ⟨rfl, by omega⟩]
  simp only [scaleVec]
  split_ifs with h1 h2 h3 h3
  · rfl
  · rfl
  · omega
  · omega
  · rw [inv_pow]

theorem padTo_self {m : ℕ} (v : Fin m → ℝ) : padTo m v = v := by
  funext i
  unfold padTo
  rw [dif_pos i.2]

theorem dofs_size {kind : Kind} (hh : Handled kind n (p + 1)) : dofs kind n (p + 1) = kind.size n (p + 1) := by
  cases kind with
  | frobnorm => rcases hh with h | h <;> simp at h
  | _ => rfl

/-- Second differences of values are given by the Hessian. -/
theorem second_diff (kind : Kind) (Y : Fin (p + 1) → Fin n → ℝ) (shift : Bool) (hn : 1 ≤ n) (hnp : n ≤ p)
    (hh : Handled kind n (p + 1)) (c : Fin (dofs kind n (p + 1)) → ℝ) (x v : Fin n → ℝ) :
    value kind Y shift ⟨_, c⟩ (x + v) + value kind Y shift ⟨_, c⟩ (x - v) - 2 * value kind Y shift ⟨_, c⟩ x =
      v ⬝ᵥ hessP n c (padTo (dofs kind n (p + 1)) (kind.frame Y shift).scale) shift *ᵥ v := by
  have h1 := dofs_ge kind hnp
  have h2 := dofs_le hh
  have hs : ∃ σ, (shift = true → ScaleOf n σ (padTo (dofs kind n (p + 1)) (kind.frame Y shift).scale) ∧ 2 ≤ dofs kind n (p + 1) ∧ 1 ≤ n) := by
    obtain ⟨σ, hσ⟩ := scaleOf_build (dofs kind n (p + 1)) Y hn h1
    refine ⟨σ, fun hsh => ⟨?_, by omega, hn⟩⟩
    subst hsh
    have := hσ (by omega)
    have e : padTo (dofs kind n (p + 1)) (kind.frame Y true).scale = (buildFrame (dofs kind n (p + 1)) Y true).scale := by
      unfold Kind.frame
      rw [← dofs_size hh, padTo_self]
    rw [e]
    exact this
  obtain ⟨σ, hσ⟩ := hs
  unfold value Coefs.eval
  rw [sub_eq_add_neg x v, C34_taylor c _ x v _ shift σ (by omega) h2 hσ, C34_taylor c _ x (-v) _ shift σ (by omega) h2 hσ]
  rw [dotProduct_neg, mulVec_neg, dotProduct_neg, neg_dotProduct]
  ring

/-- The first monomial is 1. -/
theorem zCol_zero {m : ℕ} (hn : 1 ≤ n) (hm : n + 1 ≤ m) (y : Fin n → ℝ) : zCol m y ⟨0, by omega⟩ = 1 := by
  obtain ⟨t, ht⟩ := evalZ_lin (ext y) hn hm
  unfold zCol
  simp [ht]

/-- The monomials of the origin. -/
theorem zCol_origin {m : ℕ} (hn : 1 ≤ n) (hm : n + 1 ≤ m) (hm2 : m ≤ (n + 1) * (n + 2) / 2) :
    zCol m (0 : Fin n → ℝ) = Pi.single ⟨0, by omega⟩ 1 := by
  funext r
  have hs : ScaleOf n (0 : ℝ) (Pi.single ⟨0, by omega⟩ 1 : Fin m → ℝ) := by
    intro i
    rw [Pi.single_apply]
    by_cases hi : (i : ℕ) = 0
    · rw [if_pos (Fin.ext hi), if_pos hi]
    · rw [if_neg (fun h => hi (congrArg Fin.val h)), if_neg hi]
      split <;> norm_num
  have key := evalZ_smul (n := n) (0 : ℝ) (Pi.single r 1 : Fin m → ℝ) _ (ext (0 : Fin n → ℝ)) hs (by omega) hm2
  have e0 : (fun i => ext (0 : Fin n → ℝ) i * 0) = ext (0 : Fin n → ℝ) := by
    funext i
    unfold ext
    split <;> simp
  have e1 : (fun i => ext (Pi.single r 1 : Fin m → ℝ) i * ext (Pi.single ⟨0, by omega⟩ 1 : Fin m → ℝ) i) =
      ext (fun i => (Pi.single r 1 : Fin m → ℝ) i * (Pi.single ⟨0, by omega⟩ 1 : Fin m → ℝ) i) := by
    funext i
    unfold ext
    split <;> simp
  rw [e0, e1, dotFrom_zCol _ _ (by omega) hm2, dotFrom_zCol _ _ (by omega) hm2, single_one_dotProduct] at key
  rw [key]
  by_cases hr : r = ⟨0, by omega⟩
  · subst hr
    unfold dotProduct
    rw [Finset.sum_eq_single (⟨0, by omega⟩ : Fin m)]
    · simp [zCol_zero hn hm]
    · intro i _ hi
      simp [Pi.single_apply, hi]
    · simp
  · rw [Pi.single_apply, if_neg hr]
    refine Finset.sum_eq_zero fun i _ => ?_
    by_cases hi : i = r
    · subst hi
      dsimp only
      rw [Pi.single_apply (⟨0, by omega⟩ : Fin m), if_neg hr, mul_zero, zero_mul]
    · dsimp only
      rw [Pi.single_apply, if_neg hi, zero_mul, zero_mul]

/-- Constants are reproduced. -/
theorem const_coefs {K : LinKit} {kind : Kind} {Y : Fin (p + 1) → Fin n → ℝ} {shift : Bool} (hn : 1 ≤ n) (hnp : n ≤ p)
    (hh : Handled kind n (p + 1)) (hp : WellPosed kind Y shift) (hc : shift = true ∨ dofs kind n (p + 1) ≤ p + 1)
    {B : Matrix (Fin (dofs kind n (p + 1))) (Fin (p + 1)) ℝ} (hB : Lin K kind Y shift (dofs kind n (p + 1)) B) :
    B *ᵥ (fun _ => 1) = Pi.single ⟨0, by have := dofs_ge kind hnp; omega⟩ 1 := by
  have h1 := dofs_ge kind hnp
  have h2 := dofs_le hh
  generalize he0 : (Pi.single ⟨0, by omega⟩ 1 : Fin (dofs kind n (p + 1)) → ℝ) = e0
  have hones : (zMat (dofs kind n (p + 1)) (kind.frame Y shift).pts)ᵀ *ᵥ e0 = fun _ => 1 := by
    funext j
    rw [← he0, mulVec_single_one]
    exact zCol_zero hn h1 _
  refine sub_eq_zero.1 ?_
  rcases Nat.lt_or_ge (p + 1) (dofs kind n (p + 1)) with hlt | hge
  · -- fewer points: the base point is the origin
    have hsh : shift = true := by rcases hc with h | h; · exact h
                                  omega
    obtain ⟨C, hC⟩ := hB.range hlt.le
    have hz0 : e0 = zMat (dofs kind n (p + 1)) (kind.frame Y shift).pts *ᵥ Pi.single 0 1 := by
      rw [mulVec_single_one, ← he0, ← zCol_origin hn h1 h2]
      funext r
      show _ = zCol _ ((kind.frame Y shift).pts 0) r
      congr 1
      subst hsh
      unfold Kind.frame buildFrame
      rw [if_pos ⟨rfl, by omega⟩]
      funext i
      simp
    have hd : B *ᵥ (fun _ => 1) - e0 = zMat (dofs kind n (p + 1)) (kind.frame Y shift).pts *ᵥ (C *ᵥ (fun _ => 1) - Pi.single 0 1) := by
      rw [mulVec_sub, mulVec_mulVec, ← hC, ← hz0]
    have hz : (zMat (dofs kind n (p + 1)) (kind.frame Y shift).pts)ᵀ *ᵥ (B *ᵥ (fun _ => 1) - e0) = 0 := by
      rw [mulVec_sub, mulVec_mulVec, hB.fit hlt.le, one_mulVec, hones, sub_self]
    refine dotProduct_self_eq_zero.1 ?_
    nth_rewrite 1 [hd]
    rw [dotProduct_comm, dotProduct_mulVec, ← mulVec_transpose, hz, zero_dotProduct]
  · have hinj : Poised (zMat (dofs kind n (p + 1)) (kind.frame Y shift).pts)ᵀ := by
      unfold WellPosed at hp
      by_cases hle : p + 1 ≤ dofs kind n (p + 1)
      · rw [if_pos hle] at hp
        exact poised_transpose' (le_antisymm hge hle) hp
      · rwa [if_neg hle] at hp
    have hnormal : zMat (dofs kind n (p + 1)) (kind.frame Y shift).pts *
        ((zMat (dofs kind n (p + 1)) (kind.frame Y shift).pts)ᵀ * B) = zMat (dofs kind n (p + 1)) (kind.frame Y shift).pts := by
      rcases Nat.lt_or_ge (dofs kind n (p + 1)) (p + 1) with h | h
      · exact hB.normal h
      · rw [hB.fit h, Matrix.mul_one]
    refine hinj _ (dotProduct_self_eq_zero.1 ?_)
    rw [dotProduct_mulVec, vecMul_transpose, mulVec_mulVec, mulVec_sub, mulVec_mulVec, Matrix.mul_assoc, hnormal, ← mulVec_mulVec, hones,
      sub_self, zero_dotProduct]

/-- **C76.** In the mode `model`, for every kind with complete code and a set that is poised for it, with the shift that the program uses (or
with at least as many points as coefficients), the matrix is computed without exception, it is symmetric, and it is the Hessian of the Lagrangian
of the current models with the current multipliers: its quadratic form gives the second differences of that function at every point.  For linear
models it is zero. -/
theorem C76_model_hessian {K : LinKit} (hK : GoodKit K) (kind : Kind) (Y : Fin (p + 1) → Fin n → ℝ) (shift : Bool) (hn : 1 ≤ n)
    (hnp : n ≤ p) (hh : Handled kind n (p + 1)) (hp : WellPosed kind Y shift) (hc : shift = true ∨ dofs kind n (p + 1) ≤ p + 1)
    (fY : Fin (p + 1) → ℝ) (ceY : Fin me → Fin (p + 1) → ℝ) (lm sl : Fin me → ℝ) :
    ∃ cf cc M, modelCoefs K kind Y shift fY = .ok cf ∧ (∀ r, modelCoefs K kind Y shift (ceY r) = .ok (cc r)) ∧
      hessModel K kind Y shift fY ceY lm sl = .ok M ∧ Mᵀ = M ∧
      (∀ x v, lagrModel kind Y shift cf cc lm sl (x + v) + lagrModel kind Y shift cf cc lm sl (x - v) -
        2 * lagrModel kind Y shift cf cc lm sl x = v ⬝ᵥ M *ᵥ v) ∧
      (kind = .subbasis → p = n → M = 0) := by
  obtain ⟨B, hB⟩ := lin_all hK kind Y shift hh hp
  have h1 := dofs_ge kind hnp
  have h2 := dofs_le hh
  have hM : hessModel K kind Y shift fY ceY lm sl = .ok (hessP n (B *ᵥ lagfY fY ceY lm sl)
      (padTo (dofs kind n (p + 1)) (kind.frame Y shift).scale) shift) := by
    unfold hessModel
    split
    · unfold hessOf
      rw [hB.model]
      rfl
    · rename_i h
      have h0 : me = 0 := not_not.1 h
      subst h0
      have : lagfY fY ceY lm sl = fY := by
        funext j
        unfold lagfY
        rw [Finset.univ_eq_empty, Finset.sum_empty, add_zero]
      unfold hessOf
      rw [hB.model, this]
      rfl
  refine ⟨_, _, _, hB.model fY, fun r => hB.model (ceY r), hM, ?_, fun x v => ?_, fun hk hpn => ?_⟩
  · ext i j
    rw [transpose_apply]
    exact (C35_shapes _ _ shift 0).2.1 j i
  · rw [← second_diff kind Y shift hn hnp hh _ x v]
    have hlin : ∀ z, value kind Y shift ⟨_, B *ᵥ lagfY fY ceY lm sl⟩ z =
        lagrModel kind Y shift ⟨_, B *ᵥ fY⟩ (fun r => ⟨_, B *ᵥ ceY r⟩) lm sl z := by
      intro z
      have hv := fun c => value_eq kind Y shift hn hnp h1 h2 c z
      have he : B *ᵥ lagfY fY ceY lm sl = B *ᵥ fY + ∑ r, (lm r • (B *ᵥ ceY r) - (lm r * sl r) • (B *ᵥ fun _ => 1)) := by
        have hl : lagfY fY ceY lm sl = fY + ∑ r, (lm r • ceY r - (lm r * sl r) • fun _ => 1) := by
          funext j
          simp only [lagfY, Pi.add_apply, Finset.sum_apply, Pi.sub_apply, Pi.smul_apply, smul_eq_mul, mul_one]
          congr 1
          exact Finset.sum_congr rfl fun r _ => mul_sub _ _ _
        rw [hl, mulVec_add, mulVec_sum]
        congr 1
        exact Finset.sum_congr rfl fun r _ => by rw [mulVec_sub, mulVec_smul, mulVec_smul]
      unfold lagrModel
      rw [hv, he, add_dotProduct, sum_dotProduct, hv]
      congr 1
      refine Finset.sum_congr rfl fun r _ => ?_
      rw [hv, sub_dotProduct, smul_dotProduct, smul_dotProduct, const_coefs hn hnp hh hp hc hB, single_one_dotProduct,
        zCol_zero hn h1, smul_eq_mul, smul_eq_mul]
      ring
    rw [hlin, hlin, hlin]
  · subst hk
    exact (C35_shapes _ _ shift 0).2.2.1 (by show p + 1 ≤ n + 1; omega)

namespace Ex

/-- The points 0, 1 and 2. -/
noncomputable def line3 : Fin (2 + 1) → Fin 1 → ℝ := fun j _ => (j : ℕ)

theorem wp_line3 : WellPosed .subbasis line3 false := by
  unfold WellPosed dofs
  rw [if_pos le_rfl]
  intro v hv
  have h0 := congrFun hv 0
  have h1 := congrFun hv 1
  have h2 := congrFun hv 2
  simp [mulVec, dotProduct, Fin.sum_univ_three, zMat, Kind.frame, buildFrame, Kind.size, col3', line3] at h0 h1 h2
  funext i
  fin_cases i <;> simp <;> linarith

end Ex

open Ex in
/-- Objective and constraint `x²` on 0, 1, 2, multiplier 3, squared slack 7: the second derivative of the Lagrangian is 8. -/
example : ∃ K M, GoodKit K ∧ hessModel (me := 1) K .subbasis line3 false ![0, 1, 4] (fun _ => ![0, 1, 4]) (fun _ => 3) (fun _ => 7) = .ok M ∧
    M 0 0 = 8 := by
  obtain ⟨K, hK⟩ := exists_goodKit
  have hh : Handled .subbasis 1 (2 + 1) := .inr ⟨by decide, by decide⟩
  obtain ⟨c, c1, c2, _⟩ := C75_models hK .subbasis line3 false le_rfl (by decide) hh wp_line3 ![0, 1, 4]
  obtain ⟨cf, cc, M, h1, h2, h3, _, h5, _⟩ := C76_model_hessian hK .subbasis line3 false le_rfl (by decide) hh wp_line3 (.inr le_rfl)
    ![0, 1, 4] (fun _ : Fin 1 => ![0, 1, 4]) (fun _ => 3) (fun _ => 7)
  refine ⟨K, M, hK, h3, ?_⟩
  have e1 : cf = ⟨_, c⟩ := by rw [c1] at h1; injection h1 with h; exact h.symm
  have e2 : cc 0 = ⟨_, c⟩ := by have := h2 0; rw [c1] at this; injection this with h; exact h.symm
  have hv := (c2 le_rfl).1
  have h := h5 (line3 1) (fun _ => 1)
  have a2 : line3 1 + (fun _ => 1) = line3 2 := by funext i; simp [line3]; norm_num
  have a0 : line3 1 - (fun _ => 1) = line3 0 := by funext i; simp [line3]
  rw [a2, a0] at h
  simp only [lagrModel, Fin.sum_univ_one, e1, e2, hv] at h
  simp [mulVec, dotProduct] at h
  linarith

/-! ## C77: the mode `bfgs` -/

/-- The gradient of the Lagrangian. -/
def Spec.lagGrad {n me : ℕ} (g : Fin n → ℝ) (a : Fin me → Fin n → ℝ) (lm : Fin me → ℝ) : Fin n → ℝ := fun i => g i + ∑ r, lm r * a r i

theorem y_eq (d : BfgsIn n me) : d.y = lagGrad d.gx d.gce d.lm - lagGrad d.g d.ae d.lm := by
  funext i
  unfold BfgsIn.y lagGrad
  simp only [Pi.sub_apply]
  have e : ∀ a : Fin me → Fin n → ℝ, ∑ r, a r i * d.lm r = ∑ r, d.lm r * a r i := fun a => Finset.sum_congr rfl fun r _ => mul_comm _ _
  by_cases h : me = 0
  · subst h
    simp
    ring
  · simp only [if_pos h, Pi.neg_apply, e]
    ring

theorem symPD_one : SymPD (1 : Matrix (Fin n) (Fin n) ℝ) := by
  refine ⟨fun i j => by rw [one_apply, one_apply]; simp only [eq_comm], fun v hv => ?_⟩
  rw [one_mulVec]
  exact dot_pos hv

/-- One call keeps the matrix symmetric positive definite. -/
theorem hessBfgs_pd {M : Matrix (Fin n) (Fin n) ℝ} (hM : SymPD M) (d : BfgsIn n me) : SymPD (hessBfgs M d).H := by
  unfold hessBfgs
  split
  · exact symPD_one
  · simp only
    split
    · exact (C31_bfgs_preserves_SPD _ _ _ _ symPD_one).1
    · exact (C31_bfgs_preserves_SPD _ _ _ _ hM).1

/-- **C77 (definiteness).** In the mode `bfgs` the matrix, initially the identity (`sqpdfo.py` L302), is symmetric positive definite after every sequence
of calls, whatever gradients, multipliers, steps and counters they get. -/
theorem C77_positive_definite (ds : List (BfgsIn n me)) : SymPD (ds.foldl (fun M d => (hessBfgs M d).H) 1) := by
  suffices h : ∀ (ds : List (BfgsIn n me)) (M : Matrix (Fin n) (Fin n) ℝ), SymPD M → SymPD (ds.foldl (fun M d => (hessBfgs M d).H) M) from
    h ds 1 symPD_one
  intro ds
  induction ds with
  | nil => exact fun M hM => hM
  | cons d ds ih => exact fun M hM => ih _ (hessBfgs_pd hM d)

/-- **C77 (secant equation): what holds.** After a call with a nonzero step and without restart, the matrix maps the step to the change of the gradient
of the Lagrangian with the current multipliers if this change has enough curvature along the step; otherwise to the damped change, and the curvature
along the step is a fifth of the old one.  After a zero step the matrix is the identity and the status is 30.
Missing: that the change of the gradient belongs to the step, see `C77_rejected_steps`. -/
theorem C77_secant_partial {M : Matrix (Fin n) (Fin n) ℝ} (hM : SymPD M) (d : BfgsIn n me)
    (hr : ¬ (d.restart > 0 ∧ d.nsimul % d.restart = 0)) :
    (d.s = 0 → (hessBfgs M d).H = 1 ∧ (hessBfgs M d).flag = 30) ∧
    (d.s ≠ 0 → (hessBfgs M d).flag = 0 ∧
      (1 / 5 * (d.s ⬝ᵥ M *ᵥ d.s) ≤ (lagGrad d.gx d.gce d.lm - lagGrad d.g d.ae d.lm) ⬝ᵥ d.s →
        (hessBfgs M d).H *ᵥ d.s = lagGrad d.gx d.gce d.lm - lagGrad d.g d.ae d.lm) ∧
      ((lagGrad d.gx d.gce d.lm - lagGrad d.g d.ae d.lm) ⬝ᵥ d.s < 1 / 5 * (d.s ⬝ᵥ M *ᵥ d.s) →
        ∃ c : ℝ, 0 < c ∧ c < 1 ∧ (hessBfgs M d).H *ᵥ d.s = c • (lagGrad d.gx d.gce d.lm - lagGrad d.g d.ae d.lm) + (1 - c) • (M *ᵥ d.s) ∧
          d.s ⬝ᵥ (hessBfgs M d).H *ᵥ d.s = 1 / 5 * (d.s ⬝ᵥ M *ᵥ d.s))) := by
  have hC := C32_secant_powell M d.y d.s (decide (d.niter = 1)) hM
  rw [← y_eq]
  constructor
  · intro h0
    have hf := hC.1.2 h0
    unfold hessBfgs
    rw [if_neg hr]
    simp only [hf, if_true]
    unfold bfgsUpdate
    rw [if_pos h0]
    exact ⟨rfl, rfl⟩
  · intro hs
    obtain ⟨hf, hsec, hpc, hpos, hle, hcurv, _, hd, _⟩ := hC.2 hs
    have he : hessBfgs M d = bfgsUpdate M d.y d.s (decide (d.niter = 1)) := by
      unfold hessBfgs
      rw [if_neg hr]
      simp only [hf]
      rfl
    rw [he]
    refine ⟨hf, fun h => ?_, fun h => ?_⟩
    · rw [hsec, hpc.2 h, one_smul, sub_self, zero_smul, add_zero]
    · have hne : (bfgsUpdate M d.y d.s (decide (d.niter = 1))).pc ≠ 1 := fun h1 => absurd (hpc.1 h1) (not_le.2 h)
      exact ⟨(bfgsUpdate M d.y d.s (decide (d.niter = 1))).pc, hpos, lt_of_le_of_ne hle hne, hsec, hd hne⟩

/-- **C77 (rejected steps): refuted.** Although the iterate stays after a rejected step, the matrix is updated with the step to the rejected trial point
and the change of the model gradient at the iterate.  If the gradient does not change (as with exact models), every rejected step divides the
curvature along it by 5, whatever the curvature of the functions: `k` rejections of the same trial point divide it by `5^k`. -/
theorem C77_rejected_steps {M : Matrix (Fin n) (Fin n) ℝ} (hM : SymPD M) (g : Fin n → ℝ) (a : Fin me → Fin n → ℝ) (lm : Fin me → ℝ)
    (x xnew : Fin n → ℝ) (hx : xnew ≠ x) (nsim : ℕ) (ks : List ℕ) :
    (xnew - x) ⬝ᵥ (ks.foldl (fun M k => (hessBfgs M (rejectedIn g g a a lm x xnew k nsim)).H) M) *ᵥ (xnew - x) =
      (1 / 5) ^ ks.length * ((xnew - x) ⬝ᵥ M *ᵥ (xnew - x)) := by
  induction ks generalizing M with
  | nil => simp
  | cons k ks ih =>
    rw [List.foldl_cons, ih (hessBfgs_pd hM _)]
    have hs : (rejectedIn g g a a lm x xnew k nsim).s ≠ 0 := sub_ne_zero.2 hx
    have h := ((C77_secant_partial hM (rejectedIn g g a a lm x xnew k nsim) (by simp [rejectedIn])).2 hs).2.2
    have hy : lagGrad (rejectedIn g g a a lm x xnew k nsim).gx (rejectedIn g g a a lm x xnew k nsim).gce
        (rejectedIn g g a a lm x xnew k nsim).lm - lagGrad (rejectedIn g g a a lm x xnew k nsim).g
        (rejectedIn g g a a lm x xnew k nsim).ae (rejectedIn g g a a lm x xnew k nsim).lm = 0 := sub_self _
    rw [hy, zero_dotProduct] at h
    obtain ⟨c, _, _, _, h4⟩ := h (mul_pos (by norm_num) (hM.2 _ hs))
    have h5 : (xnew - x) ⬝ᵥ (hessBfgs M (rejectedIn g g a a lm x xnew k nsim)).H *ᵥ (xnew - x) =
      1 / 5 * ((xnew - x) ⬝ᵥ M *ᵥ (xnew - x)) := h4
    rw [h5, List.length_cons, pow_succ]
    ring

/-- A consequence for `5 x²`: the exact second derivative 10 becomes 2 after one rejected step from 0. -/
theorem C77_false : ∃ (A : Matrix (Fin 1) (Fin 1) ℝ) (x xnew : Fin 1 → ℝ), SymPD A ∧ xnew ≠ x ∧
    (hessBfgs A (rejectedIn (me := 0) (A *ᵥ x) (A *ᵥ x) (fun r => r.elim0) (fun r => r.elim0) (fun r => r.elim0) x xnew 2 5)).H *ᵥ (xnew - x) ≠
      A *ᵥ xnew - A *ᵥ x := by
  refine ⟨10 • 1, 0, 1, ?_, one_ne_zero, fun h => ?_⟩
  · refine ⟨fun i j => by simp [Subsingleton.elim i j], fun v hv => ?_⟩
    rw [smul_mulVec, one_mulVec, dotProduct_smul]
    have := dot_pos hv
    rw [nsmul_eq_mul]
    norm_num
    exact this
  · have hA : SymPD ((10 : ℕ) • (1 : Matrix (Fin 1) (Fin 1) ℝ)) := by
      refine ⟨fun i j => by simp [Subsingleton.elim i j], fun v hv => ?_⟩
      rw [smul_mulVec, one_mulVec, dotProduct_smul, nsmul_eq_mul]
      have := dot_pos hv
      norm_num
      exact this
    have h1 := C77_rejected_steps (me := 0) hA (((10 : ℕ) • (1 : Matrix (Fin 1) (Fin 1) ℝ)) *ᵥ (0 : Fin 1 → ℝ)) (fun r => r.elim0) (fun r => r.elim0)
      0 1 one_ne_zero 5 [2]
    simp only [List.foldl_cons, List.foldl_nil] at h1
    rw [h] at h1
    norm_num [smul_mulVec] at h1

/-- Two rejected steps to the same trial point divide the curvature by 25. -/
example : ((1 : Fin 1 → ℝ) - 0) ⬝ᵥ ([1, 2].foldl (fun M k => (hessBfgs M (rejectedIn (me := 0) 0 0 (fun r => r.elim0) (fun r => r.elim0)
    (fun r => r.elim0) 0 1 k 7)).H) (1 : Matrix (Fin 1) (Fin 1) ℝ)) *ᵥ (1 - 0) = 1 / 25 := by
  rw [C77_rejected_steps symPD_one _ _ _ _ _ one_ne_zero]
  norm_num

/-- An accepted step of length 1 on `3/2 x²`, multiplier-free: the new matrix has the right second derivative. -/
example : (hessBfgs (1 : Matrix (Fin 1) (Fin 1) ℝ) (⟨0, fun r => r.elim0, fun _ => 3, fun r => r.elim0, fun r => r.elim0, 1, 2, 4, 0, 0⟩ : BfgsIn 1 0)).H
    *ᵥ 1 = fun _ => 3 := by
  have h := ((C77_secant_partial (me := 0) symPD_one
    ⟨0, fun r => r.elim0, fun _ => 3, fun r => r.elim0, fun r => r.elim0, 1, 2, 4, 0, 0⟩ (by simp)).2 (one_ne_zero (α := Fin 1 → ℝ))).2.1
  have e : lagGrad (fun _ => 3) (fun r : Fin 0 => r.elim0) (fun r => r.elim0) - lagGrad 0 (fun r : Fin 0 => r.elim0) (fun r => r.elim0) =
      (fun _ => 3 : Fin 1 → ℝ) := by
    funext i
    simp [lagGrad]
  simp only [e] at h
  exact h (by norm_num [dotProduct])

#print axioms C76_model_hessian
#print axioms C77_positive_definite
#print axioms C77_secant_partial
#print axioms C77_rejected_steps
#print axioms C77_false

end Sqpdfo
