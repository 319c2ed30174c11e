import Verif.Model.Multiplier
import Verif.Props.C33_C52_Convex
import Mathlib.Tactic.Abel
import Mathlib.Tactic.FinCases

/-! # C39, C40: multipliers -/

set_option linter.unusedSectionVars false

namespace Sqpdfo
open Spec Matrix
variable {K : Type} [Field K] [LinearOrder K] [IsStrictOrderedRing K] {n m ns : ℕ}

/-- `s` respects the bounds handed to `blls_` up to `ε` (with `ε = 0` for an exactly feasible
result). -/
def BllsFeasible (I : MultIn K n m ns) (ε : K) (s : {i // MFree I i} → K) : Prop :=
  ∀ i, (loZero I i.1 = true → -ε ≤ s i) ∧ (upZero I i.1 = true → s i ≤ ε)

theorem lmAll_bounds {I : MultIn K n m ns} {ε : K} (hε : 0 ≤ ε) {s : {i // MFree I i} → K}
    (hs : BllsFeasible I ε s) (i : MRow n m ns) :
    (loZero I i = true → -ε ≤ lmAll I s i) ∧ (upZero I i = true → lmAll I s i ≤ ε) ∧
    (loZero I i = true → upZero I i = true → lmAll I s i = 0) := by
  unfold lmAll
  split_ifs with h
  · refine ⟨(hs ⟨i, h⟩).1, (hs ⟨i, h⟩).2, fun h1 h2 => absurd ⟨h1, h2⟩ h⟩
  · refine ⟨fun _ => by linarith, fun _ => hε, fun _ _ => rfl⟩

/-- C39: for a feasible result of the least-squares solver, multipliers of variables without
bounds vanish, with only an upper (lower) bound they are nonnegative (nonpositive), at a bound
active within `dxmin` they have the corresponding sign; in particular all sign restrictions hold
exactly if the solver is exactly feasible (`ε = 0`).  `lb`, `ub` are the bounds handed over
(`none`: no bounds) and bounds beyond `options.inf` count as infinite. -/
theorem C39_signs (I : MultIn K n m ns) (ε : K) (hε : 0 ≤ ε) (s : {i // MFree I i} → K)
    (hs : BllsFeasible I ε s) (lb ub : Fin n → Fl K) (hlb : I.lb = some lb) (hub : I.ub = some ub)
    (i : Fin n) :
    (((lb i).le I.inf.neg = true ∧ I.inf.le (ub i) = true) → lmB I s i = 0) ∧
    ((lb i).le I.inf.neg = true → -ε ≤ lmB I s i) ∧
    (I.inf.le (ub i) = true → lmB I s i ≤ ε) ∧
    (∀ b, lb i = .fin b → I.inf.neg.lt (lb i) = true → |I.x i - b| < I.dxmin → lmB I s i ≤ ε) ∧
    (∀ b, ub i = .fin b → (ub i).lt I.inf = true → |I.x i - b| < I.dxmin → -ε ≤ lmB I s i) := by
  obtain ⟨h1, h2, h3⟩ := lmAll_bounds hε hs (.inl (.inl i))
  have hlo : loZero I (.inl (.inl i)) = ((lb i).le I.inf.neg ||
      ((ub i).lt I.inf && nearFl (I.x i) (ub i) I.dxmin)) := by
    simp [loZero, useBnd, hlb, hub]
  have hup : upZero I (.inl (.inl i)) = (I.inf.le (ub i) ||
      (I.inf.neg.lt (lb i) && nearFl (I.x i) (lb i) I.dxmin)) := by
    simp [upZero, useBnd, hlb, hub]
  rw [hlo] at h1 h3
  rw [hup] at h2 h3
  refine ⟨fun h => h3 (by simp [h.1]) (by simp [h.2]), fun h => h1 (by simp [h]),
    fun h => h2 (by simp [h]), ?_, ?_⟩
  · intro b hb hi hx
    rw [hb] at h2 hi
    exact h2 (by simp [hi, nearFl, hx])
  · intro b hb hi hx
    rw [hb] at h1 hi
    exact h1 (by simp [hi, nearFl, hx])

/-- C39 at the level of the callers (`options.inf` infinite): a variable farther than `1e-5` from
both bounds has multiplier exactly 0; if it is near the lower bound only, the multiplier is
nonpositive, near the upper bound only nonnegative. -/
theorem C39_caller (I : MultIn K n m ns) (ε : K) (hε : 0 ≤ ε) (s : {i // MFree I i} → K)
    (hs : BllsFeasible I ε s) (lb ub : Fin n → K) (hinf : I.inf = .pinf)
    (hlb : I.lb = some (callerLb lb I.x)) (hub : I.ub = some (callerUb ub I.x)) (i : Fin n) :
    (1 / 100000 ≤ |lb i - I.x i| → 1 / 100000 ≤ |ub i - I.x i| → lmB I s i = 0) ∧
    (1 / 100000 ≤ |ub i - I.x i| → lmB I s i ≤ ε) ∧
    (1 / 100000 ≤ |lb i - I.x i| → -ε ≤ lmB I s i) := by
  obtain ⟨h1, h2, h3, -, -⟩ := C39_signs I ε hε s hs _ _ hlb hub i
  have hL : 1 / 100000 ≤ |lb i - I.x i| → (callerLb lb I.x i).le I.inf.neg = true := by
    intro h
    unfold callerLb
    rw [if_neg (not_lt.2 h), hinf]
    rfl
  have hU : 1 / 100000 ≤ |ub i - I.x i| → I.inf.le (callerUb ub I.x i) = true := by
    intro h
    unfold callerUb
    rw [if_neg (not_lt.2 h), hinf]
    rfl
  exact ⟨fun a b => h1 ⟨hL a, hU b⟩, fun a => h3 (hU a), fun a => h2 (hL a)⟩

/-- Without bounds (the initial multiplier, `sqpdfo_prelim.py` L565) all bound multipliers are 0. -/
theorem C39_no_bounds (I : MultIn K n m ns) (s : {i // MFree I i} → K) (hinf : I.inf = .pinf)
    (hlb : I.lb = none) (hub : I.ub = none) (i : Fin n) : lmB I s i = 0 := by
  have : ¬ MFree I (.inl (.inl i)) := by
    unfold MFree
    simp [loZero, upZero, useBnd, hlb, hub, hinf, Fl.neg, Fl.le]
  unfold lmB lmAll
  rw [dif_neg this]

/-- The multipliers of the rows of the slack variables are 0 (a slack variable has no bounds), so
that in the direction of a slack variable the multiplier equation reduces to the derivative
`-2 sl_k` of `c_k - sl_k²` times the multiplier of that constraint. -/
theorem C39_slack_rows (I : MultIn K n m ns) (s : {i // MFree I i} → K) (k : Fin ns) :
    lmAll I s (.inl (.inr k)) = 0 ∧
    (gExt I + (multA I.ae I.sl)ᵀ *ᵥ lmAll I s) (.inr k) = -2 * I.sl k * lmE I s (.inr k) := by
  have h0 : ∀ j, lmAll I s (.inl (.inr j)) = 0 := by
    intro j
    unfold lmAll
    rw [dif_neg]
    simp [MFree, loZero, upZero]
  refine ⟨h0 k, ?_⟩
  simp [mulVec, dotProduct, multA, slackJac, slackBlock, gExt, h0, lmE]

/-- The extended Jacobian is the derivative of the constraints with slacks: moving the slacks by
`t` changes `c - [0; sl²]` by the slack block times `t`, up to `t²`. -/
theorem C39_slack_derivative (m : ℕ) (c : Fin m ⊕ Fin ns → K) (sl t : Fin ns → K)
    (r : Fin m ⊕ Fin ns) :
    c r - Sum.elim (fun _ => 0) (fun k => (sl k + t k) ^ 2) r =
      (c r - Sum.elim (fun _ => 0) (fun k => sl k ^ 2) r) + (slackBlock m sl *ᵥ t) r -
        Sum.elim (fun _ => 0) (fun k => t k ^ 2) r := by
  rcases r with r | r
  · simp [mulVec, dotProduct, slackBlock]
  · simp [mulVec, dotProduct, slackBlock]
    ring

example : lmAll (K := ℚ) (n := 1) (m := 0) (ns := 1) {
      x := fun _ => 0, lb := none, ub := none, inf := .pinf, dxmin := 1 / 100, g := fun _ => 3,
      ae := fun _ _ => 1, sl := fun _ => 2 } (fun _ => 5) (.inr (.inr 0)) = 5 := by
  unfold lmAll
  rw [dif_pos]
  simp [MFree, loZero, upZero]

/-- Instance: one variable at its lower bound 0, upper bound infinite; the component is free with
upper bound 0. -/
example :
    let I : MultIn ℚ 1 0 0 := {
      x := fun _ => 0, lb := some (fun _ => .fin 0), ub := some (fun _ => .pinf),
      inf := .pinf, dxmin := 1 / 100, g := fun _ => 3, ae := fun _ _ => 0, sl := fun _ => 0 }
    BllsFeasible I 0 (fun _ => -3) ∧ MFree I (.inl (.inl 0)) ∧
      lmB I (fun _ => -3) 0 = -3 := by
  refine ⟨?_, ?_, ?_⟩
  · intro i
    rcases i with ⟨i, hi⟩
    rcases i with (i | i) | (i | i)
    · constructor
      · intro h; exfalso; revert h; simp [loZero, useBnd, Fl.neg, Fl.le, Fl.lt]
      · intro _; norm_num
    · exact i.elim0
    · exact i.elim0
    · exact i.elim0
  · unfold MFree; simp [loZero, useBnd, Fl.neg, Fl.le, Fl.lt]
  · unfold lmB lmAll
    rw [dif_pos]
    unfold MFree; simp [loZero, useBnd, Fl.neg, Fl.le, Fl.lt]

/-! ## C40 -/

/-- Gradient of the Lagrangian of `f + lm_B · x + lm_S · sl + lm_E · (c - [0; sl²])` with respect to the
variables and the slacks. -/
def Spec.lagrGrad (I : MultIn K n m ns) (lm : MRow n m ns → K) : Fin n ⊕ Fin ns → K
  | .inl j => I.g j + lm (.inl (.inl j)) + ∑ r, I.ae r j * lm (.inr r)
  | .inr k => lm (.inl (.inr k)) - 2 * I.sl k * lm (.inr (.inr k))

/-- Squared norm of the gradient of the Lagrangian. -/
def lsq (I : MultIn K n m ns) (lm : MRow n m ns → K) : K :=
  ∑ i, Spec.lagrGrad I lm i ^ 2

theorem lsq_eq (I : MultIn K n m ns) (lm : MRow n m ns → K) : lsq I lm =
    (gExt I + (multA I.ae I.sl)ᵀ *ᵥ lm) ⬝ᵥ (gExt I + (multA I.ae I.sl)ᵀ *ᵥ lm) := by
  have h : gExt I + (multA I.ae I.sl)ᵀ *ᵥ lm = Spec.lagrGrad I lm := by
    funext i
    rcases i with j | k
    · simp [gExt, mulVec, dotProduct, multA, slackJac, Spec.lagrGrad, add_assoc]
    · simp [gExt, mulVec, dotProduct, multA, slackJac, slackBlock, Spec.lagrGrad]
      ring
  rw [h]
  simp [lsq, dotProduct, pow_two]

/-- Sign restrictions on all multipliers. -/
def SignFeasible (I : MultIn K n m ns) (lm : MRow n m ns → K) : Prop :=
  ∀ i, (loZero I i = true → 0 ≤ lm i) ∧ (upZero I i = true → lm i ≤ 0)

/-- `s` solves the bounded least-squares problem handed to `blls_` exactly. -/
def BllsExact (I : MultIn K n m ns) (B : Matrix {i // MFree I i} {i // MFree I i} K)
    (s : {i // MFree I i} → K) : Prop :=
  BllsFeasible I 0 s ∧ ∀ t, BllsFeasible I 0 t →
    (B *ᵥ s - multRhs I) ⬝ᵥ (B *ᵥ s - multRhs I) ≤ (B *ᵥ t - multRhs I) ⬝ᵥ (B *ᵥ t - multRhs I)

/-- `A Aᵀ` has no negative eigenvalue, so `check_convex` leaves it alone. -/
theorem multAA_eq (I : MultIn K n m ns) (ev d : MRow n m ns → K)
    (v : Matrix (MRow n m ns) (MRow n m ns) K)
    (h : EigDecomp (multA I.ae I.sl * (multA I.ae I.sl)ᵀ) v d)
    (hev : ∀ μ, (∃ i, ev i = μ) ↔ ∃ i, d i = μ) :
    multAA I ev d v =
      (multA I.ae I.sl * (multA I.ae I.sl)ᵀ).submatrix Subtype.val Subtype.val := by
  unfold multAA
  rw [(C33_convexify _ v ev d h hev).1]
  rintro μ ⟨x, hx, hAx⟩
  have h1 : x ⬝ᵥ (multA I.ae I.sl * (multA I.ae I.sl)ᵀ) *ᵥ x = μ * (x ⬝ᵥ x) := by
    rw [hAx, dotProduct_smul, smul_eq_mul]
  have h2 : 0 ≤ x ⬝ᵥ (multA I.ae I.sl * (multA I.ae I.sl)ᵀ) *ᵥ x := by
    rw [← mulVec_mulVec, dotProduct_mulVec, ← mulVec_transpose]
    exact Finset.sum_nonneg fun i _ => mul_self_nonneg _
  rw [h1] at h2
  by_contra hneg
  push Not at hneg
  nlinarith [dot_self_pos hx]

theorem dot_self_nonneg' {ι : Type} [Fintype ι] (v : ι → K) : 0 ≤ v ⬝ᵥ v :=
  Finset.sum_nonneg fun i _ => mul_self_nonneg (v i)

theorem eq_zero_of_dot {ι : Type} [Fintype ι] {v : ι → K} (h : v ⬝ᵥ v = 0) : v = 0 := by
  by_contra hv
  exact absurd h (dot_self_pos hv).ne'

theorem dot_expand {ι : Type} [Fintype ι] (r w : ι → K) (τ : K) :
    (r + τ • w) ⬝ᵥ (r + τ • w) = r ⬝ᵥ r + 2 * τ * (r ⬝ᵥ w) + τ ^ 2 * (w ⬝ᵥ w) := by
  rw [add_dotProduct, dotProduct_add, dotProduct_add, smul_dotProduct, smul_dotProduct,
    dotProduct_smul, dotProduct_smul, dotProduct_comm w r]
  simp only [smul_eq_mul]; ring

/-- First-order condition of a least-squares minimiser. -/
theorem min_orth {ι κ : Type} [Fintype ι] [Fintype κ] (B : Matrix ι κ K) (b : ι → K) (s : κ → K)
    (hmin : ∀ t, (B *ᵥ s - b) ⬝ᵥ (B *ᵥ s - b) ≤ (B *ᵥ t - b) ⬝ᵥ (B *ᵥ t - b)) :
    Bᵀ *ᵥ (B *ᵥ s - b) = 0 := by
  set r := B *ᵥ s - b with hr
  set w := Bᵀ *ᵥ r with hw
  apply eq_zero_of_dot
  have key : ∀ τ : K, r ⬝ᵥ r ≤ r ⬝ᵥ r - 2 * τ * (w ⬝ᵥ w) + τ ^ 2 * ((B *ᵥ w) ⬝ᵥ (B *ᵥ w)) := by
    intro τ
    have h1 := hmin (s - τ • w)
    have h2 : B *ᵥ (s - τ • w) - b = r - τ • (B *ᵥ w) := by
      rw [mulVec_sub, mulVec_smul, hr]; abel
    have h3 : r ⬝ᵥ B *ᵥ w = w ⬝ᵥ w := by
      rw [dotProduct_mulVec, ← mulVec_transpose]
    have h4 : (r - τ • (B *ᵥ w)) ⬝ᵥ (r - τ • (B *ᵥ w)) =
        r ⬝ᵥ r - 2 * τ * (w ⬝ᵥ w) + τ ^ 2 * ((B *ᵥ w) ⬝ᵥ (B *ᵥ w)) := by
      have := dot_expand r (B *ᵥ w) (-τ)
      rw [neg_smul, ← sub_eq_add_neg, h3] at this
      rw [this]; ring
    rw [h2, h4] at h1
    exact h1
  have hw0 := dot_self_nonneg' w
  have hb0 := dot_self_nonneg' (B *ᵥ w)
  by_contra hne
  have hwpos : 0 < w ⬝ᵥ w := lt_of_le_of_ne hw0 (Ne.symm hne)
  have hden : 0 < (B *ᵥ w) ⬝ᵥ (B *ᵥ w) + 1 := by linarith
  have h5 := key ((w ⬝ᵥ w) / ((B *ᵥ w) ⬝ᵥ (B *ᵥ w) + 1))
  set D := (B *ᵥ w) ⬝ᵥ (B *ᵥ w) with hD
  set a := w ⬝ᵥ w with ha
  have h6 : (a / (D + 1)) ^ 2 * D ≤ a / (D + 1) * a := by
    have : a / (D + 1) * D ≤ a := by
      rw [div_mul_eq_mul_div, div_le_iff₀ hden]; nlinarith
    calc (a / (D + 1)) ^ 2 * D = a / (D + 1) * (a / (D + 1) * D) := by ring
      _ ≤ a / (D + 1) * a := mul_le_mul_of_nonneg_left this (div_nonneg hw0 hden.le)
  have h7 : 0 < a / (D + 1) * a := mul_pos (div_pos hwpos hden) hwpos
  linarith

/-- C40, full statement: *the multiplier minimises `‖g + Aᵀ lm‖` over all multipliers that
satisfy the sign restrictions*.  This is false (`C40_not_least_squares`), because the solver
minimises `‖A (g + Aᵀ lm)‖`.  Proved (`_partial`): the claim, for an exact solution of the
reduced problem, if no free component is sign restricted. -/
theorem C40_least_squares_partial (I : MultIn K n m ns) (ev d : MRow n m ns → K)
    (v : Matrix (MRow n m ns) (MRow n m ns) K)
    (h : EigDecomp (multA I.ae I.sl * (multA I.ae I.sl)ᵀ) v d)
    (hev : ∀ μ, (∃ i, ev i = μ) ↔ ∃ i, d i = μ) (s : {i // MFree I i} → K)
    (hs : BllsExact I (multAA I ev d v) s)
    (hfree : ∀ i, MFree I i → loZero I i = false ∧ upZero I i = false) :
    SignFeasible I (lmAll I s) ∧
    ∀ lm, SignFeasible I lm → lsq I (lmAll I s) ≤ lsq I lm := by
  have hzero : ∀ lm, SignFeasible I lm → ∀ i, ¬ MFree I i → lm i = 0 := by
    intro lm hlm i hi
    have hi' : loZero I i = true ∧ upZero I i = true := not_not.1 hi
    exact le_antisymm ((hlm i).2 hi'.2) ((hlm i).1 hi'.1)
  have hSF : SignFeasible I (lmAll I s) := by
    intro i
    have := lmAll_bounds (le_refl (0 : K)) hs.1 i
    exact ⟨fun hl => by simpa using this.1 hl, this.2.1⟩
  refine ⟨hSF, fun lm hlm => ?_⟩
  rw [multAA_eq I ev d v h hev] at hs
  set A := multA I.ae I.sl with hA
  -- rows of the free components
  set M : Matrix {i // MFree I i} (Fin n ⊕ Fin ns) K := A.submatrix Subtype.val id with hM
  have hB : (A * Aᵀ).submatrix (Subtype.val : {i // MFree I i} → _) Subtype.val = M * Mᵀ := by
    ext i j; simp [hM, Matrix.mul_apply]
  have hrhs : multRhs I = - (M *ᵥ gExt I) := by
    funext i; simp [multRhs, hM, mulVec, dotProduct, ← hA]
  have hT : ∀ w : MRow n m ns → K, (∀ i, ¬ MFree I i → w i = 0) →
      Aᵀ *ᵥ w = Mᵀ *ᵥ (fun i => w i.1) := by
    intro w hw
    funext j
    simp only [mulVec, dotProduct, hM, transpose_apply, submatrix_apply, id]
    rw [← Finset.sum_subtype (s := Finset.univ.filter (MFree I)) (p := MFree I) (by simp)
      (fun i => A i j * w i), Finset.sum_filter]
    apply Finset.sum_congr rfl
    intro i _
    split_ifs with hi
    · rfl
    · rw [hw i hi, mul_zero]
  have hall : ∀ t : {i // MFree I i} → K, BllsFeasible I 0 t := by
    intro t i
    have := hfree i.1 i.2
    constructor
    · intro h1; rw [this.1] at h1; exact absurd h1 (by simp)
    · intro h1; rw [this.2] at h1; exact absurd h1 (by simp)
  have hmin := min_orth (M * Mᵀ) (multRhs I) s (fun t => by
    have := hs.2 t (hall t)
    rw [hB] at this
    exact this)
  -- the reduced residual vanishes
  set u := gExt I + Mᵀ *ᵥ s with hu
  have hres : (M * Mᵀ) *ᵥ s - multRhs I = M *ᵥ u := by
    rw [hrhs, hu, mulVec_add, mulVec_mulVec]; abel
  rw [hres, transpose_mul, transpose_transpose, ← mulVec_mulVec] at hmin
  have h1 : Mᵀ *ᵥ (M *ᵥ u) = 0 := by
    apply eq_zero_of_dot
    have h2 : (M *ᵥ u) ⬝ᵥ M *ᵥ (Mᵀ *ᵥ (M *ᵥ u)) = 0 := by rw [hmin, dotProduct_zero]
    rwa [dotProduct_mulVec, ← mulVec_transpose] at h2
  have h3 : M *ᵥ u = 0 := by
    apply eq_zero_of_dot
    have h2 : u ⬝ᵥ Mᵀ *ᵥ (M *ᵥ u) = 0 := by rw [h1, dotProduct_zero]
    rwa [dotProduct_mulVec, ← mulVec_transpose, transpose_transpose] at h2
  -- compare
  have e1 : gExt I + Aᵀ *ᵥ lmAll I s = u := by
    rw [hT _ (hzero _ hSF), hu]
    congr 2
    funext i
    simp [lmAll, i.2]
  set t : {i // MFree I i} → K := fun i => lm i.1 with ht
  have e2 : gExt I + Aᵀ *ᵥ lm = u + Mᵀ *ᵥ (t - s) := by
    rw [hT _ (hzero _ hlm), hu, mulVec_sub]; abel
  rw [lsq_eq, lsq_eq, ← hA, e1, e2]
  have e3 : u ⬝ᵥ Mᵀ *ᵥ (t - s) = 0 := by
    rw [dotProduct_mulVec, ← mulVec_transpose, transpose_transpose, h3, zero_dotProduct]
  have e4 := dot_expand u (Mᵀ *ᵥ (t - s)) 1
  rw [one_smul, e3] at e4
  rw [e4]
  have := dot_self_nonneg' (Mᵀ *ᵥ (t - s))
  linarith

/-- Instance of the hypotheses: one variable without bounds and one constraint with
gradient 3/4, objective gradient 3; `A Aᵀ` has the eigenvalues 25/16 and 0, the free row is the
constraint and the multiplier is `-4`. -/
def c40J : MultIn ℚ 1 1 0 where
  x := fun _ => 0
  lb := none
  ub := none
  inf := .pinf
  dxmin := 1 / 100
  g := fun _ => 3
  ae := fun _ _ => 3 / 4
  sl := fun _ => 0

/-- Eigenvectors of `A Aᵀ` for `c40J`. -/
def c40Jv : Matrix (MRow 1 1 0) (MRow 1 1 0) ℚ
  | .inl _, .inl _ => 4 / 5
  | .inl _, .inr _ => -3 / 5
  | .inr _, .inl _ => 3 / 5
  | .inr _, .inr _ => 4 / 5

theorem c40J_free (i : MRow 1 1 0) : MFree c40J i ↔ i = .inr (.inl 0) := by
  rcases i with (i | i) | (i | i)
  · simp [MFree, loZero, upZero, c40J, useBnd, Fl.neg, Fl.le]
  · exact i.elim0
  · fin_cases i
    simp [MFree, loZero, upZero]
  · exact i.elim0

example : (∀ i, MFree c40J i → loZero c40J i = false ∧ upZero c40J i = false) ∧
    BllsExact c40J ((multA c40J.ae c40J.sl * (multA c40J.ae c40J.sl)ᵀ).submatrix
      Subtype.val Subtype.val) (fun _ => -4) ∧
    (∃ v d, EigDecomp (multA c40J.ae c40J.sl * (multA c40J.ae c40J.sl)ᵀ) v d) := by
  have h1 : ∀ i, MFree c40J i → loZero c40J i = false ∧ upZero c40J i = false := by
    intro i hi
    rw [(c40J_free i).1 hi]
    simp [loZero, upZero]
  have e2 : c40J.ae = fun _ _ => 3 / 4 := rfl
  have e1 : c40J.g = fun _ => 3 := rfl
  have huniv : (Finset.univ : Finset {i // MFree c40J i}) =
      {⟨.inr (.inl 0), (c40J_free _).2 rfl⟩} := by
    ext i
    simp only [Finset.mem_univ, Finset.mem_singleton, true_iff]
    exact Subtype.ext ((c40J_free i.1).1 i.2)
  refine ⟨h1, ⟨fun i => ?_, fun t _ => ?_⟩, ?_⟩
  · have := h1 i.1 i.2
    rw [this.1, this.2]; simp
  · have : (0 : ℚ) ≤ _ := dot_self_nonneg' (((multA c40J.ae c40J.sl *
      (multA c40J.ae c40J.sl)ᵀ).submatrix Subtype.val Subtype.val) *ᵥ t - multRhs c40J)
    refine le_trans (le_of_eq ?_) this
    simp only [dotProduct, Pi.sub_apply, mulVec, huniv, Finset.sum_singleton]
    simp [multRhs, multA, slackJac, gExt, Matrix.mul_apply, mulVec, dotProduct, e1, e2]
    norm_num
  · refine ⟨c40Jv, Sum.elim (fun _ => 25 / 16) (fun _ => 0), ?_, ?_, ?_⟩ <;>
    · ext i j
      rcases i with (i | i) | (i | i) <;> rcases j with (j | j) | (j | j) <;>
        first
        | exact i.elim0
        | exact j.elim0
        | (fin_cases i; fin_cases j
           simp [Matrix.mul_apply, c40Jv, multA, slackJac, e2, Matrix.diagonal_apply]
           try norm_num)

/-- The data of the counterexample: two variables, the first at its lower bound 0, the second
without bounds; one constraint with gradient `(1, 1)`; objective gradient `(0, 1)`. -/
def c40I : MultIn ℚ 2 1 0 where
  x := fun _ => 0
  lb := some ![.fin 0, .ninf]
  ub := some ![.pinf, .pinf]
  inf := .pinf
  dxmin := 1 / 100000000
  g := ![0, 1]
  ae := fun _ _ => 1
  sl := fun _ => 0

theorem c40_free (i : MRow 2 1 0) : MFree c40I i ↔ i = .inl (.inl 0) ∨ i = .inr (.inl 0) := by
  rcases i with (i | i) | (i | i)
  · fin_cases i
    · simp [MFree, loZero, upZero, c40I, useBnd, Fl.neg, Fl.le, Fl.lt, nearFl]
    · simp [MFree, loZero, upZero, c40I, useBnd, Fl.neg, Fl.le, Fl.lt, nearFl]
  · exact i.elim0
  · fin_cases i
    simp [MFree, loZero, upZero]
  · exact i.elim0

def c40p : {i // MFree c40I i} := ⟨.inl (.inl 0), (c40_free _).2 (Or.inl rfl)⟩
def c40q : {i // MFree c40I i} := ⟨.inr (.inl 0), (c40_free _).2 (Or.inr rfl)⟩

theorem c40_univ : (Finset.univ : Finset {i // MFree c40I i}) = {c40p, c40q} := by
  ext i
  have := (c40_free i.1).1 i.2
  simp only [Finset.mem_univ, Finset.mem_insert, Finset.mem_singleton, true_iff]
  rcases this with h | h
  · exact Or.inl (Subtype.ext h)
  · exact Or.inr (Subtype.ext h)

theorem c40_sum (f : {i // MFree c40I i} → ℚ) : ∑ i, f i = f c40p + f c40q := by
  rw [c40_univ, Finset.sum_pair]
  intro h
  have := congrArg Subtype.val h
  simp [c40p, c40q] at this

/-- The matrix `A Aᵀ` on the free rows. -/
def c40B : Matrix {i // MFree c40I i} {i // MFree c40I i} ℚ :=
  (multA c40I.ae c40I.sl * (multA c40I.ae c40I.sl)ᵀ).submatrix Subtype.val Subtype.val

theorem c40B_val : c40B c40p c40p = 1 ∧ c40B c40p c40q = 1 ∧ c40B c40q c40p = 1 ∧
    c40B c40q c40q = 2 ∧ multRhs c40I c40p = 0 ∧ multRhs c40I c40q = -1 := by
  refine ⟨?_, ?_, ?_, ?_, ?_, ?_⟩ <;>
    simp [c40B, c40p, c40q, multRhs, multA, slackJac, gExt, c40I, Matrix.mul_apply, mulVec,
      dotProduct, Fin.sum_univ_two]

theorem c40_obj (t : {i // MFree c40I i} → ℚ) :
    (c40B *ᵥ t - multRhs c40I) ⬝ᵥ (c40B *ᵥ t - multRhs c40I) =
      (t c40p + t c40q) ^ 2 + (t c40p + 2 * t c40q + 1) ^ 2 := by
  obtain ⟨h1, h2, h3, h4, h5, h6⟩ := c40B_val
  simp only [dotProduct, mulVec, Pi.sub_apply, c40_sum, h1, h2, h3, h4, h5, h6]
  ring

/-- The solution found by the code. -/
def c40s : {i // MFree c40I i} → ℚ := fun i => if i = c40p then 0 else -2 / 5

theorem c40s_val : c40s c40p = 0 ∧ c40s c40q = -2 / 5 := by
  have : c40q ≠ c40p := by
    intro h
    have := congrArg Subtype.val h
    simp [c40p, c40q] at this
  simp [c40s, this]

/-- Negation of C40: an instance and an exact solution `(0, -2/5)` of the problem solved by the
code that does not minimise `‖g + Aᵀ lm‖`: the multiplier `(0, -1/2)` is feasible and better. -/
theorem C40_not_least_squares :
    ∃ (I : MultIn ℚ 2 1 0) (s : {i // MFree I i} → ℚ),
      BllsExact I ((multA I.ae I.sl * (multA I.ae I.sl)ᵀ).submatrix Subtype.val Subtype.val) s ∧
      ∃ lm, SignFeasible I lm ∧ lsq I lm < lsq I (lmAll I s) := by
  have hfl : loZero c40I (.inl (.inl 0)) = false ∧ upZero c40I (.inl (.inl 0)) = true := by
    constructor <;> simp [loZero, upZero, c40I, useBnd, Fl.neg, Fl.le, Fl.lt, nearFl]
  have hmem : ∀ i : {i // MFree c40I i}, i = c40p ∨ i = c40q := by
    intro i
    have : i ∈ (Finset.univ : Finset {i // MFree c40I i}) := Finset.mem_univ _
    rw [c40_univ] at this
    simpa using this
  refine ⟨c40I, c40s, ⟨?_, ?_⟩, fun i => if i = .inr (.inl 0) then -1 / 2 else 0, ?_, ?_⟩
  · intro i
    rcases hmem i with rfl | rfl
    · rw [c40s_val.1]; simp
    · constructor
      · intro h; simp [c40q, loZero] at h
      · intro h; simp [c40q, upZero] at h
  · intro t ht
    have h1 := c40_obj c40s
    have h2 := c40_obj t
    unfold c40B at h1 h2
    rw [h1, h2, c40s_val.1, c40s_val.2]
    have h3 : t c40p ≤ 0 := (ht c40p).2 hfl.2
    nlinarith [sq_nonneg (3 * t c40p + 5 * (t c40q + 2 / 5)), sq_nonneg (t c40p)]
  · intro i
    rcases i with (i | i) | (i | i)
    · simp
    · exact i.elim0
    · fin_cases i
      simp [loZero, upZero]
    · exact i.elim0
  · have hp : lmAll c40I c40s (.inl (.inl 0)) = 0 := by
      unfold lmAll
      rw [dif_pos (show MFree c40I (.inl (.inl 0)) from c40p.2)]; exact c40s_val.1
    have hq : lmAll c40I c40s (.inr (.inl 0)) = -2 / 5 := by
      unfold lmAll
      rw [dif_pos (show MFree c40I (.inr (.inl 0)) from c40q.2)]; exact c40s_val.2
    have hz : lmAll c40I c40s (.inl (.inl 1)) = 0 := by
      unfold lmAll
      rw [dif_neg]
      rw [c40_free]; simp
    have e1 : c40I.g = ![0, 1] := rfl
    have e2 : c40I.ae = fun _ _ => 1 := rfl
    simp [lsq, Spec.lagrGrad, Fin.sum_univ_two, hp, hq, hz, e1, e2]
    norm_num

#print axioms C39_signs
#print axioms C39_caller
#print axioms C39_no_bounds
#print axioms C39_slack_rows
#print axioms C39_slack_derivative
#print axioms C40_least_squares_partial
#print axioms C40_not_least_squares

end Sqpdfo
