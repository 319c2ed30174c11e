import Verif.Props.C43_C66_TRMSbc

/-! # C89, C90, C91: optimality of the step of the bound-constrained trust-region solver -/

set_option linter.unusedSectionVars false

namespace Sqpdfo
open Matrix Spec
variable {K : Type} [Field K] [LinearOrder K] [IsStrictOrderedRing K] {n : ℕ}

/-- The gradient of the model at `s`. -/
def Spec.modelGrad (g : Fin n → K) (H : Matrix (Fin n) (Fin n) K) (s : Fin n → K) : Fin n → K := g + H *ᵥ s

/-- Component `i` of `s` is within `1e-5` of a bound. -/
def Spec.NearBound (I : BCIn K n) (s : Fin n → K) (i : Fin n) : Prop :=
  I.ub i - s i ≤ 1 / 10 ^ 5 ∨ s i - I.lb i ≤ 1 / 10 ^ 5

/-- The zero step is at a bound (to `1e-10`) towards which `γ` drives the variable. -/
def Spec.Blocked (I : BCIn K n) (γ : Fin n → K) (i : Fin n) : Prop :=
  0 < γ i ∧ |I.lb i| ≤ 1 / 10 ^ 10 ∨ γ i < 0 ∧ I.ub i ≤ 1 / 10 ^ 10

theorem mem_nearBnd' {I : BCIn K n} {s : Fin n → K} {i : Fin n} : i ∈ nearBnd I s ↔ NearBound I s i :=
  mem_nearBnd

theorem mem_gCrit {I : BCIn K n} {fr : Finset (Fin n)} {g : Fin n → K} {i : Fin n} :
    i ∈ gCrit I fr g ↔ i ∈ fr ∧ Blocked I g i := by
  unfold gCrit
  rw [Finset.mem_filter]
  rfl

theorem Spec.Blocked.own {I : BCIn K n} {γ : Fin n → K} {i : Fin n} (h : Blocked I γ i) : OwnBound I i := by
  rcases h with h | h
  · exact Or.inr (abs_le.1 h.2).1
  · exact Or.inl h.2

theorem BCPassNext.out {k : BCKer K n} {I : BCIn K n} {S T : BCState K n} (h : BCPassNext k I S T) {i : Fin n}
    (hi : i ∉ T.fr) : NearBound I T.s i ∨ Blocked I (modelGrad I.g0 I.H T.s) i := by
  rw [h.fr, Finset.mem_sdiff, Finset.mem_sdiff, mem_gCrit, Finset.mem_sdiff] at hi
  by_cases hn : i ∈ nearBnd I T.s
  · exact Or.inl (mem_nearBnd'.1 hn)
  · right
    by_contra hb
    exact hi ⟨⟨Finset.mem_univ i, hn⟩, fun hc => hb hc.2⟩

theorem bcStart_out {I : BCIn K n} {i : Fin n} (hi : i ∉ (bcStart I).fr) : Blocked I I.g0 i := by
  by_contra hb
  refine hi ?_
  change i ∈ Finset.univ \ gCrit I Finset.univ I.g0
  rw [Finset.mem_sdiff, mem_gCrit]
  exact ⟨Finset.mem_univ i, fun hc => hb hc.2⟩

/-- The invariant of the main loop for C89. -/
structure FirstInv (I : BCIn K n) (S : BCState K n) : Prop where
  g : S.g = modelGrad I.g0 I.H S.s
  cases : (S.msg = .noFree ∧ S.s = 0 ∧ ∀ i, i ∉ S.fr → Blocked I I.g0 i) ∨
    (S.msg = .boundary ∧ (∃ i, i ∉ S.fr ∧ NearBound I S.s i) ∧
      ∀ i, i ∉ S.fr → NearBound I S.s i ∨ Blocked I (modelGrad I.g0 I.H S.s) i)

theorem firstInv_start (I : BCIn K n) : FirstInv I (bcStart I) := by
  refine ⟨?_, Or.inl ⟨rfl, rfl, fun i hi => bcStart_out hi⟩⟩
  change I.g0 = I.g0 + I.H *ᵥ 0
  rw [mulVec_zero, add_zero]

theorem firstInv_next {k : BCKer K n} {I : BCIn K n} {S T : BCState K n} (h : BCPassNext k I S T) : FirstInv I T := by
  refine ⟨h.g, Or.inr ⟨h.msg, ?_, fun i hi => h.out hi⟩⟩
  obtain ⟨fr, hf⟩ := h.found
  obtain ⟨i, -, hi⟩ := HomStep.near hf.step
  exact ⟨i, fun hc => (Finset.mem_sdiff.1 (h.frSub hc)).2 hi, mem_nearBnd'.1 hi⟩

theorem FirstInv.out {I : BCIn K n} {S : BCState K n} (h : FirstInv I S) {i : Fin n} (hi : i ∉ S.fr) :
    NearBound I S.s i ∨ OwnBound I i := by
  rcases h.cases with ⟨-, -, h⟩ | ⟨-, -, h⟩
  · exact Or.inr (h i hi).own
  · exact (h i hi).imp_right Blocked.own

/-- **C89.** First-order optimality at the exits of the bound-constrained solver, for all kernels.
Message "boundary": the step is longer than the radius, or every component is within `1e-5` of a bound, or has a
model gradient of at most `1e-5`, or is blocked by the bound at the zero step.  Message of the unconstrained solver:
every component is within `1e-5` of a bound or the zero step is at one of its bounds.  No free variables at the start:
the step is zero and every gradient component points to a bound that is at most `1e-10` away.
Only the case "blocked" of the first part is too much: there the gradient points to a bound at the zero step which the
returned step is not close to (`C89_false`). -/
theorem C89_first_order_partial (k : BCKer K n) (I : BCIn K n) :
    ∃ o, trmsBc k I = some o ∧
      (o.msg = .boundary → I.Δ0 < k.sq (o.s ⬝ᵥ o.s) ∨ ∀ i, NearBound I o.s i ∨
        |modelGrad I.g0 I.H o.s i| ≤ 1 / 10 ^ 5 ∨ Blocked I (modelGrad I.g0 I.H o.s) i) ∧
      ((∃ m, o.msg = .ms m) → ∀ i, NearBound I o.s i ∨ OwnBound I i) ∧
      (o.msg = .noFree → o.s = 0 ∧ ∀ i, Blocked I I.g0 i) := by
  obtain ⟨o, h1, h2, -⟩ := trmsBc_ind k I (FirstInv I) (fun o =>
      (o.msg = .boundary → I.Δ0 < k.nrm o.s ∨ ∀ i, NearBound I o.s i ∨
        |modelGrad I.g0 I.H o.s i| ≤ 1 / 10 ^ 5 ∨ Blocked I (modelGrad I.g0 I.H o.s) i) ∧
      ((∃ m, o.msg = .ms m) → ∀ i, NearBound I o.s i ∨ OwnBound I i) ∧
      (o.msg = .noFree → o.s = 0 ∧ ∀ i, Blocked I I.g0 i))
    (firstInv_start I)
    (by
      intro S he hS
      rcases hS.cases with ⟨a, b, c⟩ | ⟨a, -, c⟩
      · refine ⟨fun h => ?_, fun ⟨m, h⟩ => ?_, fun _ => ⟨b, fun i => c i (by rw [he]; simp)⟩⟩
        · change S.msg = _ at h; rw [a] at h; cases h
        · change S.msg = _ at h; rw [a] at h; cases h
      · refine ⟨fun _ => Or.inr fun i => ?_, fun ⟨m, h⟩ => ?_, fun h => ?_⟩
        · rcases c i (by rw [he]; simp) with h | h
          · exact Or.inl h
          · exact Or.inr (Or.inr h)
        · change S.msg = _ at h; rw [a] at h; cases h
        · change S.msg = _ at h; rw [a] at h; cases h)
    (by
      intro S o hS _ h
      cases h with
      | stay s _ _ msg _ fixed =>
        obtain ⟨m, hm⟩ := msg
        refine ⟨fun h => ?_, fun _ i => ?_, fun h => ?_⟩
        · rw [hm] at h; cases h
        · rw [s]
          by_cases hi : i ∈ S.fr
          · exact Or.inr (fixed i hi)
          · exact hS.out hi
        · rw [hm] at h; cases h
      | nan _ _ _ msg _ =>
        refine ⟨fun h => ?_, fun ⟨m, h⟩ => ?_, fun h => ?_⟩ <;> rw [msg] at h <;> cases h
      | limit _ _ msg =>
        refine ⟨fun h => ?_, fun ⟨m, h⟩ => ?_, fun h => ?_⟩ <;> rw [msg] at h <;> cases h
      | interior _ _ _ _ _ _ _ msg _ _ _ =>
        refine ⟨fun h => ?_, fun ⟨m, h⟩ => ?_, fun h => ?_⟩ <;> rw [msg] at h <;> cases h
      | bound fr found _ _ msg why =>
        refine ⟨fun _ => ?_, fun ⟨m, h⟩ => ?_, fun h => ?_⟩
        · refine why.imp_right fun hc i => ?_
          by_cases hi : i ∈ nearBnd I o.s
          · exact Or.inl (mem_nearBnd'.1 hi)
          · exact Or.inr (Or.inl (hc i (Finset.mem_sdiff.2 ⟨Finset.mem_univ i, hi⟩)))
        · rw [msg] at h; split_ifs at h
        · rw [msg] at h; split_ifs at h)
    (fun S T _ _ h => firstInv_next h)
  exact ⟨o, h1, h2⟩

/-! ### The interior exit -/

theorem trms_hard_neigd {ι : Type} [Fintype ι] [DecidableEq ι] (k : MSKer K ι) (g : ι → K)
    (H : Matrix ι ι K) (Δ εD : K) (h : (trms k g H Δ εD).neigd = 0) : (trms k g H Δ εD).hard = false := by
  unfold trms at h ⊢
  split_ifs at h ⊢
  · rfl
  · rfl
  · cases hr : msLoop k g H Δ εD 300 (msStart k g H Δ) with
    | inl o =>
      have aux : ∀ (r : ℕ) (S : MSState K ι) (o : MSOut K ι), msLoop k g H Δ εD r S = .inl o → o.hard = false := by
        intro r
        induction r with
        | zero => intro S o h; cases h
        | succ r ih =>
          intro S o h
          rw [msLoop] at h
          cases hc : k.chol (H + S.lam • (1 : Matrix ι ι K)) with
          | nan => rw [hc] at h; simp only [Sum.inl.injEq] at h; rw [← h]; rfl
          | fail =>
            rw [hc] at h
            simp only at h
            split_ifs at h
            exact ih _ _ h
          | ok R =>
            rw [hc] at h
            simp only at h
            split_ifs at h
            · simp only [Sum.inl.injEq] at h; rw [← h]; rfl
            · exact ih _ _ h
      exact aux _ _ o hr
    | inr S => rw [hr] at h; cases h

/-- What a call of the unconstrained solver without eigenvalue decomposition yields. -/
theorem trms_call {ι : Type} [Fintype ι] [DecidableEq ι] {k : MSKer K ι} (hk : GoodKer k) (g : ι → K)
    (H : Matrix ι ι K) (Δ εD : K) (hH : ∀ i j, H i j = H j i) (hΔ : 0 ≤ Δ) (hε : 0 ≤ εD) (hε1 : εD ≤ 1)
    (h : (trms k g H Δ εD).neigd = 0) :
    0 ≤ (trms k g H Δ εD).lam ∧ quadVal g H (trms k g H Δ εD).s ≤ 0 ∧
    (Δ = 0 ∧ (trms k g H Δ εD).s = 0 ∨
      g ⬝ᵥ g < 1 / 10 ^ 12 ∧ (trms k g H Δ εD).s = 0 ∧ (trms k g H Δ εD).lam = 0 ∨ Accepted k g H Δ εD (trms k g H Δ εD)) := by
  have hq0 : quadVal g H 0 = 0 := by unfold quadVal; simp
  by_cases h1 : Δ = 0
  · have e : trms k g H Δ εD = msZero k g .zeroRadius := by unfold trms; rw [if_pos h1]
    rw [e]
    exact ⟨le_rfl, hq0.le, Or.inl ⟨h1, rfl⟩⟩
  have hsq : k.nrm g ^ 2 = g ⬝ᵥ g := by rw [← GoodKer.nrm_sq hk]; ring
  by_cases h2 : g ⬝ᵥ g < 1 / 10 ^ 12
  · have e : trms k g H Δ εD = msZero k g .zeroGradient := by
      unfold trms; rw [if_neg h1, if_pos (by rw [hsq]; exact h2)]
    rw [e]
    exact ⟨le_rfl, hq0.le, Or.inr (Or.inl ⟨h2, rfl, rfl⟩)⟩
  obtain ⟨-, a, b⟩ := C61_global_minimiser hk g H Δ εD hH (lt_of_le_of_ne hΔ (Ne.symm h1)) hε hε1 (not_lt.1 h2)
    (trms_hard_neigd k g H Δ εD h)
  exact ⟨b.lam, a, Or.inr (Or.inr b)⟩

theorem extFree_in {fr : Finset (Fin n)} (d : fr → K) (i : fr) : extFree fr d i.1 = d i := by
  unfold extFree
  rw [dif_pos i.2]

theorem dot_extFree (fr : Finset (Fin n)) (u : Fin n → K) (d : fr → K) :
    u ⬝ᵥ extFree fr d = (fun i : fr => u i.1) ⬝ᵥ d := by
  unfold dotProduct
  rw [← Finset.sum_subset (Finset.subset_univ fr) (fun i _ hi => by rw [extFree_not hi, mul_zero]),
    ← Finset.sum_coe_sort fr]
  exact Finset.sum_congr rfl fun i _ => by rw [extFree_in]

theorem mulVec_extFree (fr : Finset (Fin n)) (H : Matrix (Fin n) (Fin n) K) (d : fr → K) (i : fr) :
    (H *ᵥ extFree fr d) i.1 = (H.submatrix Subtype.val Subtype.val *ᵥ d) i := by
  change (fun j => H i.1 j) ⬝ᵥ extFree fr d = _
  rw [dot_extFree]
  rfl

/-- Taylor expansion of the model. -/
theorem quadVal_add (g : Fin n → K) (H : Matrix (Fin n) (Fin n) K) (hH : ∀ i j, H i j = H j i) (s e : Fin n → K) :
    quadVal g H (s + e) = quadVal g H s + quadVal (modelGrad g H s) H e := by
  have hsym : s ⬝ᵥ H *ᵥ e = e ⬝ᵥ H *ᵥ s := by
    have : Hᵀ = H := by
      ext i j; exact hH j i
    rw [dotProduct_mulVec, ← mulVec_transpose, this, dotProduct_comm]
  unfold quadVal modelGrad
  simp only [mulVec_add, add_dotProduct, dotProduct_add]
  rw [dotProduct_comm (H *ᵥ s) e, hsym]
  ring

theorem quadVal_extFree (fr : Finset (Fin n)) (g : Fin n → K) (H : Matrix (Fin n) (Fin n) K) (d : fr → K) :
    quadVal g H (extFree fr d) =
      quadVal (fun i : fr => g i.1) (H.submatrix Subtype.val Subtype.val) d := by
  unfold quadVal
  rw [dot_extFree, dotProduct_comm (extFree fr d), dot_extFree, dotProduct_comm d]
  have : (fun i : fr => (H *ᵥ extFree fr d) i.1) = H.submatrix Subtype.val Subtype.val *ᵥ d := by
    funext i; exact mulVec_extFree fr H d i
  rw [this]

/-- The invariant of the main loop for the radius. -/
structure RadInv (k : BCKer K n) (I : BCIn K n) (S : BCState K n) : Prop extends FirstInv I S where
  Δ : S.Δ = I.Δ0 - k.nrm S.s
  Δ0 : 0 ≤ S.Δ

/-- **C89, the interior exit**, for kernels that meet their specification, a symmetric matrix and no pseudo-hard case (no
eigenvalue decomposition): from a point `s0` within the radius the step to the result is stationary for the model plus
`lambda/2` times the squared distance from `s0`, in all components that are not fixed.  Fixed components
are those within `1e-5` of a bound and those of which a bound is at the zero step.  Either `lambda` is
negligible or the distance is the remaining radius, up to the factor `1 - eps_D`, and it is not larger
than this radius times `1 + eps_D`.  `s0` is zero unless a component of the step is within `1e-5` of a bound. -/
theorem C89_interior {k : BCKer K n} (hk : GoodBC k) (I : BCIn K n) (hH : ∀ i j, I.H i j = I.H j i)
    (hΔ : 0 ≤ I.Δ0) (hε : 0 ≤ I.εD) (hε1 : I.εD ≤ 1) :
    ∃ o, trmsBc k I = some o ∧ (o.msg = .interior → o.neigd = 0 → ∃ (s0 : Fin n → K) (lam : K), 0 ≤ lam ∧
      k.sq (s0 ⬝ᵥ s0) ≤ I.Δ0 ∧ (s0 = 0 ∨ ∃ i, NearBound I o.s i) ∧
      (∀ i, |modelGrad I.g0 I.H o.s i + lam * (o.s i - s0 i)| ≤ 1 / 10 ^ 6 ∨
        o.s i = s0 i ∧ (NearBound I o.s i ∨ OwnBound I i) ∨ k.sq (s0 ⬝ᵥ s0) = I.Δ0) ∧
      (lam ≤ 1 / 10 ^ 12 ∨ (1 - I.εD) * (I.Δ0 - k.sq (s0 ⬝ᵥ s0)) ≤ k.sq ((o.s - s0) ⬝ᵥ (o.s - s0))) ∧
      k.sq ((o.s - s0) ⬝ᵥ (o.s - s0)) ≤ (1 + I.εD) * (I.Δ0 - k.sq (s0 ⬝ᵥ s0))) := by
  have hz : k.nrm (0 : Fin n → K) = 0 := by
    obtain ⟨a, b⟩ := hk.sq 0 le_rfl
    unfold BCKer.nrm
    rw [dotProduct_zero]
    exact mul_self_eq_zero.1 b
  obtain ⟨o, h1, h2, -⟩ := trmsBc_ind k I (RadInv k I) (fun o => o.msg = .interior → o.neigd = 0 →
      ∃ (s0 : Fin n → K) (lam : K), 0 ≤ lam ∧ k.nrm s0 ≤ I.Δ0 ∧ (s0 = 0 ∨ ∃ i, NearBound I o.s i) ∧
      (∀ i, |modelGrad I.g0 I.H o.s i + lam * (o.s i - s0 i)| ≤ 1 / 10 ^ 6 ∨
        o.s i = s0 i ∧ (NearBound I o.s i ∨ OwnBound I i) ∨ k.nrm s0 = I.Δ0) ∧
      (lam ≤ 1 / 10 ^ 12 ∨ (1 - I.εD) * (I.Δ0 - k.nrm s0) ≤ k.nrm (o.s - s0)) ∧
      k.nrm (o.s - s0) ≤ (1 + I.εD) * (I.Δ0 - k.nrm s0))
    ⟨firstInv_start I, by change I.Δ0 = I.Δ0 - k.nrm 0; rw [hz, sub_zero], hΔ⟩
    (by
      intro S he hS h
      change S.msg = _ at h
      rcases hS.cases with ⟨a, -⟩ | ⟨a, -⟩ <;> rw [a] at h <;> cases h)
    (by
      intro S o hS _ h hm hn
      cases h with
      | stay s _ _ msg _ _ => obtain ⟨m, msg⟩ := msg; rw [msg] at hm; cases hm
      | nan _ _ _ msg _ => rw [msg] at hm; cases hm
      | limit _ _ msg => rw [msg] at hm; cases hm
      | bound _ _ _ _ msg _ => rw [msg] at hm; split_ifs at hm
      | interior fr sub ne s inside _ _ msg _ neigd fixed =>
        have hsub : ∀ i j : fr, (I.H.submatrix Subtype.val Subtype.val) i j =
          (I.H.submatrix Subtype.val Subtype.val) j i := fun i j => hH _ _
        have hreg := (C42_step_in_region (hk.ms fr ne) (fun i => S.g i.1)
          (I.H.submatrix Subtype.val Subtype.val) S.Δ I.εD hsub hS.Δ0 hε).1
        obtain ⟨c1, c2, c3⟩ := trms_call (hk.ms fr ne) (fun i => S.g i.1)
          (I.H.submatrix Subtype.val Subtype.val) S.Δ I.εD hsub hS.Δ0 hε hε1 (by unfold msCall at neigd; omega)
        change 0 ≤ (msCall k I S fr ne).lam at c1
        have hds : o.s - S.s = extFree fr (msCall k I S fr ne).s := by rw [s]; simp
        have hnd : k.nrm (o.s - S.s) = (k.ms fr ne).nrm (msCall k I S fr ne).s := by
          rw [hds, GoodBC.ext hk ne]
        have hgr : ∀ i : fr, modelGrad I.g0 I.H o.s i.1 =
            S.g i.1 + (I.H.submatrix Subtype.val Subtype.val *ᵥ (msCall k I S fr ne).s) i := by
          intro i
          rw [← mulVec_extFree, hS.g, s]
          unfold modelGrad
          simp only [Pi.add_apply, mulVec_add]
          ring
        have hfix : ∀ i, i ∉ fr → o.s i = S.s i ∧ (NearBound I o.s i ∨ OwnBound I i) := by
          intro i hi
          have e : o.s i = S.s i := by rw [s, Pi.add_apply, extFree_not hi, add_zero]
          refine ⟨e, ?_⟩
          by_cases hiS : i ∈ S.fr
          · exact Or.inr (fixed i hiS hi)
          · unfold NearBound
            rw [e]
            exact hS.out hiS
        have hnear : S.s = 0 ∨ ∃ i, NearBound I o.s i := by
          rcases hS.cases with ⟨-, a, -⟩ | ⟨-, ⟨i, a, b⟩, -⟩
          · exact Or.inl a
          · refine Or.inr ⟨i, ?_⟩
            unfold NearBound
            rw [(hfix i (fun hc => a (sub hc))).1]
            exact b
        have hrad : k.nrm S.s ≤ I.Δ0 := by linarith [hS.Δ, hS.Δ0]
        refine ⟨S.s, (msCall k I S fr ne).lam, c1, hrad, hnear, fun i => ?_, ?_, ?_⟩
        · by_cases hi : i ∈ fr
          · have hsi : o.s i - S.s i = (msCall k I S fr ne).s ⟨i, hi⟩ := by
              rw [← Pi.sub_apply, hds]; exact extFree_in _ ⟨i, hi⟩
            have hg' := hgr ⟨i, hi⟩
            rcases c3 with ⟨c3, -⟩ | ⟨c3, c4, c5⟩ | c3
            · right; right; linarith [hS.Δ]
            · left
              change (msCall k I S fr ne).s = 0 at c4
              rw [hsi, hg', c4, mulVec_zero, Pi.zero_apply, mul_zero, add_zero, add_zero]
              refine abs_le_of_sq_le_sq ?_ (by positivity)
              have : S.g i ^ 2 ≤ (fun i : fr => S.g i.1) ⬝ᵥ fun i : fr => S.g i.1 := by
                unfold dotProduct
                rw [pow_two]
                exact Finset.single_le_sum (f := fun j : fr => S.g j.1 * S.g j.1)
                  (fun j _ => mul_self_nonneg _) (Finset.mem_univ (⟨i, hi⟩ : fr))
              refine (this.trans c3.le).trans (le_of_eq ?_)
              norm_num
            · left
              have hst := congrFun c3.stat ⟨i, hi⟩
              rw [add_mulVec, smul_mulVec, one_mulVec, Pi.add_apply, Pi.smul_apply, smul_eq_mul, Pi.neg_apply] at hst
              change (I.H.submatrix Subtype.val Subtype.val *ᵥ (msCall k I S fr ne).s) ⟨i, hi⟩ +
                (msCall k I S fr ne).lam * (msCall k I S fr ne).s ⟨i, hi⟩ = - S.g i at hst
              rw [hsi, hg', add_assoc, hst]
              rw [add_neg_cancel, abs_zero]
              positivity
          · exact Or.inr (Or.inl (hfix i hi))
        · rcases c3 with ⟨c3, c4⟩ | ⟨c3, c4, c5⟩ | c3
          · right
            rw [← hS.Δ, c3, mul_zero]
            exact (hk.sq _ (ms_dot_self_nonneg _)).1
          · left
            change (msCall k I S fr ne).lam = 0 at c5
            rw [c5]
            positivity
          · refine c3.sphere.imp_right fun h => ?_
            rw [← hS.Δ, hnd]
            exact h
        · rw [← hS.Δ, hnd]
          exact hreg)
    (fun S T _ _ h => ⟨firstInv_next h, h.Δ, h.Δ0⟩)
  exact ⟨o, h1, h2⟩

/-! ### Steps away from the bounds -/

/-- **C90.** If the message is "interior", no eigenvalue decomposition was computed, no component of the step is within
`1e-5` of a bound and no bound is at the zero step, then the step does not increase the model, and if the gradient
is not negligible it is a global minimiser of the model in the ball, up to `Delta^2 * max(1e-12/2, eps_D*lambda)`. -/
theorem C90_minimiser {k : BCKer K n} (hk : GoodBC k) (I : BCIn K n) (hH : ∀ i j, I.H i j = I.H j i)
    (hΔ : 0 < I.Δ0) (hε : 0 ≤ I.εD) (hε1 : I.εD ≤ 1) :
    ∃ o, trmsBc k I = some o ∧ (o.msg = .interior → o.neigd = 0 →
      (∀ i, ¬ NearBound I o.s i ∧ ¬ OwnBound I i) →
        quadVal I.g0 I.H o.s ≤ 0 ∧ (1 / 10 ^ 12 ≤ I.g0 ⬝ᵥ I.g0 → ∀ d, d ⬝ᵥ d ≤ I.Δ0 ^ 2 →
          quadVal I.g0 I.H o.s ≤ quadVal I.g0 I.H d + I.Δ0 ^ 2 * max (1 / 10 ^ 12 / 2) (I.εD * o.lam))) := by
  have hz : k.nrm (0 : Fin n → K) = 0 := by
    obtain ⟨a, b⟩ := hk.sq 0 le_rfl
    unfold BCKer.nrm
    rw [dotProduct_zero]
    exact mul_self_eq_zero.1 b
  obtain ⟨o, h1, h2, -⟩ := trmsBc_ind k I (RadInv k I) (fun o => o.msg = .interior → o.neigd = 0 →
      (∀ i, ¬ NearBound I o.s i ∧ ¬ OwnBound I i) →
        quadVal I.g0 I.H o.s ≤ 0 ∧ (1 / 10 ^ 12 ≤ I.g0 ⬝ᵥ I.g0 → ∀ d, d ⬝ᵥ d ≤ I.Δ0 ^ 2 →
          quadVal I.g0 I.H o.s ≤ quadVal I.g0 I.H d + I.Δ0 ^ 2 * max (1 / 10 ^ 12 / 2) (I.εD * o.lam)))
    ⟨firstInv_start I, by change I.Δ0 = I.Δ0 - k.nrm 0; rw [hz, sub_zero], hΔ.le⟩
    (by
      intro S he hS h
      change S.msg = _ at h
      rcases hS.cases with ⟨a, -⟩ | ⟨a, -⟩ <;> rw [a] at h <;> cases h)
    (by
      intro S o hS _ h hm hn hfree
      cases h with
      | stay s _ _ msg _ _ => obtain ⟨m, msg⟩ := msg; rw [msg] at hm; cases hm
      | nan _ _ _ msg _ => rw [msg] at hm; cases hm
      | limit _ _ msg => rw [msg] at hm; cases hm
      | bound _ _ _ _ msg _ => rw [msg] at hm; split_ifs at hm
      | interior fr sub ne s inside _ _ msg lam neigd fixed =>
        have hfix : ∀ i, i ∉ fr → o.s i = S.s i := by
          intro i hi
          rw [s, Pi.add_apply, extFree_not hi, add_zero]
        have hall : ∀ i, i ∈ fr := by
          intro i
          by_contra hi
          by_cases hiS : i ∈ S.fr
          · exact (hfree i).2 (fixed i hiS hi)
          · rcases hS.out hiS with h | h
            · refine (hfree i).1 ?_
              unfold NearBound
              rw [hfix i hi]
              exact h
            · exact (hfree i).2 h
        have hs0 : S.s = 0 := by
          rcases hS.cases with ⟨-, a, -⟩ | ⟨-, ⟨i, a, b⟩, -⟩
          · exact a
          · exact absurd (sub (hall i)) a
        have hg0 : S.g = I.g0 := by rw [hS.g, hs0]; unfold modelGrad; rw [mulVec_zero, add_zero]
        have hΔS : S.Δ = I.Δ0 := by rw [hS.Δ, hs0, hz, sub_zero]
        rw [hs0, zero_add] at s
        have hsub : ∀ i j : fr, (I.H.submatrix Subtype.val Subtype.val) i j =
          (I.H.submatrix Subtype.val Subtype.val) j i := fun i j => hH _ _
        have hcall : msCall k I S fr ne = trms (k.ms fr ne) (fun i => I.g0 i.1)
            (I.H.submatrix Subtype.val Subtype.val) I.Δ0 I.εD := by
          unfold msCall; rw [hg0, hΔS]
        have hne0 : (trms (k.ms fr ne) (fun i => I.g0 i.1)
            (I.H.submatrix Subtype.val Subtype.val) I.Δ0 I.εD).neigd = 0 := by
          rw [← hcall]; omega
        have hback : ∀ d : Fin n → K, extFree fr (fun i : fr => d i.1) = d := by
          intro d
          funext i
          exact extFree_in (fun i : fr => d i.1) ⟨i, hall i⟩
        have hdot : ∀ d : Fin n → K, (fun i : fr => d i.1) ⬝ᵥ (fun i : fr => d i.1) = d ⬝ᵥ d := by
          intro d
          rw [← dot_extFree, hback]
        rw [s, lam, hcall, quadVal_extFree]
        refine ⟨(trms_call (hk.ms fr ne) _ _ I.Δ0 I.εD hsub hΔ.le hε hε1 hne0).2.1, fun hg d hd => ?_⟩
        obtain ⟨a, -⟩ := C61_global_minimiser (hk.ms fr ne) (fun i => I.g0 i.1)
          (I.H.submatrix Subtype.val Subtype.val) I.Δ0 I.εD hsub hΔ hε hε1 (by rw [hdot]; exact hg)
          (trms_hard_neigd _ _ _ _ _ hne0)
        have := a (fun i => d i.1) (by rw [hdot]; exact hd)
        rw [← quadVal_extFree fr I.g0 I.H (fun i : fr => d i.1), hback] at this
        exact this)
    (fun S T _ _ h => ⟨firstInv_next h, h.Δ, h.Δ0⟩)
  exact ⟨o, h1, h2⟩

/-- **C90, distant bounds.** If all bounds are further away than `(1 + eps_D)*Delta + 1e-5`, the solver makes one call of the
unconstrained solver and returns its step, with the message "interior". -/
theorem C90_distant {k : BCKer K n} (hk : GoodBC k) (I : BCIn K n) (hH : ∀ i j, I.H i j = I.H j i)
    (hn : 0 < n) (hΔ : 0 ≤ I.Δ0) (hε : 0 ≤ I.εD)
    (hfar : ∀ i, (1 + I.εD) * I.Δ0 + 1 / 10 ^ 5 < I.ub i ∧ I.lb i < - ((1 + I.εD) * I.Δ0 + 1 / 10 ^ 5)) :
    ∃ o, trmsBc k I = some o ∧ o.msg = .interior ∧ (∀ i, ¬ NearBound I o.s i ∧ ¬ OwnBound I i) ∧
      ∃ h : (Finset.univ : Finset (Fin n)).Nonempty, ∀ i,
        o.s i = (trms (k.ms Finset.univ h) (fun i => I.g0 i.1) (I.H.submatrix Subtype.val Subtype.val) I.Δ0 I.εD).s
          ⟨i, Finset.mem_univ i⟩ := by
  obtain ⟨m, rfl⟩ : ∃ m, n = m + 1 := ⟨n - 1, by omega⟩
  have hprod : 0 ≤ (1 + I.εD) * I.Δ0 := mul_nonneg (by linarith) hΔ
  have h5 : (1 : K) / 10 ^ 10 ≤ 1 / 10 ^ 5 := by
    apply one_div_le_one_div_of_le <;> norm_num
  have hp : (0 : K) < 1 / 10 ^ 10 := by positivity
  have hown : ∀ i, ¬ OwnBound I i := by
    intro i hc
    rcases hc with h | h
    · linarith [(hfar i).1]
    · linarith [(hfar i).2]
  have hfr : (bcStart I).fr = Finset.univ := by
    change Finset.univ \ gCrit I Finset.univ I.g0 = Finset.univ
    rw [Finset.sdiff_eq_self_iff_disjoint, Finset.disjoint_right]
    intro i hi
    exact absurd (mem_gCrit.1 hi).2.own (hown i)
  have hne : (Finset.univ : Finset (Fin (m + 1))).Nonempty := Finset.univ_nonempty
  have hsub : ∀ i j : (Finset.univ : Finset (Fin (m + 1))), (I.H.submatrix Subtype.val Subtype.val) i j =
          (I.H.submatrix Subtype.val Subtype.val) j i := fun i j => hH _ _
  have hreg := (C42_step_in_region (hk.ms Finset.univ hne) (fun i => I.g0 i.1)
    (I.H.submatrix Subtype.val Subtype.val) I.Δ0 I.εD hsub hΔ hε).1
  generalize ho : trms (k.ms Finset.univ hne) (fun i => I.g0 i.1)
    (I.H.submatrix Subtype.val Subtype.val) I.Δ0 I.εD = o at hreg
  have hcomp : ∀ i, |o.s ⟨i, Finset.mem_univ i⟩| ≤ (1 + I.εD) * I.Δ0 := by
    intro i
    have h1 := GoodKer.nrm_sq (hk.ms Finset.univ hne) o.s
    have h2 : o.s ⟨i, Finset.mem_univ i⟩ ^ 2 ≤ o.s ⬝ᵥ o.s := by
      unfold dotProduct
      rw [pow_two]
      exact Finset.single_le_sum (f := fun j => o.s j * o.s j)
        (fun j _ => mul_self_nonneg _) (Finset.mem_univ (⟨i, Finset.mem_univ i⟩ : (Finset.univ : Finset (Fin (m + 1)))))
    refine le_trans ?_ hreg
    refine abs_le_of_sq_le_sq ?_ (GoodKer.nrm_nonneg (hk.ms Finset.univ hne) o.s)
    rw [← h1] at h2
    linarith [pow_two ((k.ms Finset.univ hne).nrm o.s)]
  have hafter : ∀ i, (0 + extFree Finset.univ o.s : Fin (m + 1) → K) i = o.s ⟨i, Finset.mem_univ i⟩ := by
    intro i
    rw [zero_add]
    exact extFree_in o.s ⟨i, Finset.mem_univ i⟩
  have hnb : ∀ i, ¬ NearBound I (0 + extFree Finset.univ o.s) i := by
    intro i hc
    have := abs_le.1 (hcomp i)
    unfold NearBound at hc
    rw [hafter] at hc
    rcases hc with h | h
    · linarith [(hfar i).1]
    · linarith [(hfar i).2]
  have hcrit : ¬ (critBoth I Finset.univ (0 + extFree Finset.univ o.s)).Nonempty := by
    rintro ⟨i, hi⟩
    exact hown i (critBoth_own hi)
  have hin : insideAll I Finset.univ (0 + extFree Finset.univ o.s) = true := by
    unfold insideAll
    have h0 : (0 : K) < 1 / 10 ^ 5 := by positivity
    rw [Bool.and_eq_true, List.isEmpty_iff, List.isEmpty_iff, List.eq_nil_iff_forall_not_mem,
      List.eq_nil_iff_forall_not_mem]
    constructor
    · intro i hi
      have := (mem_freeList.1 hi).2
      exact hnb i (Or.inl (by linarith))
    · intro i hi
      have := (mem_freeList.1 hi).2
      exact hnb i (Or.inr (by linarith))
  have hinner : ∃ S : BCState K (m + 1), S.fr = Finset.univ ∧
      innerLoop k I (m + 1) (bcStart I) = .step (0 + extFree Finset.univ o.s) o.hard S := by
    have key : ∀ S : BCState K (m + 1), S.s = 0 → S.g = I.g0 → S.Δ = I.Δ0 → S.fr = Finset.univ →
        ∃ T : BCState K (m + 1), T.fr = Finset.univ ∧
          innerLoop k I (m + 1) S = .step (0 + extFree Finset.univ o.s) o.hard T := by
      rintro ⟨s, g, fr, Δ, lam, norms, value, gplus, nfact, neigd, msg⟩ rfl rfl rfl rfl
      refine ⟨?_, ?h1, ?h2⟩
      case h2 =>
        rw [innerLoop, dif_pos hne]
        dsimp only
        rw [ho, if_neg hcrit]
      case h1 => rfl
    exact key _ rfl rfl rfl hfr
  obtain ⟨S, hS1, hS2⟩ := hinner
  have hpass : bcPass k I (bcStart I) = .ret { S with
      s := 0 + extFree Finset.univ o.s, norms := k.nrm (0 + extFree Finset.univ o.s)
      value := modelVal I.g0 I.H (0 + extFree Finset.univ o.s), msg := .interior }.out := by
    unfold bcPass
    rw [hS2]
    dsimp only
    rw [hS1, hin]
    simp
  have htr : ∀ p, bcPass k I (bcStart I) = .ret p → trmsBc k I = some p := by
    intro p hp
    unfold trmsBc
    rw [bcLoop, if_neg (by rw [hfr]; exact hne.ne_empty), hp]
  refine ⟨_, htr _ hpass, rfl, fun i => ⟨hnb i, hown i⟩, hne, fun i => ?_⟩
  rw [ho]
  exact hafter i

/-! ### The model value -/

theorem found_value {k : BCKer K n} (hk : GoodBC k) {I : BCIn K n} (hH : ∀ i j, I.H i j = I.H j i)
    (hb : StepIn I.lb I.ub 0) (hε : 0 ≤ I.εD) (hε1 : I.εD ≤ 1) (hown : ∀ i, ¬ OwnBound I i) {G : Fin n → K}
    (hG : ∀ x, (∀ i, I.lb i - 1 / 10 ^ 5 ≤ x i ∧ x i ≤ I.ub i + 1 / 10 ^ 5) → ∀ i, |modelGrad I.g0 I.H x i| ≤ G i)
    {S : BCState K n} (hg : S.g = modelGrad I.g0 I.H S.s) (hΔ : 0 ≤ S.Δ) (hS : StepIn I.lb I.ub S.s)
    {fr : Finset (Fin n)} {s' : Fin n → K} (h : BCFound k I S fr 0 s') :
    quadVal I.g0 I.H s' ≤ quadVal I.g0 I.H S.s + 1 / 10 ^ 5 * ∑ i, G i := by
  have hlu : ∀ i, I.lb i ≤ I.ub i := fun i => (hb i).1.trans (hb i).2
  have e0 : (0 : K) < 1 / 10 ^ 5 := by positivity
  have hin := h.step.inside hlu hS
  obtain ⟨ne, lam, h1, h2, R, d, hR, hd, hnear, hs'⟩ := h.sol
  have hcr : critBoth I fr (S.s + d) = ∅ := by
    rw [Finset.eq_empty_iff_forall_notMem]
    intro i hi
    exact hown i (critBoth_own hi)
  have hz : ∀ v : Fin n → K, zeroOn ∅ v = v := by
    intro v; funext i; rw [zeroOn_apply, if_neg (Finset.notMem_empty i)]
  rw [hcr, hz, hz] at hs'
  rw [hcr, hz] at hnear
  have hsub : ∀ i j : fr, (I.H.submatrix Subtype.val Subtype.val) i j =
    (I.H.submatrix Subtype.val Subtype.val) j i := fun i j => hH _ _
  have hlam : 0 ≤ lam := h2 (trms_call (hk.ms fr ne) (fun i => S.g i.1)
    (I.H.submatrix Subtype.val Subtype.val) S.Δ I.εD hsub hΔ hε hε1 (by unfold msCall at h1; omega)).1
  -- the step before the move to the bounds
  have hdesc : quadVal I.g0 I.H (S.s + d) ≤ quadVal I.g0 I.H S.s := by
    rw [quadVal_add I.g0 I.H hH, ← hg, hd, quadVal_extFree]
    obtain ⟨st, psd⟩ := msSolve_stat (hk.ms fr ne) (fun i => S.g i.1) _ R (sym_shift hsub lam) hR
    have hid := model_identity _ _ hsub lam _ 0 st
    have hp := psd (0 - (k.ms fr ne).solve (-R) ((k.ms fr ne).solve Rᵀ fun i => S.g i.1))
    have hss := ms_dot_self_nonneg ((k.ms fr ne).solve (-R) ((k.ms fr ne).solve Rᵀ fun i => S.g i.1))
    have h0 : quadVal (fun i : fr => S.g i.1) (I.H.submatrix Subtype.val Subtype.val) 0 = 0 := by unfold quadVal; simp
    rw [h0, dotProduct_zero] at hid
    have := mul_nonneg hlam hss
    linarith
  -- the move
  have hmove : ∀ i, |(s' - (S.s + d)) i| ≤ 1 / 10 ^ 5 := by
    intro i
    rw [hs', Pi.sub_apply]
    unfold moveToBounds
    split_ifs with ha hu
    · rw [abs_sub_comm]; exact (mem_freeList.1 ha).2
    · exact (mem_freeList.1 hu).2
    · rw [Pi.add_apply, sub_self, abs_zero]; exact e0.le
  have hbox : ∀ i, I.lb i - 1 / 10 ^ 5 ≤ (S.s + d) i ∧ (S.s + d) i ≤ I.ub i + 1 / 10 ^ 5 := by
    intro i
    by_cases hi : i ∈ fr
    · unfold nearAll at hnear
      rw [Bool.and_eq_true] at hnear
      have a1 := freeList_isEmpty hnear.1 hi
      have a2 := freeList_isEmpty hnear.2 hi
      unfold epsBnd at a1 a2
      constructor <;> linarith
    · have : d i = 0 := by rw [hd]; exact extFree_not hi
      rw [Pi.add_apply, this, add_zero]
      exact ⟨by linarith [(hS i).1], by linarith [(hS i).2]⟩
  have hx : s' = (S.s + d) + (s' - (S.s + d)) := by abel
  have hmid := hG ((S.s + d) + (1 / 2 : K) • (s' - (S.s + d))) (fun i => by
    have b := hbox i
    have c := hin i
    simp only [Pi.add_apply, Pi.smul_apply, Pi.sub_apply, smul_eq_mul] at b ⊢
    constructor <;> linarith [b.1, b.2, c.1, c.2])
  have hval : quadVal (modelGrad I.g0 I.H (S.s + d)) I.H (s' - (S.s + d)) =
      modelGrad I.g0 I.H ((S.s + d) + (1 / 2 : K) • (s' - (S.s + d))) ⬝ᵥ (s' - (S.s + d)) := by
    unfold quadVal modelGrad
    generalize S.s + d = x
    generalize s' - x = e
    rw [mulVec_add, mulVec_smul, ← add_assoc, add_dotProduct _ _ e, add_dotProduct _ _ e, add_dotProduct _ _ e,
      smul_dotProduct, smul_eq_mul, dotProduct_comm e]
  rw [hx, quadVal_add I.g0 I.H hH, hval]
  have hsum : modelGrad I.g0 I.H ((S.s + d) + (1 / 2 : K) • (s' - (S.s + d))) ⬝ᵥ (s' - (S.s + d)) ≤
      1 / 10 ^ 5 * ∑ i, G i := by
    unfold dotProduct
    rw [Finset.mul_sum]
    refine Finset.sum_le_sum fun i _ => ?_
    refine (le_abs_self _).trans ?_
    rw [abs_mul, mul_comm]
    exact mul_le_mul (hmove i) (hmid i) (abs_nonneg _) e0.le
  linarith

/-- **C91.** How much the step may increase the model.  For kernels that meet their specification, a symmetric matrix,
bounds that allow the zero step and are not closer than `1e-10` to it, and no pseudo-hard case (no eigenvalue decomposition):
the model value of the step is at most `n * 1e-5` times the sum of the largest partial derivatives of the model between
the bounds (widened by `1e-5`).  The full claim, that the step never increases the model, is false (`C91_false`):
components within `1e-5` of a bound are moved to the bound. -/
theorem C91_increase_partial {k : BCKer K n} (hk : GoodBC k) (I : BCIn K n) (hH : ∀ i j, I.H i j = I.H j i)
    (hb : StepIn I.lb I.ub 0) (hΔ : 0 ≤ I.Δ0) (hε : 0 ≤ I.εD) (hε1 : I.εD ≤ 1) (hown : ∀ i, ¬ OwnBound I i) (G : Fin n → K)
    (hG : ∀ x, (∀ i, I.lb i - 1 / 10 ^ 5 ≤ x i ∧ x i ≤ I.ub i + 1 / 10 ^ 5) → ∀ i, |modelGrad I.g0 I.H x i| ≤ G i) :
    ∃ o, trmsBc k I = some o ∧ (o.neigd = 0 → quadVal I.g0 I.H o.s ≤ n * (1 / 10 ^ 5 * ∑ i, G i)) := by
  have hlu : ∀ i, I.lb i ≤ I.ub i := fun i => (hb i).1.trans (hb i).2
  have e0 : (0 : K) < 1 / 10 ^ 5 := by positivity
  have hz : k.nrm (0 : Fin n → K) = 0 := by
    obtain ⟨a, b⟩ := hk.sq 0 le_rfl
    unfold BCKer.nrm
    rw [dotProduct_zero]
    exact mul_self_eq_zero.1 b
  have hq0 : quadVal I.g0 I.H 0 = 0 := by unfold quadVal; simp
  have hG0 : 0 ≤ 1 / 10 ^ 5 * ∑ i, G i := mul_nonneg e0.le (Finset.sum_nonneg fun i _ =>
    (abs_nonneg _).trans (hG 0 (fun i => ⟨by linarith [(hb i).1], by linarith [(hb i).2]⟩) i))
  generalize hc : 1 / 10 ^ 5 * ∑ i, G i = c at hG0
  have hcard : ∀ s : Fin n → K, ((nearBnd I s).card : K) * c ≤ n * c := by
    intro s
    refine mul_le_mul_of_nonneg_right ?_ hG0
    have := Finset.card_le_univ (nearBnd I s)
    rw [Fintype.card_fin] at this
    exact_mod_cast this
  -- one more pass
  have step : ∀ (S : BCState K n) (fr : Finset (Fin n)) (s' : Fin n → K),
      (S.s = 0 ∨ Disjoint S.fr (nearBnd I S.s) ∧ quadVal I.g0 I.H S.s ≤ (nearBnd I S.s).card * c) →
      S.g = modelGrad I.g0 I.H S.s → 0 ≤ S.Δ → StepIn I.lb I.ub S.s → BCFound k I S fr 0 s' →
      quadVal I.g0 I.H s' ≤ (nearBnd I s').card * c := by
    intro S fr s' hS hg hΔ' hin hf
    have h := found_value hk hH hb hε hε1 hown hG hg hΔ' hin hf
    rw [hc] at h
    have up : ∀ m : ℕ, m < (nearBnd I s').card → quadVal I.g0 I.H S.s ≤ m * c →
        quadVal I.g0 I.H s' ≤ (nearBnd I s').card * c := by
      intro m hm hv
      have : ((m + 1 : ℕ) : K) * c ≤ (nearBnd I s').card * c :=
        mul_le_mul_of_nonneg_right (by exact_mod_cast hm) hG0
      rw [Nat.cast_add, Nat.cast_one, add_mul, one_mul] at this
      linarith
    rcases hS with h0 | ⟨h0, h1⟩
    · obtain ⟨i, -, hi⟩ := HomStep.near hf.step
      exact up 0 (Finset.card_pos.2 ⟨i, hi⟩) (by rw [h0, hq0]; simp)
    · exact up _ (HomStep.card_lt hf.step (h0.mono_left hf.sub)) h1
  obtain ⟨o, h1, h2, -⟩ := trmsBc_ind k I
    (fun S => S.g = modelGrad I.g0 I.H S.s ∧ 0 ≤ S.Δ ∧ StepIn I.lb I.ub S.s ∧ (S.neigd = 0 →
      (S.s = 0 ∨ Disjoint S.fr (nearBnd I S.s) ∧ quadVal I.g0 I.H S.s ≤ (nearBnd I S.s).card * c)))
    (fun o => o.neigd = 0 → quadVal I.g0 I.H o.s ≤ n * c)
    ⟨(firstInv_start I).g, hΔ, hb, fun _ => Or.inl rfl⟩
    (by
      intro S _ hS hn
      rcases hS.2.2.2 hn with h | ⟨-, h⟩
      · change quadVal I.g0 I.H S.s ≤ _
        rw [h, hq0]
        exact mul_nonneg (Nat.cast_nonneg n) hG0
      · exact h.trans (hcard _))
    (by
      intro S o hS _ h hn
      obtain ⟨a, b, d, e⟩ := hS
      have old : S.neigd = 0 → quadVal I.g0 I.H S.s ≤ n * c := by
        intro h0
        rcases e h0 with h | ⟨-, h⟩
        · rw [h, hq0]
          exact mul_nonneg (Nat.cast_nonneg n) hG0
        · exact h.trans (hcard _)
      cases h with
      | stay s _ _ _ neigd _ => rw [s]; exact old (by omega)
      | nan s _ _ _ neigd => rw [s]; exact old (by omega)
      | limit s _ _ => rw [s, hq0]; exact mul_nonneg (Nat.cast_nonneg n) hG0
      | interior fr sub ne s inside _ _ _ _ neigd _ =>
        have hsub : ∀ i j : fr, (I.H.submatrix Subtype.val Subtype.val) i j =
          (I.H.submatrix Subtype.val Subtype.val) j i := fun i j => hH _ _
        have := (trms_call (hk.ms fr ne) (fun i => S.g i.1)
          (I.H.submatrix Subtype.val Subtype.val) S.Δ I.εD hsub b hε hε1 (by unfold msCall at neigd; omega)).2.1
        rw [s, quadVal_add I.g0 I.H hH, ← a, quadVal_extFree]
        have h' := old (by omega)
        unfold msCall
        linarith
      | bound fr found _ _ _ _ =>
        rw [hn] at found
        obtain ⟨ne, lam, hl, -⟩ := found.sol
        exact (step S fr o.s (e (by omega)) a b d found).trans (hcard _))
    (by
      intro S T hS _ h
      obtain ⟨a, b, d, e⟩ := hS
      obtain ⟨fr, hf⟩ := h.found
      refine ⟨h.g, h.Δ0, hf.step.inside hlu d, fun hn => Or.inr
        ⟨Finset.disjoint_of_subset_left h.frSub Finset.sdiff_disjoint, ?_⟩⟩
      rw [hn] at hf
      obtain ⟨ne, lam, hl, -⟩ := hf.sol
      exact step S fr T.s (e (by omega)) a b d hf)
  exact ⟨o, h1, h2⟩

/-! ### Witnesses and concrete cases -/

/-- Rounding to ten decimals. -/
def Ex.round10 (a : ℚ) : ℚ := ((a * 10 ^ 10).floor : ℚ) / 10 ^ 10

/-- An entry of a matrix of the free variables, extended by the identity. -/
def Ex.entry {fr : Finset (Fin 3)} (M : Matrix fr fr ℚ) (i j : Fin 3) : ℚ :=
  if h : i ∈ fr ∧ j ∈ fr then M ⟨i, h.1⟩ ⟨j, h.2⟩ else if i = j then 1 else 0

/-- Kernels for matrices of three variables of which the first and the last are coupled, with rounded results. -/
def Ex.pairBC : BCKer ℚ 3 where
  ms := fun fr h =>
    { sq := Ex.sqDown
      hb := fun _ => 10
      chol := fun M =>
        let a := Ex.sqDown (Ex.entry M 0 0)
        let b := Ex.round10 (Ex.entry M 0 2 / a)
        let c := Ex.entry M 2 2 - b * b
        if 0 < a ∧ 0 < c ∧ 0 < Ex.entry M 1 1 then
          .ok fun i j => if i = j then
              (if i.1 = 0 then a else if i.1 = 1 then Ex.sqDown (Ex.entry M 1 1) else Ex.sqDown c)
            else if i.1 = 0 ∧ j.1 = 2 then b else 0
        else .fail
      solve := fun M v =>
        let e := Ex.entry M
        let w : Fin 3 → ℚ := extFree fr v
        let det := e 0 0 * e 2 2 - e 0 2 * e 2 0
        fun i => Ex.round10 (if i.1 = 0 then (e 2 2 * w 0 - e 0 2 * w 2) / det
          else if i.1 = 1 then w 1 / e 1 1 else (e 0 0 * w 2 - e 2 0 * w 0) / det)
      eig := fun H => (1, fun i => H i i, ⟨fr.min' h, fr.min'_mem h⟩) }
  sq := Ex.sqDown
  hb := fun _ => 10

/-- Three variables; the first is at its lower bound. -/
def Ex.bcC : BCIn ℚ 3 where
  g0 := ![-7 / 5, -4, -103 / 25]
  H := !![1, 0, 4 / 5; 0, 1, 0; 4 / 5, 0, 1]
  lb := ![0, -10, -10]
  ub := ![10, 1, 7 / 4]
  Δ0 := 219 / 100
  εD := 1 / 1000

/-- C89 as a whole is false.  The first pass moves the first variable away from its lower bound 0, the second one partly
back.  Then its gradient is positive and the test for active bounds (which looks at the bound and not at the
distance from it) fixes it.  The step is returned with the message "boundary"; it is shorter than the radius,
the first variable is more than 0.1 away from its bounds, its gradient is more than 0.1, and the step without this
component is admissible and better. -/
theorem C89_false : ∃ o, trmsBc Ex.pairBC Ex.bcC = some o ∧ o.msg = .boundary ∧
    o.s ⬝ᵥ o.s < (Ex.bcC.Δ0 - 1 / 10) ^ 2 ∧ Ex.bcC.lb 0 + 1 / 10 < o.s 0 ∧ o.s 0 < Ex.bcC.ub 0 - 1 / 10 ∧
    1 / 10 < modelGrad Ex.bcC.g0 Ex.bcC.H o.s 0 ∧
    quadVal Ex.bcC.g0 Ex.bcC.H ![0, o.s 1, o.s 2] + 1 / 200 < quadVal Ex.bcC.g0 Ex.bcC.H o.s := by
  cases h : trmsBc Ex.pairBC Ex.bcC with
  | none =>
    have : (trmsBc Ex.pairBC Ex.bcC).isSome = true := by decide +kernel
    rw [h] at this; cases this
  | some o =>
    have h1 : ∀ o ∈ trmsBc Ex.pairBC Ex.bcC, o.msg = .boundary ∧
        o.s ⬝ᵥ o.s < (Ex.bcC.Δ0 - 1 / 10) ^ 2 ∧ Ex.bcC.lb 0 + 1 / 10 < o.s 0 ∧ o.s 0 < Ex.bcC.ub 0 - 1 / 10 ∧
        1 / 10 < modelGrad Ex.bcC.g0 Ex.bcC.H o.s 0 ∧
        quadVal Ex.bcC.g0 Ex.bcC.H ![0, o.s 1, o.s 2] + 1 / 200 < quadVal Ex.bcC.g0 Ex.bcC.H o.s := by
      decide +kernel
    exact ⟨o, rfl, h1 o h⟩

/-- A steep and a flat variable with close upper bounds. -/
def Ex.bcD : BCIn ℚ 2 where
  g0 := ![0, -1]
  H := !![10 ^ 6, 0; 0, 1]
  lb := ![-1, -1]
  ub := ![9 / 10 ^ 6, 2 / 10 ^ 10]
  Δ0 := 1
  εD := 1 / 1000

/-- C91 as a whole is false: the first variable, which need not move, is moved to its bound at `9e-6` because this is
within `1e-5`, and the model grows. -/
theorem C91_false : ∃ o, trmsBc Ex.diagBC Ex.bcD = some o ∧ o.neigd = 0 ∧ StepIn Ex.bcD.lb Ex.bcD.ub 0 ∧
    o.s = Ex.bcD.ub ∧ 4 / 10 ^ 5 < quadVal Ex.bcD.g0 Ex.bcD.H o.s ∧ o.value = quadVal Ex.bcD.g0 Ex.bcD.H o.s := by
  cases h : trmsBc Ex.diagBC Ex.bcD with
  | none =>
    have : (trmsBc Ex.diagBC Ex.bcD).isSome = true := by decide +kernel
    rw [h] at this; cases this
  | some o =>
    have h1 : ∀ o ∈ trmsBc Ex.diagBC Ex.bcD, o.neigd = 0 ∧ o.s = Ex.bcD.ub ∧
        4 / 10 ^ 5 < quadVal Ex.bcD.g0 Ex.bcD.H o.s ∧ o.value = quadVal Ex.bcD.g0 Ex.bcD.H o.s := by
      decide +kernel
    obtain ⟨a, b⟩ := h1 o h
    refine ⟨o, rfl, a, ?_, b⟩
    intro i
    fin_cases i <;> decide +kernel

/-- The exits of C89: message "boundary" within the radius (all components at bounds), "interior", and no free variables. -/
example : (trmsBc Ex.diagBC { Ex.bcA with ub := ![1, 1] }).map (fun o => (List.ofFn o.s, o.msg)) = some ([1, 1], .boundary) ∧
    (trmsBc Ex.diagBC Ex.bcA).map (fun o => (List.ofFn o.s, o.msg, o.neigd)) = some ([1, 4], .interior, 0) ∧
    (trmsBc Ex.diagBC { Ex.bcA with ub := ![0, 0] }).map (fun o => (List.ofFn o.s, o.msg)) = some ([0, 0], .noFree) := by
  decide +kernel

/-- The message "boundary" with a vanishing gradient in the free variable. -/
example : (trmsBc Ex.diagBC { Ex.bcA with g0 := ![-3, 0] }).map
    (fun o => (List.ofFn o.s, o.msg, List.ofFn (modelGrad ![-3, 0] Ex.bcA.H o.s))) =
      some ([1, 0], .boundary, [-2, 0]) := by
  decide +kernel

/-- C89 for the interior exit and C90 with exact arithmetic: the hypotheses on the kernels hold. -/
theorem C90_real (I : BCIn ℝ n) (hH : ∀ i j, I.H i j = I.H j i) (hn : 0 < n) (hΔ : 0 < I.Δ0) (hε : 0 ≤ I.εD)
    (hε1 : I.εD ≤ 1) (hg : 1 / 10 ^ 12 ≤ I.g0 ⬝ᵥ I.g0)
    (hfar : ∀ i, (1 + I.εD) * I.Δ0 + 1 / 10 ^ 5 < I.ub i ∧ I.lb i < - ((1 + I.εD) * I.Δ0 + 1 / 10 ^ 5)) :
    ∃ o, trmsBc Ex.realBC I = some o ∧ (o.neigd = 0 → ∀ d, d ⬝ᵥ d ≤ I.Δ0 ^ 2 →
      quadVal I.g0 I.H o.s ≤ quadVal I.g0 I.H d + I.Δ0 ^ 2 * max (1 / 10 ^ 12 / 2) (I.εD * o.lam)) := by
  obtain ⟨o, h1, h2, h3, -⟩ := C90_distant Ex.realBC_good I hH hn hΔ.le hε hfar
  obtain ⟨p, h4, h5⟩ := C90_minimiser Ex.realBC_good I hH hΔ hε hε1
  rw [h1, Option.some.injEq] at h4
  rw [← h4] at h5
  exact ⟨o, h1, fun hn0 => (h5 h2 hn0 h3).2 hg⟩

/-- Distant bounds: the hypotheses of C90 and C91 hold for the model `x^2/2 + y^2/2 - 3*x - 4*y`, radius 10. -/
example : (∀ i, (1 + (1 / 1000 : ℚ)) * 10 + 1 / 10 ^ 5 < (![20, 20] : Fin 2 → ℚ) i) ∧
    (trmsBc Ex.diagBC { Ex.bcA with lb := ![-20, -20], ub := ![20, 20] }).map
      (fun o => (List.ofFn o.s, o.msg, o.neigd, o.value)) = some ([3, 4], .interior, 0, - 25 / 2) := by
  refine ⟨fun i => by fin_cases i <;> decide +kernel, by decide +kernel⟩

/-- A bound on the partial derivatives as in C91, for the model of `C91_false`: 1000010 and 3. -/
example : ∀ x : Fin 2 → ℚ, (∀ i, Ex.bcD.lb i - 1 / 10 ^ 5 ≤ x i ∧ x i ≤ Ex.bcD.ub i + 1 / 10 ^ 5) →
    ∀ i, |modelGrad Ex.bcD.g0 Ex.bcD.H x i| ≤ (![1000010, 3] : Fin 2 → ℚ) i := by
  intro x hx i
  have h0 := hx 0
  have h1 := hx 1
  simp [Ex.bcD] at h0 h1
  rw [abs_le]
  fin_cases i
  · simp [modelGrad, Ex.bcD, mulVec, dotProduct, Fin.sum_univ_two]
    constructor <;> linarith [h0.1, h0.2]
  · simp [modelGrad, Ex.bcD, mulVec, dotProduct, Fin.sum_univ_two]
    constructor <;> linarith [h1.1, h1.2]

#print axioms C89_first_order_partial
#print axioms C89_interior
#print axioms C89_false
#print axioms C90_minimiser
#print axioms C90_distant
#print axioms C90_real
#print axioms C91_increase_partial
#print axioms C91_false

end Sqpdfo
