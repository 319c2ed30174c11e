import Verif.Model.Minq
import Verif.Props.C46_C60_QuadMin
import Verif.Props.C78_Ldl

/-! # C79: the box-constrained quadratic solver -/

set_option linter.unusedSectionVars false

namespace Sqpdfo
open Finset Spec
variable {K : Type} [Field K] [LinearOrder K] [IsStrictOrderedRing K] {n : ℕ} {Φ : Type}

/-- Symmetric and positive semidefinite. -/
structure Spec.Psd (G : Fin n → Fin n → K) : Prop where
  symm : ∀ i j, G i j = G j i
  nonneg : ∀ v : Fin n → K, 0 ≤ ∑ i, v i * ∑ j, G i j * v j

/-- A minimiser in the box. -/
def Spec.MinInBox (G : Fin n → Fin n → K) (c : Fin n → K) (lo hi : Fin n → Option K) (x : Fin n → K) : Prop :=
  InTheBox lo hi x ∧ ∀ y, InTheBox lo hi y → qp G c x ≤ qp G c y

/-! ## Ends of the step sizes -/

theorem maxO_none {l : List K} (h : maxO l = none) : l = [] := by
  cases l with
  | nil => rfl
  | cons a l => cases h

theorem maxO_some : ∀ {l : List K} {m : K}, maxO l = some m → m ∈ l ∧ ∀ a ∈ l, a ≤ m
  | [], m, h => (by cases h)
  | a :: l, m, h => by
    unfold maxO at h
    injection h with h
    cases hm : maxO l with
    | none =>
      rw [hm] at h
      dsimp only at h
      rw [maxO_none hm, ← h]
      simp
    | some b =>
      rw [hm] at h
      dsimp only at h
      obtain ⟨h1, h2⟩ := maxO_some hm
      rw [← h]
      refine ⟨?_, fun y hy => ?_⟩
      · rcases max_choice a b with e | e
        · rw [e]; exact List.mem_cons_self
        · rw [e]; exact List.mem_cons_of_mem _ h1
      · rcases List.mem_cons.1 hy with rfl | hy
        · exact le_max_left _ _
        · exact (h2 y hy).trans (le_max_right _ _)

theorem minO_none {l : List K} (h : minO l = none) : l = [] := by
  cases l with
  | nil => rfl
  | cons a l => cases h

theorem minO_some : ∀ {l : List K} {m : K}, minO l = some m → m ∈ l ∧ ∀ a ∈ l, m ≤ a
  | [], m, h => (by cases h)
  | a :: l, m, h => by
    unfold minO at h
    injection h with h
    cases hm : minO l with
    | none =>
      rw [hm] at h
      dsimp only at h
      rw [minO_none hm, ← h]
      simp
    | some b =>
      rw [hm] at h
      dsimp only at h
      obtain ⟨h1, h2⟩ := minO_some hm
      rw [← h]
      refine ⟨?_, fun y hy => ?_⟩
      · rcases min_choice a b with e | e
        · rw [e]; exact List.mem_cons_self
        · rw [e]; exact List.mem_cons_of_mem _ h1
      · rcases List.mem_cons.1 hy with rfl | hy
        · exact min_le_left _ _
        · exact (min_le_right _ _).trans (h2 y hy)

theorem lowEnd_nonpos {q : MinqIn K n} {x p : Fin n → K} (hb : InTheBox q.lo q.hi x) {i : Fin n} {a : K} (h : lowEnd q x p i = some a) : a ≤ 0 := by
  unfold lowEnd ratio at h
  split_ifs at h with h1 h2
  · obtain ⟨b, hb', rfl⟩ := Option.map_eq_some_iff.1 h
    exact div_nonpos_of_nonneg_of_nonpos (sub_nonneg.2 ((hb i).2 b hb')) h1.le
  · obtain ⟨b, hb', rfl⟩ := Option.map_eq_some_iff.1 h
    exact div_nonpos_of_nonpos_of_nonneg (sub_nonpos.2 ((hb i).1 b hb')) h2.le

theorem highEnd_nonneg {q : MinqIn K n} {x p : Fin n → K} (hb : InTheBox q.lo q.hi x) {i : Fin n} {a : K} (h : highEnd q x p i = some a) : 0 ≤ a := by
  unfold highEnd ratio at h
  split_ifs at h with h1 h2
  · obtain ⟨b, hb', rfl⟩ := Option.map_eq_some_iff.1 h
    exact div_nonneg (sub_nonneg.2 ((hb i).2 b hb')) h1.le
  · obtain ⟨b, hb', rfl⟩ := Option.map_eq_some_iff.1 h
    exact div_nonneg_of_nonpos (sub_nonpos.2 ((hb i).1 b hb')) h2.le

/-- The new point is `x + alpha p`. -/
theorem stepEntry_fst (q : MinqIn K n) (x p : Fin n → K) (alpha : K) (free : Fin n → Bool) (i : Fin n) :
    (stepEntry q x p alpha free i).1 = x i + alpha * p i := by
  unfold stepEntry ratio
  split_ifs with h1 h2 h3
  · dsimp only; rw [h1, mul_zero, add_zero]
  · obtain ⟨b, hb, rfl⟩ := Option.map_eq_some_iff.1 h2
    rw [hb]
    dsimp only [Option.getD_some]
    rw [div_mul_cancel₀ _ h1]; ring
  · obtain ⟨b, hb, rfl⟩ := Option.map_eq_some_iff.1 h3
    rw [hb]
    dsimp only [Option.getD_some]
    rw [div_mul_cancel₀ _ h1]; ring
  · rfl

theorem qp_line (G : Fin n → Fin n → K) (hG : ∀ i j, G i j = G j i) (c x p : Fin n → K) (t : K) :
    qp G c (fun i => x i + t * p i) = qp G c x + quad (∑ i, qpGrad G c x i * p i) (∑ i, p i * ∑ j, G i j * p j) t := by
  unfold qp quad qpGrad
  have e1 : ∑ i, c i * (x i + t * p i) = ∑ i, c i * x i + t * ∑ i, c i * p i := by
    rw [mul_sum, ← sum_add_distrib]; exact sum_congr rfl fun i _ => by ring
  have e2 : ∑ i, (c i + ∑ j, G i j * x j) * p i = ∑ i, c i * p i + ∑ i, ∑ j, G i j * x j * p i := by
    rw [← sum_add_distrib]; exact sum_congr rfl fun i _ => by rw [add_mul, sum_mul]
  have e3 : ∑ i, ∑ j, G i j * (x i + t * p i) * (x j + t * p j) = ∑ i, ∑ j, G i j * x i * x j + t * ∑ i, ∑ j, G i j * x j * p i +
      t * ∑ i, ∑ j, G i j * x i * p j + t ^ 2 * ∑ i, p i * ∑ j, G i j * p j := by
    simp only [mul_sum, ← sum_add_distrib]
    exact sum_congr rfl fun i _ => sum_congr rfl fun j _ => by ring
  have e4 : ∑ i, ∑ j, G i j * x i * p j = ∑ i, ∑ j, G i j * x j * p i := by
    rw [sum_comm]
    exact sum_congr rfl fun i _ => sum_congr rfl fun j _ => by rw [hG j i]
  rw [e1, e2, e3, e4]
  ring

theorem quadMin_zero (low high : Option K) : (quadMin low high (0 : K) 0).x = some 0 := by
  unfold quadMin
  simp

/-- A subspace step stays in the box; with a positive semidefinite matrix the value does not increase. -/
theorem subStep_spec {neps : K} {q : MinqIn K n} {c : Fin n → K} {S : MinqSt K n} {d : Fin n → K} (hb : InTheBox q.lo q.hi S.x)
    (hg : ∀ i, S.g i = qpGrad q.G c S.x i) {x : Fin n → K} {free : Fin n → Bool} {u : Bool} (h : subStep neps q S d = .ok x free u) :
    InTheBox q.lo q.hi x ∧ (Psd q.G → qp q.G c x ≤ qp q.G c S.x) := by
  unfold subStep at h
  simp only at h
  obtain ⟨au, hau⟩ : ∃ au, au = maxO ((List.finRange n).filterMap (lowEnd q S.x d)) := ⟨_, rfl⟩
  obtain ⟨ao, hao⟩ : ∃ ao, ao = minO ((List.finRange n).filterMap (highEnd q S.x d)) := ⟨_, rfl⟩
  obtain ⟨b, hbb⟩ : ∃ b, b = if |∑ i, S.g i * d i| < neps * ∑ i, |S.g i| * |d i| then 0 else ∑ i, S.g i * d i := ⟨_, rfl⟩
  rw [← hau, ← hao, ← hbb] at h
  have hmem : ∀ (f : Fin n → Option K) (a : K), a ∈ (List.finRange n).filterMap f ↔ ∃ i, f i = some a := by
    intro f a
    rw [List.mem_filterMap]
    simp
  have h0 : InI au ao 0 := by
    refine ⟨fun l hl => ?_, fun l hl => ?_⟩
    · obtain ⟨i, hi⟩ := (hmem _ _).1 (maxO_some (hau ▸ (show au = some l from hl))).1
      exact lowEnd_nonpos hb hi
    · obtain ⟨i, hi⟩ := (hmem _ _).1 (minO_some (hao ▸ (show ao = some l from hl))).1
      exact highEnd_nonneg hb hi
  have hne : ∀ l ∈ au, ∀ h ∈ ao, l ≤ h := fun l hl h hh => (h0.1 l hl).trans (h0.2 h hh)
  cases hi : (quadMin au ao b (∑ i, d i * ∑ j, q.G i j * d j)).ier with
  | true => rw [hi] at h; cases h
  | false =>
    obtain ⟨alpha, ha, hin, hmin, -⟩ := C46_minimiser_partial au ao b (∑ i, d i * ∑ j, q.G i j * d j) hne (.inr (.inr h0)) hi
    rw [hi, ha] at h
    injection h with hx hf hu
    have hx' : x = fun i => S.x i + alpha * d i := by
      rw [← hx]; funext i; exact stepEntry_fst q S.x d alpha S.free i
    have hlow : ∀ i a, lowEnd q S.x d i = some a → a ≤ alpha := by
      intro i a hia
      have hm : a ∈ (List.finRange n).filterMap (lowEnd q S.x d) := (hmem _ _).2 ⟨i, hia⟩
      cases hm' : au with
      | none => rw [maxO_none (hau.symm.trans hm')] at hm; cases hm
      | some m => exact ((maxO_some (hau.symm.trans hm')).2 a hm).trans (hin.1 m hm')
    have hhigh : ∀ i a, highEnd q S.x d i = some a → alpha ≤ a := by
      intro i a hia
      have hm : a ∈ (List.finRange n).filterMap (highEnd q S.x d) := (hmem _ _).2 ⟨i, hia⟩
      cases hm' : ao with
      | none => rw [minO_none (hao.symm.trans hm')] at hm; cases hm
      | some m => exact (hin.2 m hm').trans ((minO_some (hao.symm.trans hm')).2 a hm)
    refine ⟨fun i => ?_, fun hP => ?_⟩
    · rw [hx']
      dsimp only
      rcases lt_trichotomy (d i) 0 with hd | hd | hd
      · refine ⟨fun l hl => ?_, fun l hl => ?_⟩
        · have := hhigh i ((l - S.x i) / d i) (by
            unfold highEnd ratio; rw [if_neg hd.not_gt, if_pos hd, show q.lo i = some l from hl]; rfl)
          rw [le_div_iff_of_neg hd] at this
          linarith
        · have := hlow i ((l - S.x i) / d i) (by
            unfold lowEnd ratio; rw [if_pos hd, show q.hi i = some l from hl]; rfl)
          rw [div_le_iff_of_neg hd] at this
          linarith
      · rw [hd, mul_zero, add_zero]
        exact hb i
      · refine ⟨fun l hl => ?_, fun l hl => ?_⟩
        · have := hlow i ((l - S.x i) / d i) (by
            unfold lowEnd ratio; rw [if_neg hd.not_gt, if_pos hd, show q.lo i = some l from hl]; rfl)
          rw [div_le_iff₀ hd] at this
          linarith
        · have := hhigh i ((l - S.x i) / d i) (by
            unfold highEnd ratio; rw [if_pos hd, show q.hi i = some l from hl]; rfl)
          rw [le_div_iff₀ hd] at this
          linarith
    · rw [hx', qp_line q.G hP.symm]
      have hq := hmin 0 h0
      have hz : quad b (∑ i, d i * ∑ j, q.G i j * d j) 0 = 0 := by unfold quad; ring
      rw [hz] at hq
      have hg' : ∑ i, qpGrad q.G c S.x i * d i = ∑ i, S.g i * d i := sum_congr rfl fun i _ => by rw [hg]
      rw [hg']
      have hA := hP.nonneg d
      by_cases hr : |∑ i, S.g i * d i| < neps * ∑ i, |S.g i| * |d i|
      · rw [if_pos hr] at hbb
        rw [hbb] at hq ha
        have hα : alpha = 0 := by
          rcases hA.eq_or_lt with e | e
          · rw [← e, quadMin_zero] at ha
            injection ha with ha
            exact ha.symm
          · unfold quad at hq
            by_contra hne
            have := mul_pos e (pow_pos (abs_pos.2 hne) 2)
            rw [sq_abs] at this
            linarith
        rw [hα]
        unfold quad
        linarith
      · rw [if_neg hr] at hbb
        rw [hbb] at hq
        linarith

/-! ## Feasibility and descent -/

theorem half_sum (G : Fin n → Fin n → K) (c x g : Fin n → K) (hg : ∀ i, g i = qpGrad G c x i) : 1 / 2 * ∑ i, (c i + g i) * x i = qp G c x := by
  unfold qp
  have : ∑ i, (c i + g i) * x i = 2 * ∑ i, c i * x i + ∑ i, ∑ j, G i j * x i * x j := by
    rw [mul_sum, ← sum_add_distrib]
    refine sum_congr rfl fun i _ => ?_
    rw [hg]
    unfold qpGrad
    have : ∑ j, G i j * x i * x j = (∑ j, G i j * x j) * x i := by rw [sum_mul]; exact sum_congr rfl fun j _ => by ring
    rw [this]; ring
  rw [this]; ring

/-- What holds at the top of each pass: the point is in the box, its value is at most that of the start and at most `fval`; without improvement, the
point is a minimiser. -/
structure MinqInv (q : MinqIn K n) (c : Fin n → K) (gamma B : K) (M : MinqObj K Φ n) : Prop where
  box : InTheBox q.lo q.hi M.x
  le : Psd q.G → qp q.G c M.x ≤ B
  fval : ∀ v, M.fval = some v → Psd q.G → gamma + qp q.G c M.x ≤ v
  opt : M.improvement = false → Psd q.G → MinInBox q.G c q.lo q.hi M.x

/-- A coordinate step without change of value does not move. -/
theorem coordStep_stay {q : MinqIn K n} {c : Fin n → K} (hP : Psd q.G) {S T : MinqSt K n} {k : Fin n} {reset : Bool} (hb : InTheBox q.lo q.hi S.x)
    (hg : ∀ i, S.g i = qpGrad q.G c S.x i) (h : coordStep q S k = some (T, reset)) (hv : qp q.G c S.x ≤ qp q.G c T.x) : T.x = S.x := by
  obtain ⟨hb', hg', hk, hmin, hle, -, -⟩ := C60_coordinate_step_partial q c hP.symm S T k reset hb hg h
  obtain ⟨a, ha⟩ : ∃ a, a = T.x k - S.x k := ⟨_, rfl⟩
  have hT : T.x = Function.update S.x k (S.x k + a) := by
    funext i
    by_cases hi : i = k
    · rw [hi, Function.update_self, ha]; ring
    · rw [Function.update_of_ne hi, hk i hi]
  have hGk : 0 ≤ q.G k k := by
    have := hP.nonneg (Pi.single k 1)
    simpa [Pi.single_apply] using this
  have hq := qp_update q.G hP.symm c S.x k a
  rw [← hT] at hq
  have hqa : quad (qpGrad q.G c S.x k) (q.G k k) a = 0 := by linarith
  suffices a = 0 by rw [hT, this, add_zero, Function.update_eq_self]
  by_contra hne
  rcases hGk.eq_or_lt with e | e
  · rw [← e] at hqa
    unfold quad at hqa
    have hgk : S.g k = 0 := by
      rw [hg]
      have : qpGrad q.G c S.x k * a = 0 := by linarith
      exact (mul_eq_zero.1 this).resolve_right hne
    apply hne
    rw [ha, sub_eq_zero]
    have key : T.x = S.x := by
      unfold coordStep at h
      rw [hgk, ← e] at h
      have e1 : ∀ lo hi : Option K, quadMin lo hi (0 : K) 0 = ⟨some 0, false, false, false⟩ := by intro lo hi; unfold quadMin; simp
      simp only [e1, add_zero, Bool.false_eq_true, false_or] at h
      by_cases h1 : ∃ l ∈ q.lo k, S.x k ≤ l
      · rw [if_pos h1] at h
        obtain ⟨l, hl, hl'⟩ := h1
        have : S.x k = l := le_antisymm hl' ((hb k).1 l hl)
        rw [if_neg (by rw [show q.lo k = some l from hl, this]; simp)] at h
        injection h with h; injection h with h h'; rw [← h]; rfl
      · rw [if_neg h1] at h
        by_cases h2 : ∃ l ∈ q.hi k, l ≤ S.x k
        · rw [if_pos h2] at h
          obtain ⟨l, hl, hl'⟩ := h2
          have : S.x k = l := le_antisymm ((hb k).2 l hl) hl'
          rw [if_neg (by rw [show q.hi k = some l from hl, this]; simp)] at h
          injection h with h; injection h with h h'; rw [← h]; rfl
        · rw [if_neg h2, if_neg (by simp)] at h
          injection h with h; injection h with h h'; rw [← h]
    rw [key]
  · have hin : InI (q.lo k) (q.hi k) (S.x k + a / 2) := by
      have h1 := hb k
      have h2 := hb' k
      have : T.x k = S.x k + a := by rw [ha]; ring
      rw [this] at h2
      refine ⟨fun l hl => ?_, fun l hl => ?_⟩
      · have := h1.1 l hl; have := h2.1 l hl; linarith
      · have := h1.2 l hl; have := h2.2 l hl; linarith
    have h3 := hmin _ hin
    rw [qp_update q.G hP.symm, hq, hqa] at h3
    unfold quad at h3 hqa
    have := mul_pos e (pow_pos (abs_pos.2 hne) 2)
    rw [sq_abs] at this
    nlinarith

/-- A coordinate search over all variables that does not lower the value has found every coordinate minimal. -/
theorem coordLoop_stay {q : MinqIn K n} {c : Fin n → K} (hP : Psd q.G) : ∀ (r : ℕ) (S : MinqSt K n) (j : ℕ) (T : MinqSt K n), j ≤ n →
    InTheBox q.lo q.hi S.x → (∀ i, S.g i = qpGrad q.G c S.x i) →
    (∀ k : Fin n, k.1 < j → ∀ y, InI (q.lo k) (q.hi k) y → qp q.G c S.x ≤ qp q.G c (Function.update S.x k y)) →
    coordLoop q true r S j ((j : ℤ) - 1) = .done T → qp q.G c S.x ≤ qp q.G c T.x →
    T.x = S.x ∧ ∀ k : Fin n, ∀ y, InI (q.lo k) (q.hi k) y → qp q.G c S.x ≤ qp q.G c (Function.update S.x k y)
  | 0, S, j, T, _, _, _, _, h, _ => by cases h
  | r + 1, S, j, T, hj, hb, hg, hm, h, hv => by
    unfold coordLoop at h
    rcases hj.lt_or_eq with hlt | heq
    · have hn : nextIdx n ((j : ℤ) - 1) = j := by
        unfold nextIdx; rw [if_neg (by omega)]; ring
      have hs : seekIdx S true (n + 1) j ((j : ℤ) - 1) = some (j + 1, (j : ℤ)) := by
        unfold seekIdx
        rw [if_pos hj]
        simp only [hn]
        rw [dif_pos ⟨by omega, by simpa using hlt⟩, if_pos (by simp)]
      rw [hs] at h
      simp only at h
      rw [if_neg (by omega), dif_pos ⟨by omega, by simpa using hlt⟩] at h
      cases hc : coordStep q S ⟨(j : ℤ).toNat, by simpa using hlt⟩ with
      | none => rw [hc] at h; cases h
      | some Tr =>
        obtain ⟨S', reset⟩ := Tr
        rw [hc] at h
        simp only at h
        have hc' : coordStep q S ⟨j, hlt⟩ = some (S', reset) := hc
        obtain ⟨hb', hg', hk, hmin, hle, -, hreset⟩ := C60_coordinate_step_partial q c hP.symm S S' ⟨j, hlt⟩ reset hb hg hc'
        have hle2 := (C60_search_partial q c hP.symm true r S' _ _ hb' hg' T (by rw [h]; rfl)).2.2
        have hx := coordStep_stay hP hb hg hc' (hv.trans hle2)
        have hr : reset = false := by
          cases reset with
          | false => rfl
          | true => exact absurd hx (hreset rfl)
        rw [hr, if_neg (by simp)] at h
        have hjj : (j : ℤ) = ((j + 1 : ℕ) : ℤ) - 1 := by push_cast; ring
        rw [hjj] at h
        rw [← hx]
        refine coordLoop_stay hP r S' (j + 1) T hlt hb' hg' (fun k hkj y hy => ?_) h (by rw [hx]; exact hv)
        rcases Nat.lt_succ_iff_lt_or_eq.1 hkj with h1 | h1
        · rw [hx]; exact hm k h1 y hy
        · have : k = ⟨j, hlt⟩ := Fin.ext h1
          subst this
          have := hmin y hy
          rw [hx] at this ⊢
          exact this
    · subst heq
      cases hs : seekIdx S true (j + 1) j ((j : ℤ) - 1) with
      | none => rw [hs] at h; cases h
      | some ck =>
        obtain ⟨count, k⟩ := ck
        have hcount : count = j + 1 := by
          unfold seekIdx at hs
          rw [if_pos le_rfl] at hs
          simp only at hs
          split_ifs at hs with h1 h2
          · injection hs with hs; injection hs with hs; exact hs.symm
          · exact absurd (by simp) h2
        rw [hs] at h
        simp only at h
        rw [if_pos (by omega)] at h
        injection h with h
        rw [← h]
        exact ⟨rfl, fun k => hm k k.2⟩

/-- Coordinatewise minimal points of convex quadratics on boxes are minimisers. -/
theorem min_of_coordinates {G : Fin n → Fin n → K} {c : Fin n → K} (hP : Psd G) {lo hi : Fin n → Option K} {x : Fin n → K} (hb : InTheBox lo hi x)
    (h : ∀ k : Fin n, ∀ y, InI (lo k) (hi k) y → qp G c x ≤ qp G c (Function.update x k y)) : MinInBox G c lo hi x := by
  refine ⟨hb, fun y hy => ?_⟩
  have hk : ∀ k, 0 ≤ qpGrad G c x k * (y k - x k) := by
    intro k
    by_contra hneg
    rw [not_le] at hneg
    have hGk : 0 ≤ G k k := by
      have := hP.nonneg (Pi.single k 1)
      simpa [Pi.single_apply] using this
    have hA : 0 ≤ G k k * (y k - x k) ^ 2 := mul_nonneg hGk (sq_nonneg _)
    obtain ⟨A, hA'⟩ : ∃ A, A = G k k * (y k - x k) ^ 2 := ⟨_, rfl⟩
    obtain ⟨b, hb'⟩ : ∃ b, b = -(qpGrad G c x k * (y k - x k)) := ⟨_, rfl⟩
    have hbp : 0 < b := by rw [hb']; linarith
    obtain ⟨t, ht⟩ : ∃ t, t = b / (A + b) := ⟨_, rfl⟩
    have hAb : 0 < A + b := by rw [← hA'] at hA; linarith
    have ht0 : 0 < t := by rw [ht]; exact div_pos hbp hAb
    have ht1 : t ≤ 1 := by rw [ht, div_le_one hAb]; rw [← hA'] at hA; linarith
    have hin : InI (lo k) (hi k) (x k + t * (y k - x k)) := by
      have h1 := hb k
      have h2 := hy k
      refine ⟨fun l hl => ?_, fun l hl => ?_⟩
      · have := h1.1 l hl; have := h2.1 l hl; nlinarith
      · have := h1.2 l hl; have := h2.2 l hl; nlinarith
    have h3 := h k _ hin
    rw [qp_update G hP.symm] at h3
    unfold quad at h3
    have e : 1 / 2 * G k k * (t * (y k - x k)) ^ 2 + qpGrad G c x k * (t * (y k - x k)) = t * (1 / 2 * t * A - b) := by
      rw [hA', hb']; ring
    rw [e] at h3
    have h4 : 1 / 2 * t * A - b < 0 := by
      have : t * A < b := by
        rw [ht, div_mul_eq_mul_div, div_lt_iff₀ hAb]
        nlinarith
      have : 0 ≤ t * A := mul_nonneg ht0.le (hA' ▸ hA)
      linarith
    have := mul_neg_of_pos_of_neg ht0 h4
    linarith
  have e := qp_line G hP.symm c x (fun i => y i - x i) 1
  have e' : (fun i => x i + 1 * (y i - x i)) = y := by funext i; ring
  rw [e'] at e
  rw [e]
  unfold quad
  have h1 := hP.nonneg fun i => y i - x i
  have h2 : 0 ≤ ∑ i, qpGrad G c x i * (y i - x i) := sum_nonneg fun i _ => hk i
  linarith

theorem minqRest_inv {neps : K} {dir : Φ → (Fin n → Bool) → (Fin n → K) → Option (Φ × (Fin n → K))} {q : MinqIn K n} {c : Fin n → K}
    {gamma B fval : K} {M M' : MinqObj K Φ n} {S : MinqSt K n} (hb : InTheBox q.lo q.hi S.x) (hg : ∀ i, S.g i = qpGrad q.G c S.x i)
    (hB : Psd q.G → qp q.G c S.x ≤ B) (hf : Psd q.G → gamma + qp q.G c S.x ≤ fval)
    (ho : M.unfix = true → fval ≤ gamma + qp q.G c S.x → Psd q.G → MinInBox q.G c q.lo q.hi S.x)
    (h : minqRest neps dir q c gamma M fval S = .inl M') : MinqInv q c gamma B M' := by
  unfold minqRest at h
  simp only at h
  have hgain : fval - gamma - 1 / 2 * ∑ i, S.x i * (c i + S.g i) = fval - gamma - qp q.G c S.x := by
    rw [← half_sum q.G c S.x S.g hg]
    congr 2
    exact sum_congr rfl fun i _ => by ring
  rw [hgain] at h
  obtain ⟨imp, hi⟩ : ∃ imp, imp = (decide (0 < fval - gamma - qp q.G c S.x) || !M.unfix) := ⟨_, rfl⟩
  rw [← hi] at h
  obtain ⟨nr, hnr⟩ : ∃ nr, nr = if M.unfix = true ∧ M.nfreeOld = nFree S.free then M.nitref + 1 else 0 := ⟨_, rfl⟩
  rw [← hnr] at h
  have ho' : imp = false → Psd q.G → MinInBox q.G c q.lo q.hi S.x := by
    intro himp hP
    rw [himp, eq_comm, Bool.or_eq_false_iff, decide_eq_false_iff_not] at hi
    exact ho (by simpa using hi.2) (by linarith [not_lt.1 hi.1]) hP
  split_ifs at h with h1 h2
  · injection h with h
    rw [← h]
    exact ⟨hb, hB, fun v hv hP => by injection hv with hv; rw [← hv]; exact hf hP, ho'⟩
  · injection h with h
    rw [← h]
    exact ⟨hb, hB, fun v hv hP => by injection hv with hv; rw [← hv]; exact hf hP, ho'⟩
  · have hit : imp = true := by
      rw [not_or] at h1
      simpa using h1.1
    cases hd : dir M.fac S.free S.g with
    | none => rw [hd] at h; cases h
    | some Ad =>
      obtain ⟨A, d⟩ := Ad
      rw [hd] at h
      simp only at h
      cases hs : subStep neps q S d with
      | nan => rw [hs] at h; cases h
      | ok x free u =>
        rw [hs] at h
        injection h with h
        rw [← h]
        obtain ⟨e1, e2⟩ := subStep_spec hb hg hs
        refine ⟨e1, fun hP => (e2 hP).trans (hB hP), fun v hv hP => ?_, fun hc => ?_⟩
        · injection hv with hv
          rw [← hv]
          exact (add_le_add_right (e2 hP) gamma).trans (hf hP)
        · exact absurd (hit.symm.trans hc) (by simp)

/-- Specification of a returned object. -/
structure Spec.MinqGood (q : MinqIn K n) (c : Fin n → K) (gamma B : K) (M : MinqObj K Φ n) (info : ℤ) : Prop where
  box : InTheBox q.lo q.hi M.x
  le : Psd q.G → qp q.G c M.x ≤ B
  fval : Psd q.G → ∃ v, M.fval = some v ∧ gamma + qp q.G c M.x ≤ v ∧ (info = 0 ∨ info = 99 → v = gamma + qp q.G c M.x)
  opt : info = 0 → M.improvement = false → Psd q.G → MinInBox q.G c q.lo q.hi M.x
  limit : info = 99 → M.nitref = 0 ∧ M.nsub = 3 * n
  zero : info = 0 → ¬ (M.nitref = 0 ∧ M.nsub = 3 * n) ∧ (M.improvement = false ∨ 0 < M.nitref)
  which : info = 0 ∨ info = 1 ∨ info = 99 ∨ info = -1

theorem minqInfo_cases {Φ : Type} (M : MinqObj K Φ n) (a b : K) : (minqInfo M a b = 99 → M.nitref = 0 ∧ M.nsub = 3 * n) ∧
    (minqInfo M a b = 0 → ¬ (M.nitref = 0 ∧ M.nsub = 3 * n) ∧ (M.improvement = false ∨ 0 < M.nitref)) := by
  unfold minqInfo
  split_ifs with h1 h2 h3 h4
  · exact ⟨fun _ => h1, fun h => absurd h (by decide)⟩
  · exact ⟨fun h => absurd h (by decide), fun _ => ⟨h1, .inl h2⟩⟩
  · exact ⟨fun h => absurd h (by decide), fun _ => ⟨h1, .inr (by omega)⟩⟩
  · exact ⟨fun h => absurd h (by decide), fun _ => ⟨h1, .inr h4.1⟩⟩
  · exact ⟨fun h => absurd h (by decide), fun h => absurd h (by decide)⟩

theorem minqLoop_spec {neps : K} {dir : Φ → (Fin n → Bool) → (Fin n → K) → Option (Φ × (Fin n → K))} {q : MinqIn K n} {c : Fin n → K}
    {gamma B : K} {rc : ℕ} (hG : ∀ i j, q.G i j = q.G j i) : ∀ (r : ℕ) (M : MinqObj K Φ n), MinqInv q c gamma B M → ∀ (R : MinqObj K Φ n) (info : ℤ),
    minqLoop neps dir q c gamma rc r M = .done R info → MinqGood q c gamma B R info
  | 0, M, _, R, info, h => by cases h
  | r + 1, M, hI, R, info, h => by
    unfold minqLoop at h
    simp only at h
    obtain ⟨g, hgd⟩ : ∃ g : Fin n → K, g = fun i => ∑ j, q.G i j * M.x j + c i := ⟨_, rfl⟩
    have hg : ∀ i, g i = qpGrad q.G c M.x i := fun i => by rw [hgd]; unfold qpGrad; ring
    obtain ⟨fn, hfn⟩ : ∃ fn, fn = gamma + 1 / 2 * ∑ i, (c i + (∑ j, q.G i j * M.x j + c i)) * M.x i := ⟨_, rfl⟩
    have hfn' : fn = gamma + qp q.G c M.x := by
      rw [hfn, ← half_sum q.G c M.x g hg, hgd]
    obtain ⟨fv, hfv⟩ : ∃ fv, fv = newFval M.nitref M.fval fn := ⟨_, rfl⟩
    rw [← hgd, ← hfn, ← hfv] at h
    have hfv' : Psd q.G → fv = gamma + qp q.G c M.x := by
      intro hP
      rw [hfv, ← hfn']
      unfold newFval
      split_ifs
      · cases hv : M.fval with
        | none => rfl
        | some v =>
          dsimp only
          exact min_eq_right (by rw [hfn']; exact hI.fval v hv hP)
      · rfl
    obtain ⟨info', hinfo⟩ : ∃ info', info' = minqInfo M fn fv := ⟨_, rfl⟩
    rw [← hinfo] at h
    by_cases hstop : info' = 0 ∨ info' = 99
    · rw [if_pos hstop] at h
      injection h with h h'
      rw [← h, ← h']
      refine ⟨hI.box, hI.le, fun hP => ⟨fv, rfl, (hfv' hP).ge, fun _ => hfv' hP⟩, fun _ hi hP => hI.opt hi hP,
        fun e => (minqInfo_cases M fn fv).1 (hinfo ▸ e), fun e => (minqInfo_cases M fn fv).2 (hinfo ▸ e), ?_⟩
      rcases hstop with e | e <;> simp [e]
    · rw [if_neg hstop] at h
      cases hc : coordLoop q M.unfix rc ⟨M.x, g, M.free⟩ 0 (-1) with
      | running S count k => rw [hc] at h; cases h
      | indexError => rw [hc] at h; cases h
      | unbounded S =>
        rw [hc] at h
        injection h with h h'
        rw [← h, ← h']
        obtain ⟨e1, e2, e3⟩ := C60_search_partial q c hG M.unfix rc ⟨M.x, g, M.free⟩ 0 (-1) hI.box hg S (by rw [hc]; rfl)
        exact ⟨e1, fun hP => e3.trans (hI.le hP), fun hP => ⟨fv, rfl, by rw [hfv' hP]; exact add_le_add_right e3 gamma, fun hh => absurd hh (by decide)⟩,
          fun hh => absurd hh (by decide), fun hh => absurd hh (by decide), fun hh => absurd hh (by decide), by simp⟩
      | done S =>
        rw [hc] at h
        simp only at h
        obtain ⟨e1, e2, e3⟩ := C60_search_partial q c hG M.unfix rc ⟨M.x, g, M.free⟩ 0 (-1) hI.box hg S (by rw [hc]; rfl)
        split_ifs at h with hnone
        · injection h with h h'
          rw [← h, ← h']
          exact ⟨e1, fun hP => e3.trans (hI.le hP), fun hP => ⟨fv, rfl, by rw [hfv' hP]; exact add_le_add_right e3 gamma, fun hh => absurd hh (by decide)⟩,
            fun hh => absurd hh (by decide), fun hh => absurd hh (by decide), fun hh => absurd hh (by decide), by simp⟩
        · cases hr : minqRest neps dir q c gamma M fv S with
          | inr R' =>
            rw [hr] at h
            exfalso
            dsimp only at h
            subst h
            unfold minqRest at hr
            simp only at hr
            split_ifs at hr
            all_goals
              cases hd : dir M.fac S.free S.g with
              | none => rw [hd] at hr; cases hr
              | some Ad =>
                rw [hd] at hr
                simp only at hr
                cases hs : subStep neps q S Ad.2 with
                | nan => rw [hs] at hr; cases hr
                | ok x free u => rw [hs] at hr; cases hr
          | inl M' =>
            rw [hr] at h
            refine minqLoop_spec hG r M' ?_ R info h
            refine minqRest_inv e1 e2 (fun hP => e3.trans (hI.le hP)) (fun hP => by rw [hfv' hP]; exact add_le_add_right e3 gamma) (fun hu hle hP => ?_) hr
            rw [hu] at hc
            rw [hfv' hP] at hle
            obtain ⟨s1, s2⟩ := coordLoop_stay hP rc ⟨M.x, g, M.free⟩ 0 S (Nat.zero_le _) hI.box hg (fun k hk => absurd hk (Nat.not_lt_zero _))
              (by simpa using hc) (by simpa using hle)
            rw [s1]
            exact min_of_coordinates hP hI.box s2

theorem clampO_in {lo hi : Option K} (h : ∀ l ∈ lo, ∀ u ∈ hi, l ≤ u) (x : K) : InI lo hi (clampO lo hi x) := by
  unfold clampO
  cases lo with
  | none =>
    cases hi with
    | none => exact ⟨fun _ h => (by cases h), fun _ h => (by cases h)⟩
    | some u => exact ⟨fun _ h => (by cases h), fun v hv => by injection hv with hv; rw [← hv]; exact min_le_right _ _⟩
  | some l =>
    refine ⟨fun v hv => by injection hv with hv; rw [← hv]; exact le_max_left _ _, fun v hv => ?_⟩
    cases hi with
    | none => cases hv
    | some u =>
      injection hv with hv
      rw [← hv]
      exact max_le (h l rfl u rfl) (min_le_right _ _)

theorem Psd.regularise {G : Fin n → Fin n → K} (hP : Psd G) {neps : K} (hn : 0 ≤ neps) : Psd (regularise neps G) := by
  refine ⟨fun i j => ?_, fun v => ?_⟩
  · unfold Sqpdfo.regularise
    by_cases h : i = j
    · rw [h]
    · rw [if_neg h, if_neg (Ne.symm h), hP.symm]
  · have hd : ∀ k, 0 ≤ G k k := by
      intro k
      have := hP.nonneg (Pi.single k 1)
      simpa [Pi.single_apply] using this
    have e : ∀ i, ∑ j, Sqpdfo.regularise neps G i j * v j = ∑ j, G i j * v j + neps * G i i * v i := by
      intro i
      rw [← add_sum_erase _ _ (mem_univ i), ← add_sum_erase _ (fun j => G i j * v j) (mem_univ i)]
      have : ∑ j ∈ univ.erase i, Sqpdfo.regularise neps G i j * v j = ∑ j ∈ univ.erase i, G i j * v j := by
        refine sum_congr rfl fun j hj => ?_
        unfold Sqpdfo.regularise
        rw [if_neg (Ne.symm (mem_erase.1 hj).1)]
      rw [this]
      unfold Sqpdfo.regularise
      rw [if_pos rfl]
      ring
    have e2 : ∑ i, v i * ∑ j, Sqpdfo.regularise neps G i j * v j = ∑ i, v i * ∑ j, G i j * v j + ∑ i, neps * G i i * v i ^ 2 := by
      rw [← sum_add_distrib]
      exact sum_congr rfl fun i _ => by rw [e]; ring
    rw [e2]
    exact add_nonneg (hP.nonneg v) (sum_nonneg fun i _ => mul_nonneg (mul_nonneg hn (hd i)) (sq_nonneg _))

/-- **C79.** Full claim: *for a symmetric positive semidefinite matrix and a nonempty box, `minq` returns the tuple of a feasible point whose value is at most that
of the start, with `info` 0, 1 or 99, and `info = 0` means that the point minimises the (regularised) quadratic in the box*.  Proved, for every
solution of the linear systems, every start and every number of passes: a returned point is feasible, its value is at most that of the start,
`fval` is its value if `info` is 0 or 99, 99 stands for `3 n` subspace steps (and never 0 then), and the point is a minimiser if the search ended because a coordinate search brought no improvement.
False: `info = 0` in the other cases (`C79_info_zero_false`), and `info` may be `-1` (`C79_info_false`). -/
theorem C79_search_partial {neps : K} (hn : 0 ≤ neps) (slv : Solver K) {c : Fin n → K} {G : Fin n → Fin n → K} (hG : ∀ i j, G i j = G j i)
    {lo hi : Fin n → Option K} (hbox : ∀ i, ∀ l ∈ lo i, ∀ u ∈ hi i, l ≤ u) {x0 : Fin n → K} {gamma : K} {rc r : ℕ} {M : MinqObj K (Fac K n) n} {info : ℤ}
    (h : minq neps slv c G lo hi x0 gamma rc r = .done M info) :
    InTheBox lo hi M.x ∧ (info = 0 ∨ info = 1 ∨ info = 99 ∨ info = -1) ∧ (info = 99 → M.nitref = 0 ∧ M.nsub = 3 * n) ∧
      (info = 0 → ¬ (M.nitref = 0 ∧ M.nsub = 3 * n) ∧ (M.improvement = false ∨ 0 < M.nitref)) ∧
      (Psd G → qp (regularise neps G) c M.x ≤ qp (regularise neps G) c (fun i => clampO (lo i) (hi i) (x0 i)) ∧
        (info = 0 ∨ info = 99 → M.fval = some (gamma + qp (regularise neps G) c M.x)) ∧
        (info = 0 → M.improvement = false → MinInBox (regularise neps G) c lo hi M.x)) := by
  have hs : ∀ i j, regularise neps G i j = regularise neps G j i := by
    intro i j
    unfold regularise
    by_cases h : i = j
    · rw [h]
    · rw [if_neg h, if_neg (Ne.symm h), hG]
  unfold minq at h
  have := minqLoop_spec (B := qp (regularise neps G) c (fun i => clampO (lo i) (hi i) (x0 i))) hs r _
    ⟨fun i => clampO_in (hbox i) (x0 i), fun _ => le_rfl, fun v hv => (by cases hv), fun hv => (by cases hv)⟩ M info h
  refine ⟨this.box, this.which, this.limit, this.zero, fun hP => ⟨this.le (Psd.regularise hP hn), fun hi => ?_, fun h0 hi => this.opt h0 hi (Psd.regularise hP hn)⟩⟩
  obtain ⟨v, hv, -, hv'⟩ := this.fval (Psd.regularise hP hn)
  rw [hv, hv' hi]

/-! ## Refutations: steps with one free variable -/

/-- The identity. -/
def idM : Fin n → Fin n → K := fun i j => if i = j then 1 else 0

theorem idM_unit : UnitLower (idM : Fin n → Fin n → K) :=
  ⟨fun i => by unfold idM; rw [if_pos rfl], fun i j h => by unfold idM; rw [if_neg h.ne]⟩

theorem solve_id {slv : Solver K} (hslv : SolvesAll slv) {κ : Type} [Fintype κ] [LinearOrder κ] {A : κ → κ → K} (hA : ∀ i j, A i j = if i = j then 1 else 0)
    (b : κ → K) : slv.run κ A b = b := by
  have hu : UnitLower A := ⟨fun i => by rw [hA, if_pos rfl], fun i j h => by rw [hA, if_neg h.ne]⟩
  have h := hslv κ A b (by rw [UnitLower.det hu]; exact isUnit_one)
  funext i
  have := h i
  rw [sum_eq_single i (fun k _ hk => by rw [hA, if_neg (Ne.symm hk), zero_mul]) (fun h => absurd (mem_univ i) h), hA, if_pos rfl, one_mul] at this
  exact this

theorem ldlrk1_zero {ι : Type} [Fintype ι] [LinearOrder ι] (neps : K) (slv : Solver K) (L : ι → ι → K) (d : ι → K) {alpha : K} (ha : alpha ≠ 0)
    (u : ι → K) (hu : ∀ i, u i = 0) : ldlrk1 neps slv L d alpha u = some ⟨L, d, none⟩ := by
  unfold ldlrk1
  rw [if_neg ha]
  have : (univ.filter fun k => u k ≠ 0) = ∅ := by
    ext k
    simp [hu]
  rw [this, sort_empty]
  rfl

theorem ldldown_id (neps : K) (slv : Solver K) (d : Fin n → K) (j : Fin n) (hd : d j ≠ 0) :
    ldldown neps slv idM d j = some (idM, Function.update d j 1) := by
  unfold ldldown
  rw [ldlrk1_zero _ _ _ _ hd _ fun i => by unfold idM; rw [if_neg i.2.ne'], Option.map_some]
  congr 2
  · funext a b
    unfold idM
    dsimp only
    split_ifs with h1 h2 h3 h4 h5 h6 h7 h8 <;> first | rfl | omega | skip
    all_goals (exfalso; subst_vars; simp_all)
  · funext a
    dsimp only
    split_ifs with h1 h2
    · rw [Function.update_of_ne h1.ne']
    · rw [h2, Function.update_self]
    · rw [Function.update_of_ne h2]

theorem ldlup_id {neps : K} (hn : 0 ≤ neps) {slv : Solver K} (hslv : SolvesAll slv) (d : Fin n → K) (j : Fin n) (a : K) (ha : neps < a) {g : Fin n → K}
    (hg : ∀ i, g i = if i = j then a else 0) : ldlup neps slv idM d j g = some ⟨idM, Function.update d j a, none⟩ := by
  have hgj : g j = a := by rw [hg, if_pos rfl]
  unfold ldlup
  by_cases hj : ∀ i, j ≤ i
  · rw [if_pos hj, hgj, if_neg (not_le.2 ha)]
  · rw [if_neg hj]
    simp only
    rw [solve_id hslv (A := fun a b : {i // i < j} => idM a.1 b.1) (fun i k => by unfold idM; simp only [Subtype.ext_iff])]
    have h0 : ∀ i : {i // i < j}, g i.1 = 0 := fun i => by rw [hg, if_neg i.2.ne]
    simp only [h0, zero_div, mul_zero, sum_const_zero, sub_zero]
    unfold upMid
    rw [hgj, if_neg (not_le.2 ha)]
    unfold upLast
    have hap : a ≠ 0 := (hn.trans_lt ha).ne'
    rw [ldlrk1_zero _ _ _ _ (neg_ne_zero.2 hap) _ fun i => by
      rw [hg, if_neg i.2.ne']; simp, Option.map_some]
    simp only
    congr 2
    · funext b k
      unfold idM
      split_ifs with h1 h2 h3 h4 h5 h6 h7 h8 h9 <;> first | rfl | omega | skip
      all_goals (first | (rw [hg, if_neg h1.ne']; simp) | (exfalso; subst_vars; simp_all))
    · funext b
      split_ifs with h1 h2
      · rw [Function.update_of_ne h1.ne']
      · rw [h2, Function.update_self]
      · rw [Function.update_of_ne h2]

theorem facDir_end {slv : Solver K} (hslv : SolvesAll slv) (d : Fin n → K) (B : Fin n → Bool) (g : Fin n → K) :
    (fun i => -slv.run (Fin n) (fun a b => idM b a) (fun i => slv.run (Fin n) idM (fun i => if B i then g i else 0) i / d i) i) =
      fun i => if B i then -(g i / d i) else 0 := by
  rw [solve_id hslv (A := idM) (fun i j => rfl), solve_id hslv (A := fun a b => idM b a) (fun i j => by unfold idM; simp only [eq_comm])]
  funext i
  split_ifs with h
  · rfl
  · rw [zero_div, neg_zero]

/-- The direction if one variable is free which was not before, and the factor is the identity. -/
theorem facDir_new {neps : K} (hn : 0 ≤ neps) {slv : Solver K} (hslv : SolvesAll slv) {G : Fin n → Fin n → K} (d : Fin n → K) (i : Fin n)
    (hi : neps < G i i) (g : Fin n → K) {free : Fin n → Bool} (e2 : ((List.finRange n).filter fun j => free j && !false) = [i]) :
    facDir neps slv G ⟨idM, d, fun _ => false⟩ free g =
      some (⟨idM, Function.update d i (G i i), Function.update (fun _ => false) i true⟩,
        fun k => if Function.update (fun _ => false) i true k then -(g k / Function.update d i (G i i) k) else 0) := by
  unfold facDir
  have e1 : ((List.finRange n).filter fun j => !free j && false) = [] := by simp
  simp only [e1]
  unfold facDown
  simp only [Option.bind_some, e2]
  unfold facUp
  simp only [Bool.false_eq_true, if_false]
  rw [ldlup_id hn hslv d i (G i i) hi (fun k => rfl)]
  simp only
  unfold facUp
  rw [Option.map_some, facDir_end hslv]

/-- The direction if the free variables are those of the factorisation. -/
theorem facDir_same {neps : K} {slv : Solver K} (hslv : SolvesAll slv) {G : Fin n → Fin n → K} (d : Fin n → K) (B : Fin n → Bool) (g : Fin n → K) :
    facDir neps slv G ⟨idM, d, B⟩ B g = some (⟨idM, d, B⟩, fun k => if B k then -(g k / d k) else 0) := by
  unfold facDir
  have e1 : ((List.finRange n).filter fun j => !B j && B j) = [] := by simp
  have e2 : ((List.finRange n).filter fun j => B j && !B j) = [] := by simp
  simp only [e1]
  unfold facDown
  simp only [Option.bind_some, e2]
  unfold facUp
  rw [Option.map_some, facDir_end hslv]

/-- Checks of results, for concrete cases. -/
def CoordRes.isDone (R : CoordRes K n) (x g : Fin n → K) (free : Fin n → Bool) : Bool :=
  match R with
  | .done S => decide (S.x = x) && decide (S.g = g) && decide (S.free = free)
  | _ => false

theorem CoordRes.isDone_eq {R : CoordRes K n} {x g : Fin n → K} {free : Fin n → Bool} (h : R.isDone x g free = true) : R = .done ⟨x, g, free⟩ := by
  unfold CoordRes.isDone at h
  split at h
  · simp only [Bool.and_eq_true, decide_eq_true_eq] at h
    obtain ⟨⟨rfl, rfl⟩, rfl⟩ := h
    rfl
  · cases h

def SubRes.isOk (R : SubRes K n) (x : Fin n → K) (free : Fin n → Bool) (u : Bool) : Bool :=
  match R with
  | .ok x' free' u' => decide (x' = x) && decide (free' = free) && decide (u' = u)
  | _ => false

theorem SubRes.isOk_eq {R : SubRes K n} {x : Fin n → K} {free : Fin n → Bool} {u : Bool} (h : R.isOk x free u = true) : R = .ok x free u := by
  unfold SubRes.isOk at h
  split at h
  · simp only [Bool.and_eq_true, decide_eq_true_eq] at h
    obtain ⟨⟨rfl, rfl⟩, rfl⟩ := h
    rfl
  · cases h

/-- One pass with a subspace step. -/
theorem minqLoop_pass {neps : K} {dir : Φ → (Fin n → Bool) → (Fin n → K) → Option (Φ × (Fin n → K))} {q : MinqIn K n} {c : Fin n → K} {gamma : K} {rc r : ℕ}
    {M : MinqObj K Φ n} {g : Fin n → K} {fv : K} {fnew : K} (hg : ∀ i, ∑ j, q.G i j * M.x j + c i = g i)
    (hfn : gamma + 1 / 2 * ∑ i, (c i + g i) * M.x i = fnew) (hfv : newFval M.nitref M.fval fnew = fv) (hinfo : minqInfo M fnew fv = -1)
    {y h : Fin n → K} {free : Fin n → Bool} (hc : (coordLoop q M.unfix rc ⟨M.x, g, M.free⟩ 0 (-1)).isDone y h free = true) (hu : M.unfix = true)
    (hgain : 0 < fv - gamma - 1 / 2 * ∑ i, y i * (c i + h i)) {nf : ℤ} (hnf : nFree free = nf) (hnf0 : nf ≠ 0) {nr : ℕ}
    (hnr : (if M.nfreeOld = nf then M.nitref + 1 else 0) = nr) (hnr3 : nr ≤ 3) {A : Φ} {d : Fin n → K} (hd : dir M.fac free h = some (A, d))
    {z : Fin n → K} {free' : Fin n → Bool} {u : Bool} (hs : (subStep neps q ⟨y, h, free⟩ d).isOk z free' u = true) {nf' : ℤ} (hnf' : nFree free' = nf') :
    minqLoop neps dir q c gamma rc (r + 1) M = minqLoop neps dir q c gamma rc r ⟨z, free', A, u, true, nr, M.nsub + 1, nf', nf, some fv⟩ := by
  conv_lhs => unfold minqLoop
  simp only
  rw [show (fun i => ∑ j, q.G i j * M.x j + c i) = g from funext hg]
  have hfn2 : gamma + 1 / 2 * ∑ i, (c i + (∑ j, q.G i j * M.x j + c i)) * M.x i = fnew := by
    rw [← hfn]
    simp only [hg]
  rw [hfn2, hfv, hinfo, if_neg (by decide), CoordRes.isDone_eq hc]
  simp only
  rw [if_neg (by rw [hu]; simp)]
  unfold minqRest
  simp only
  rw [hnf, hu, decide_eq_true hgain]
  simp only [Bool.true_or, true_and, hnr]
  rw [if_neg (by simp; omega), if_neg hnf0, hd]
  simp only
  rw [SubRes.isOk_eq hs]
  simp only
  rw [hnf']

theorem minqLoop_stop {neps : K} {dir : Φ → (Fin n → Bool) → (Fin n → K) → Option (Φ × (Fin n → K))} {q : MinqIn K n} {c : Fin n → K} {gamma : K} {rc r : ℕ}
    {M : MinqObj K Φ n} {g : Fin n → K} {fv : K} {fnew : K} (hg : ∀ i, ∑ j, q.G i j * M.x j + c i = g i)
    (hfn : gamma + 1 / 2 * ∑ i, (c i + g i) * M.x i = fnew) (hfv : newFval M.nitref M.fval fnew = fv) (hinfo : minqInfo M fnew fv = 0) :
    minqLoop neps dir q c gamma rc (r + 1) M = .done { M with fval := some fv } 0 := by
  unfold minqLoop
  simp only
  have hfn2 : gamma + 1 / 2 * ∑ i, (c i + (∑ j, q.G i j * M.x j + c i)) * M.x i = fnew := by
    rw [← hfn]
    simp only [hg]
  rw [hfn2, hfv, hinfo, if_pos (.inl rfl)]

/-- A pass without coordinates to look at. -/
theorem minqLoop_none {neps : K} {dir : Φ → (Fin n → Bool) → (Fin n → K) → Option (Φ × (Fin n → K))} {q : MinqIn K n} {c : Fin n → K} {gamma : K} {rc r : ℕ}
    {M : MinqObj K Φ n} {g : Fin n → K} {fv : K} {fnew : K} (hg : ∀ i, ∑ j, q.G i j * M.x j + c i = g i)
    (hfn : gamma + 1 / 2 * ∑ i, (c i + g i) * M.x i = fnew) (hfv : newFval M.nitref M.fval fnew = fv) (hinfo : minqInfo M fnew fv = -1)
    {y h : Fin n → K} {free : Fin n → Bool} (hc : (coordLoop q M.unfix rc ⟨M.x, g, M.free⟩ 0 (-1)).isDone y h free = true) (hu : M.unfix = false)
    (hf : ∀ i, M.free i = false) : minqLoop neps dir q c gamma rc (r + 1) M = .done { M with x := y, free := free, fval := some fv } (-1) := by
  conv_lhs => unfold minqLoop
  simp only
  rw [show (fun i => ∑ j, q.G i j * M.x j + c i) = g from funext hg]
  have hfn2 : gamma + 1 / 2 * ∑ i, (c i + (∑ j, q.G i j * M.x j + c i)) * M.x i = fnew := by
    rw [← hfn]
    simp only [hg]
  rw [hfn2, hfv, hinfo, if_neg (by decide), CoordRes.isDone_eq hc]
  simp only
  rw [if_pos ⟨hu, hf⟩]

/-- A pass without improvement. -/
theorem minqLoop_flat {neps : K} {dir : Φ → (Fin n → Bool) → (Fin n → K) → Option (Φ × (Fin n → K))} {q : MinqIn K n} {c : Fin n → K} {gamma : K} {rc r : ℕ}
    {M : MinqObj K Φ n} {g : Fin n → K} {fv : K} {fnew : K} (hg : ∀ i, ∑ j, q.G i j * M.x j + c i = g i)
    (hfn : gamma + 1 / 2 * ∑ i, (c i + g i) * M.x i = fnew) (hfv : newFval M.nitref M.fval fnew = fv) (hinfo : minqInfo M fnew fv = -1)
    {y h : Fin n → K} {free : Fin n → Bool} (hc : (coordLoop q M.unfix rc ⟨M.x, g, M.free⟩ 0 (-1)).isDone y h free = true) (hu : M.unfix = true)
    (hgain : fv - gamma - 1 / 2 * ∑ i, y i * (c i + h i) ≤ 0) {nf : ℤ} (hnf : nFree free = nf) {nr : ℕ}
    (hnr : (if M.nfreeOld = nf then M.nitref + 1 else 0) = nr) :
    minqLoop neps dir q c gamma rc (r + 1) M = minqLoop neps dir q c gamma rc r ⟨y, free, M.fac, true, false, nr, M.nsub, nf, nf, some fv⟩ := by
  conv_lhs => unfold minqLoop
  simp only
  rw [show (fun i => ∑ j, q.G i j * M.x j + c i) = g from funext hg]
  have hfn2 : gamma + 1 / 2 * ∑ i, (c i + (∑ j, q.G i j * M.x j + c i)) * M.x i = fnew := by
    rw [← hfn]
    simp only [hg]
  rw [hfn2, hfv, hinfo, if_neg (by decide), CoordRes.isDone_eq hc]
  simp only
  rw [if_neg (by rw [hu]; simp)]
  unfold minqRest
  simp only
  rw [hnf, hu, decide_eq_false (not_lt.2 hgain)]
  simp only [Bool.not_true, Bool.or_false, true_and, hnr, true_or, if_true]

/-- A pass in which the direction raises. -/
theorem minqLoop_raise {neps : K} {dir : Φ → (Fin n → Bool) → (Fin n → K) → Option (Φ × (Fin n → K))} {q : MinqIn K n} {c : Fin n → K} {gamma : K} {rc r : ℕ}
    {M : MinqObj K Φ n} {g : Fin n → K} {fv : K} {fnew : K} (hg : ∀ i, ∑ j, q.G i j * M.x j + c i = g i)
    (hfn : gamma + 1 / 2 * ∑ i, (c i + g i) * M.x i = fnew) (hfv : newFval M.nitref M.fval fnew = fv) (hinfo : minqInfo M fnew fv = -1)
    {y h : Fin n → K} {free : Fin n → Bool} (hc : (coordLoop q M.unfix rc ⟨M.x, g, M.free⟩ 0 (-1)).isDone y h free = true) (hu : M.unfix = true)
    (hgain : 0 < fv - gamma - 1 / 2 * ∑ i, y i * (c i + h i)) {nf : ℤ} (hnf : nFree free = nf) (hnf0 : nf ≠ 0) {nr : ℕ}
    (hnr : (if M.nfreeOld = nf then M.nitref + 1 else 0) = nr) (hnr3 : nr ≤ 3) (hd : dir M.fac free h = none) :
    minqLoop neps dir q c gamma rc (r + 1) M = .raised := by
  conv_lhs => unfold minqLoop
  simp only
  rw [show (fun i => ∑ j, q.G i j * M.x j + c i) = g from funext hg]
  have hfn2 : gamma + 1 / 2 * ∑ i, (c i + (∑ j, q.G i j * M.x j + c i)) * M.x i = fnew := by
    rw [← hfn]
    simp only [hg]
  rw [hfn2, hfv, hinfo, if_neg (by decide), CoordRes.isDone_eq hc]
  simp only
  rw [if_neg (by rw [hu]; simp)]
  unfold minqRest
  simp only
  rw [hnf, hu, decide_eq_true hgain]
  simp only [Bool.true_or, true_and, hnr]
  rw [if_neg (by simp; omega), if_neg hnf0, hd]

/-- `2x₀²/2 + x₁²/2 + x₂² - x₀x₂ + x₁x₂ - 3x₀ - 3x₁ - x₂` on `[0,2] × [0,2] × [0,3]`, up to the regularisation. -/
def Ex.mqG (neps : ℚ) : Fin 3 → Fin 3 → ℚ := ![![2 / (1 + neps), 0, -1], ![0, 1 / (1 + neps), 1], ![-1, 1, 2 / (1 + neps)]]
def Ex.mqR : Fin 3 → Fin 3 → ℚ := ![![2, 0, -1], ![0, 1, 1], ![-1, 1, 2]]
def Ex.mqLo : Fin 3 → Option ℚ := fun _ => some 0
def Ex.mqHi : Fin 3 → Option ℚ := ![some 2, some 2, some 3]

/-- `100*eps` (L57). -/
def Ex.neps : ℚ := 100 / 2 ^ 52

theorem Ex.mqG_pos : ∀ v : Fin 3 → ℚ, v ≠ 0 → 0 < ∑ i, v i * ∑ j, Ex.mqG Ex.neps i j * v j := by
  intro v hv
  have ha : (9 / 10 : ℚ) ≤ 1 / (1 + Ex.neps) := by decide +kernel
  obtain ⟨a, ha'⟩ : ∃ a, a = 1 / (1 + Ex.neps) := ⟨_, rfl⟩
  rw [← ha'] at ha
  have e : ∑ i, v i * ∑ j, Ex.mqG Ex.neps i j * v j = 2 * a * v 0 ^ 2 + a * v 1 ^ 2 + 2 * a * v 2 ^ 2 - 2 * v 0 * v 2 + 2 * v 1 * v 2 := by
    rw [ha']
    unfold Ex.mqG
    simp [Fin.sum_univ_three]
    ring
  rw [e]
  by_contra hneg
  rw [not_lt] at hneg
  have k : 9 / 5 * (v 0 - 5 / 9 * v 2) ^ 2 + 9 / 10 * (v 1 + 10 / 9 * v 2) ^ 2 + 2 / 15 * v 2 ^ 2 ≤ 0 := by
    nlinarith [mul_nonneg (sub_nonneg.2 ha) (sq_nonneg (v 0)), mul_nonneg (sub_nonneg.2 ha) (sq_nonneg (v 1)), mul_nonneg (sub_nonneg.2 ha) (sq_nonneg (v 2))]
  have k0 := sq_nonneg (v 0 - 5 / 9 * v 2)
  have k1 := sq_nonneg (v 1 + 10 / 9 * v 2)
  have k2 := sq_nonneg (v 2)
  have z2 : v 2 = 0 := pow_eq_zero_iff (two_ne_zero) |>.1 (by linarith)
  have z0 : v 0 - 5 / 9 * v 2 = 0 := pow_eq_zero_iff (two_ne_zero) |>.1 (by linarith)
  have z1 : v 1 + 10 / 9 * v 2 = 0 := pow_eq_zero_iff (two_ne_zero) |>.1 (by linarith)
  rw [z2] at z0 z1
  apply hv
  funext i
  fin_cases i
  · simpa using z0
  · simpa using z1
  · exact z2

theorem Ex.mqG_reg : regularise Ex.neps (Ex.mqG Ex.neps) = Ex.mqR := by
  funext i j
  revert i j
  decide +kernel

/-- **C79: refuted.** A positive definite problem: `minq` returns `(2, 2, 1/2)` with `info = 0`, though the first variable should be smaller. -/
theorem C79_info_zero_false {slv : Solver ℚ} (hslv : SolvesAll slv) : ∃ (G : Fin 3 → Fin 3 → ℚ) (c x0 : Fin 3 → ℚ) (lo hi : Fin 3 → Option ℚ)
    (M : MinqObj ℚ (Fac ℚ 3) 3), (∀ i j, G i j = G j i) ∧ (∀ v : Fin 3 → ℚ, v ≠ 0 → 0 < ∑ i, v i * ∑ j, G i j * v j) ∧
    minq Ex.neps slv c G lo hi x0 0 10 10 = .done M 0 ∧ ¬ MinInBox (regularise Ex.neps G) c lo hi M.x := by
  have hR := Ex.mqG_reg
  refine ⟨Ex.mqG Ex.neps, ![-3, -3, -1], ![2, 1, 2], Ex.mqLo, Ex.mqHi,
    ⟨![2, 2, 1 / 2], ![false, false, true], ⟨idM, Function.update (fun _ => 1) 2 2, Function.update (fun _ => false) 2 true⟩, true, true, 1, 2, 1, 1, some (-25 / 4)⟩,
    by decide +kernel, ?_, ?_, ?_⟩
  · exact Ex.mqG_pos
  · unfold minq
    rw [hR]
    have hx : (fun i => clampO (Ex.mqLo i) (Ex.mqHi i) ((![2, 1, 2] : Fin 3 → ℚ) i)) = ![2, 1, 2] := by decide +kernel
    rw [hx]
    rw [minqLoop_pass (g := ![-1, 0, 2]) (fnew := -9 / 2) (fv := -9 / 2) (y := ![2, 1, 1]) (h := ![0, -1, 0]) (free := ![false, false, true]) (nf := 1) (nr := 0)
      (z := ![2, 1, 1]) (free' := ![false, false, true]) (u := true) (nf' := 1) (by decide +kernel) (by decide +kernel) (by decide +kernel) (by decide +kernel)
      (by decide +kernel) rfl (by decide +kernel) (by decide +kernel) (by decide) (by decide +kernel) (by decide)
      (facDir_new (by decide +kernel) hslv (fun _ => 1) 2 (by decide +kernel) _ (by decide +kernel)) (by decide +kernel) (by decide +kernel)]
    rw [minqLoop_pass (g := ![0, -1, 0]) (fnew := -11 / 2) (fv := -11 / 2) (y := ![2, 2, 1 / 2]) (h := ![1 / 2, -1 / 2, 0]) (free := ![false, false, true]) (nf := 1) (nr := 1)
      (z := ![2, 2, 1 / 2]) (free' := ![false, false, true]) (u := true) (nf' := 1) (by decide +kernel) (by decide +kernel) (by decide +kernel) (by decide +kernel)
      (by decide +kernel) rfl (by decide +kernel) (by decide +kernel) (by decide) (by decide +kernel) (by decide)
      (by
        have e : (![false, false, true] : Fin 3 → Bool) = Function.update (fun _ => false) 2 true := by decide
        rw [e]
        exact facDir_same hslv _ _ _) (by decide +kernel) (by decide +kernel)]
    exact minqLoop_stop (g := ![1 / 2, -1 / 2, 0]) (fnew := -25 / 4) (by decide +kernel) (by decide +kernel) (by decide +kernel) (by decide +kernel)
  · rintro ⟨-, h⟩
    rw [hR] at h
    have := h ![7 / 4, 2, 1 / 2] (by
      intro i
      fin_cases i <;> exact ⟨fun l hl => by injection hl with hl; rw [← hl]; decide +kernel, fun l hl => by injection hl with hl; rw [← hl]; decide +kernel⟩)
    revert this
    decide +kernel

/-- A problem for which the search gives up. -/
def Ex.mqG2 (neps : ℚ) : Fin 3 → Fin 3 → ℚ := ![![1 / (1 + neps), -1, 1], ![-1, 2 / (1 + neps), -1], ![1, -1, 2 / (1 + neps)]]
def Ex.mqR2 : Fin 3 → Fin 3 → ℚ := ![![1, -1, 1], ![-1, 2, -1], ![1, -1, 2]]
def Ex.mqHi2 : Fin 3 → Option ℚ := ![some 2, some 3, some 1]

/-- **C79: refuted.** After a subspace step that ends at a bound without any free variable left, `minq` returns the undocumented `info = -1`, at a point
that is not a minimiser. -/
theorem C79_info_false {slv : Solver ℚ} (hslv : SolvesAll slv) : ∃ (G : Fin 3 → Fin 3 → ℚ) (c x0 : Fin 3 → ℚ) (lo hi : Fin 3 → Option ℚ)
    (M : MinqObj ℚ (Fac ℚ 3) 3), (∀ i j, G i j = G j i) ∧ (∀ v : Fin 3 → ℚ, v ≠ 0 → 0 < ∑ i, v i * ∑ j, G i j * v j) ∧
    minq Ex.neps slv c G lo hi x0 0 10 10 = .done M (-1) ∧ ¬ MinInBox (regularise Ex.neps G) c lo hi M.x := by
  have hR : regularise Ex.neps (Ex.mqG2 Ex.neps) = Ex.mqR2 := by
    funext i j
    revert i j
    decide +kernel
  refine ⟨Ex.mqG2 Ex.neps, ![1, 3, -1], ![0, 2, 0], Ex.mqLo, Ex.mqHi2,
    ⟨![0, 0, 0], ![false, false, false], ⟨idM, Function.update (fun _ => 1) 0 1, Function.update (fun _ => false) 0 true⟩, false, true, 0, 1, 0, 1, some 0⟩,
    by decide +kernel, ?_, ?_, ?_⟩
  · intro v hv
    have ha : (19 / 20 : ℚ) ≤ 1 / (1 + Ex.neps) := by decide +kernel
    obtain ⟨a, ha'⟩ : ∃ a, a = 1 / (1 + Ex.neps) := ⟨_, rfl⟩
    rw [← ha'] at ha
    have e : ∑ i, v i * ∑ j, Ex.mqG2 Ex.neps i j * v j = a * v 0 ^ 2 + 2 * a * v 1 ^ 2 + 2 * a * v 2 ^ 2 - 2 * v 0 * v 1 + 2 * v 0 * v 2 - 2 * v 1 * v 2 := by
      rw [ha']
      unfold Ex.mqG2
      simp [Fin.sum_univ_three]
      ring
    rw [e]
    by_contra hneg
    rw [not_lt] at hneg
    have k : 19 / 20 * (v 0 - 20 / 19 * v 1 + 20 / 19 * v 2) ^ 2 + 3 / 5 * (v 1 ^ 2 + v 2 ^ 2) ≤ 0 := by
      nlinarith [mul_nonneg (sub_nonneg.2 ha) (sq_nonneg (v 0)), mul_nonneg (sub_nonneg.2 ha) (sq_nonneg (v 1)), mul_nonneg (sub_nonneg.2 ha) (sq_nonneg (v 2)),
        sq_nonneg (v 1 + v 2), sq_nonneg (v 1 - v 2)]
    have k0 := sq_nonneg (v 0 - 20 / 19 * v 1 + 20 / 19 * v 2)
    have k1 := sq_nonneg (v 1)
    have k2 := sq_nonneg (v 2)
    have z2 : v 2 = 0 := pow_eq_zero_iff (two_ne_zero) |>.1 (by linarith)
    have z1 : v 1 = 0 := pow_eq_zero_iff (two_ne_zero) |>.1 (by linarith)
    have z0 : v 0 - 20 / 19 * v 1 + 20 / 19 * v 2 = 0 := pow_eq_zero_iff (two_ne_zero) |>.1 (by linarith)
    rw [z2, z1] at z0
    apply hv
    funext i
    fin_cases i
    · simpa using z0
    · exact z1
    · exact z2
  · unfold minq
    rw [hR]
    have hx : (fun i => clampO (Ex.mqLo i) (Ex.mqHi2 i) ((![0, 2, 0] : Fin 3 → ℚ) i)) = ![0, 2, 0] := by decide +kernel
    rw [hx]
    rw [minqLoop_pass (g := ![-1, 7, -3]) (fnew := 10) (fv := 10) (y := ![1, 0, 0]) (h := ![2, 2, 0]) (free := ![true, false, false]) (nf := 1) (nr := 0)
      (z := ![0, 0, 0]) (free' := ![false, false, false]) (u := false) (nf' := 0) (by decide +kernel) (by decide +kernel) (by decide +kernel) (by decide +kernel)
      (by decide +kernel) rfl (by decide +kernel) (by decide +kernel) (by decide) (by decide +kernel) (by decide)
      (facDir_new (by decide +kernel) hslv (fun _ => 1) 0 (by decide +kernel) _ (by decide +kernel)) (by decide +kernel) (by decide +kernel)]
    exact minqLoop_none (g := ![1, 3, -1]) (fnew := 0) (by decide +kernel) (by decide +kernel) (by decide +kernel) (by decide +kernel) (h := ![1, 3, -1])
      (by decide +kernel) rfl (by decide)
  · rintro ⟨-, h⟩
    rw [hR] at h
    have := h ![0, 0, 1 / 2] (by
      intro i
      fin_cases i <;> exact ⟨fun l hl => by injection hl with hl; rw [← hl]; decide +kernel, fun l hl => by injection hl with hl; rw [← hl]; decide +kernel⟩)
    revert this
    decide +kernel

/-- From the minimiser the search of `C79_info_zero_false` stops for lack of improvement. -/
theorem C79_from_minimiser (slv : Solver ℚ) : ∃ M, minq Ex.neps slv ![-3, -3, -1] (Ex.mqG Ex.neps) Ex.mqLo Ex.mqHi ![5 / 3, 2, 1 / 3] 0 10 10 = .done M 0 ∧
    M.improvement = false ∧ M.x = ![5 / 3, 2, 1 / 3] := by
  unfold minq
  rw [Ex.mqG_reg]
  have hx : (fun i => clampO (Ex.mqLo i) (Ex.mqHi i) ((![5 / 3, 2, 1 / 3] : Fin 3 → ℚ) i)) = ![5 / 3, 2, 1 / 3] := by decide +kernel
  rw [hx]
  rw [minqLoop_flat (g := ![0, -2 / 3, 0]) (fnew := -19 / 3) (fv := -19 / 3) (y := ![5 / 3, 2, 1 / 3]) (h := ![0, -2 / 3, 0]) (free := ![false, false, false]) (nf := 0) (nr := 0)
    (by decide +kernel) (by decide +kernel) (by decide +kernel) (by decide +kernel) (by decide +kernel) rfl (by decide +kernel) (by decide +kernel) (by decide +kernel)]
  rw [minqLoop_stop (g := ![0, -2 / 3, 0]) (fnew := -19 / 3) (fv := -19 / 3) (by decide +kernel) (by decide +kernel) (by decide +kernel) (by decide +kernel)]
  exact ⟨_, rfl, rfl, rfl⟩

theorem Ex.mqG_psd : Psd (Ex.mqG Ex.neps) := by
  refine ⟨by decide +kernel, fun v => ?_⟩
  by_cases h : v = 0
  · rw [h]; simp
  · exact (Ex.mqG_pos v h).le

/-- The hypotheses of `C79_search_partial` can be met: the point is the minimiser. -/
example (slv : Solver ℚ) : MinInBox (regularise Ex.neps (Ex.mqG Ex.neps)) ![-3, -3, -1] Ex.mqLo Ex.mqHi ![5 / 3, 2, 1 / 3] := by
  obtain ⟨M, h1, h2, h3⟩ := C79_from_minimiser slv
  rw [← h3]
  exact ((C79_search_partial (by decide +kernel) slv Ex.mqG_psd.symm (by
    intro i l hl u hu
    injection hl with hl
    rw [← hl]
    revert i u
    decide +kernel) h1).2.2.2.2 Ex.mqG_psd).2.2 rfl h2

/-- **C79 (indefinite matrices): refuted.** The docstring promises a local minimiser; the search raises as soon as the matrix of the free variables is
not positive definite. -/
theorem C79_indefinite_raises {slv : Solver ℚ} (hslv : SolvesAll slv) :
    minq Ex.neps slv ![1, 0] ![![1 / (1 + Ex.neps), 2], ![2, 1 / (1 + Ex.neps)]] (fun _ => some (-10)) (fun _ => some 10) ![0, 0] 0 10 10 = .raised := by
  have hR : regularise Ex.neps ![![1 / (1 + Ex.neps), 2], ![2, 1 / (1 + Ex.neps)]] = (![![1, 2], ![2, 1]] : Fin 2 → Fin 2 → ℚ) := by
    funext i j
    revert i j
    decide +kernel
  unfold minq
  rw [hR]
  have hx : (fun i => clampO (some (-10)) (some 10) ((![0, 0] : Fin 2 → ℚ) i)) = ![0, 0] := by decide +kernel
  rw [hx]
  refine minqLoop_raise (g := ![1, 0]) (fnew := 0) (fv := 0) (y := ![-1, 2]) (h := ![4, 0]) (free := ![true, true]) (nf := 2) (nr := 0)
    (by decide +kernel) (by decide +kernel) (by decide +kernel) (by decide +kernel) (by decide +kernel) rfl (by decide +kernel) (by decide +kernel)
    (by decide) (by decide +kernel) (by decide) ?_
  have e1 : ((List.finRange 2).filter fun j => !(![true, true] : Fin 2 → Bool) j && false) = [] := by decide
  have e2 : ((List.finRange 2).filter fun j => (![true, true] : Fin 2 → Bool) j && !false) = [0, 1] := by decide
  have e0 : (Fac.init : Fac ℚ 2) = ⟨idM, fun _ => 1, fun _ => false⟩ := rfl
  unfold facDir
  rw [e0]
  simp only [e1]
  unfold facDown
  simp only [Option.bind_some, e2]
  unfold facUp
  simp only [Bool.false_eq_true, if_false]
  rw [ldlup_id (by decide +kernel) hslv _ 0 1 (by decide +kernel) (fun i => by fin_cases i <;> decide +kernel)]
  simp only
  unfold facUp
  obtain ⟨p, hp, hp0⟩ : ∃ p, ldlup Ex.neps slv idM (Function.update (fun _ => 1) 0 1) 1 (fun i => if i = 1 then (![![1, 2], ![2, 1]] : Fin 2 → Fin 2 → ℚ) 1 1
      else if Function.update (fun _ => false) 0 true i = true then (![![1, 2], ![2, 1]] : Fin 2 → Fin 2 → ℚ) i 1 else 0) =
        some ⟨idM, Function.update (fun _ => 1) 0 1, some p⟩ ∧ p 1 = -1 := by
    unfold ldlup
    rw [if_neg (by decide)]
    simp only
    rw [solve_id hslv (A := fun a b : {i : Fin 2 // i < 1} => idM a.1 b.1) (fun i k => by unfold idM; simp only [Subtype.ext_iff])]
    unfold upMid
    rw [if_pos (by decide +kernel)]
    refine ⟨_, rfl, ?_⟩
    rw [dif_neg (by decide), if_pos rfl]
  rw [hp]
  simp only
  rw [if_neg (fun h => by rw [h] at hp0; exact absurd hp0 (by decide +kernel)), Option.map_none]

#print axioms C79_search_partial
#print axioms C79_info_zero_false
#print axioms C79_info_false
#print axioms C79_from_minimiser
#print axioms C79_indefinite_raises

end Sqpdfo
