import Verif.Props.C45_C59_Blls
import Verif.Props.C44_C67_SolveTR

/-! # C88: residuals of the bounded least-squares solver

The Cauchy point of an iteration satisfies a sufficient decrease condition, and the point computed
in the subspace of the free variables is a minimiser over all points with the same variables at
bounds.  Later passes of the nested search may increase the residual, also the returned one. -/

set_option linter.unusedSectionVars false

namespace Sqpdfo
open Spec
variable {K : Type} [Field K] [LinearOrder K] [IsStrictOrderedRing K] {m n : ℕ}

/-- Sum of the squared residuals of the linear system. -/
def Spec.SSq (A : Matrix (Fin m) (Fin n) K) (b : Fin m → K) (x : Fin n → K) : K :=
  ∑ j, (∑ i, A j i * x i - b j) ^ 2

/-- Directional derivative of half the sum of squares. -/
def Spec.SSqSlope (A : Matrix (Fin m) (Fin n) K) (b : Fin m → K) (x d : Fin n → K) : K :=
  ∑ j, (∑ i, A j i * x i - b j) * ∑ i, A j i * d i

/-- Contract of `pinv_(A[:,free]).dot(rhs)`: a least-squares solution in the listed variables. -/
def Spec.LeastSq (A : Matrix (Fin m) (Fin n) K)
    (pinv : List (Fin n) → (Fin m → K) → Fin n → K) : Prop :=
  ∀ (free : List (Fin n)) (r : Fin m → K) (v : Fin n → K), free.Nodup →
    ∑ j, ((free.map fun i => A j i * pinv free r i).sum - r j) ^ 2 ≤
      ∑ j, ((free.map fun i => A j i * v i).sum - r j) ^ 2

/-- `x` is within `1e-12` of a bound. -/
def Spec.Touch (bd : Option K) (x : K) : Prop := ∃ l, bd = some l ∧ |x - l| ≤ 1 / 10 ^ 12

/-- `x` agrees with the bounds wherever `c` is within `1e-12` of them. -/
def Spec.OnFace (lb ub : Fin n → Option K) (c x : Fin n → K) : Prop :=
  (∀ i, Touch (lb i) (c i) → lb i = some (x i)) ∧ (∀ i, Touch (ub i) (c i) → ub i = some (x i))

theorem nearB_iff (bd : Option K) (x : K) : nearB bd x = true ↔ Touch bd x := by
  cases bd with
  | none => simp [nearB, Touch]
  | some l => simp [nearB, Touch, cFeas]

theorem resid_ssq (p : BllsIn K m n) (hN : ∀ v, p.nrmM v ^ 2 = v ⬝ᵥ v) (x : Fin n → K) :
    p.nrmM (p.resid x) ^ 2 = SSq p.A p.b x := by
  rw [hN]
  simp only [dotProduct, SSq, BllsIn.resid, Matrix.mulVec, Pi.sub_apply]
  exact Finset.sum_congr rfl fun j _ => (by ring)

theorem grad_slope (p : BllsIn K m n) (x d : Fin n → K) :
    p.grad (p.resid x) ⬝ᵥ d = SSqSlope p.A p.b x d := by
  have h : p.grad (p.resid x) ⬝ᵥ d = p.resid x ⬝ᵥ p.A.mulVec d := by
    rw [BllsIn.grad, Matrix.mulVec_transpose, Matrix.dotProduct_mulVec]
  rw [h]
  simp only [dotProduct, SSqSlope, BllsIn.resid, Matrix.mulVec, Pi.sub_apply]

theorem ssq_expand (A : Matrix (Fin m) (Fin n) K) (b : Fin m → K) (x y : Fin n → K) :
    SSq A b y = SSq A b x + 2 * SSqSlope A b x (y - x) + A.mulVec (y - x) ⬝ᵥ A.mulVec (y - x) := by
  simp only [SSq, SSqSlope, dotProduct, Matrix.mulVec]
  rw [Finset.mul_sum, ← Finset.sum_add_distrib, ← Finset.sum_add_distrib]
  refine Finset.sum_congr rfl fun j _ => ?_
  have : ∑ i, A j i * y i = ∑ i, A j i * x i + ∑ i, A j i * (y - x) i := by
    rw [← Finset.sum_add_distrib]
    exact Finset.sum_congr rfl fun i _ => (by simp only [Pi.sub_apply]; ring)
  rw [this]; ring

theorem clip_sign (lo hi : Option K) (s g a : K) (ha : 0 ≤ a) (hs : InB lo hi s) :
    g * (atMost hi (atLeast lo (s - a * g)) - s) ≤ 0 := by
  rcases le_total 0 g with hg | hg
  · have hle : atMost hi (atLeast lo (s - a * g)) ≤ s := by
      have h1 : atLeast lo (s - a * g) ≤ s := by
        have hag := mul_nonneg ha hg
        cases lo with
        | none => simp only [atLeast]; linarith
        | some l => exact max_le (by linarith) (hs.1 l rfl)
      cases hi with
      | none => exact h1
      | some u => exact (min_le_left _ _).trans h1
    exact mul_nonpos_of_nonneg_of_nonpos hg (by linarith)
  · have hle : s ≤ atMost hi (atLeast lo (s - a * g)) := by
      have hag := mul_nonpos_of_nonneg_of_nonpos ha hg
      have h1 : s ≤ atLeast lo (s - a * g) := by
        cases lo with
        | none => simp only [atLeast]; linarith
        | some l => exact le_max_of_le_left (by linarith)
      cases hi with
      | none => exact h1
      | some u => exact le_min h1 (hs.2 u rfl)
    exact mul_nonpos_of_nonpos_of_nonneg hg (by linarith)

theorem cauchy_accept (p : BllsIn K m n) (s g : Fin n → K) : ∀ (r kc : ℕ) (a : K), 0 ≤ a →
    (cauchy p s g r kc a).1 < kc + r →
    (∃ t : K, 0 ≤ t ∧ (cauchy p s g r kc a).2 = p.clip (s - t • g)) ∧
      g ⬝ᵥ ((cauchy p s g r kc a).2 - s) +
        1 / 2 * p.nrmM (p.A.mulVec ((cauchy p s g r kc a).2 - s)) ^ 2 ≤
      cArmijo * (g ⬝ᵥ ((cauchy p s g r kc a).2 - s)) := by
  intro r
  induction r with
  | zero =>
    intro kc a _ h
    unfold cauchy at h
    simp only [ite_self] at h
    omega
  | succ r ih =>
    intro kc a ha h
    unfold cauchy at h ⊢
    simp only at h ⊢
    split at h
    · rename_i hc
      rw [if_pos hc]
      exact ⟨⟨a, ha, rfl⟩, hc⟩
    · rename_i hc
      rw [if_neg hc]
      exact ih (kc + 1) (1 / 2 * a) (by linarith) (by omega)

theorem putBounds_free (p : BllsIn K m n) (al au : List (Fin n)) (v : Fin n → K) (i : Fin n)
    (h1 : i ∉ al) (h2 : i ∉ au) : putBounds p al au v i = v i := by
  simp only [putBounds, h1, h2, if_false]

/-- A sum over all variables splits into those at lower bounds, at upper bounds and the others. -/
theorem sum_split (al au fr : List (Fin n)) (hal : al.Nodup) (hau : au.Nodup) (hfr : fr.Nodup)
    (hd : ∀ i, i ∈ al → i ∉ au) (hf : ∀ i, i ∈ fr ↔ i ∉ al ∧ i ∉ au) (f : Fin n → K) :
    ∑ i, f i = (al.map f).sum + (au.map f).sum + (fr.map f).sum := by
  classical
  rw [← List.sum_toFinset f hal, ← List.sum_toFinset f hau, ← List.sum_toFinset f hfr,
    ← Finset.sum_union, ← Finset.sum_union]
  · refine Finset.sum_congr ?_ fun _ _ => rfl
    ext i
    simp only [Finset.mem_univ, Finset.mem_union, List.mem_toFinset, hf, true_iff]
    tauto
  · rw [Finset.disjoint_left]
    intro i hi
    simp only [Finset.mem_union, List.mem_toFinset, hf] at hi ⊢
    tauto
  · rw [Finset.disjoint_left]
    intro i hi
    simp only [List.mem_toFinset] at hi ⊢
    exact hd i hi

/-- The subspace candidate minimises the residual over all points with the given variables at their
bounds. -/
theorem sub_min (p : BllsIn K m n) (hL : LeastSq p.A p.pinv) (al au fr : List (Fin n))
    (hal : al.Nodup) (hau : au.Nodup) (hfr : fr.Nodup)
    (hd : ∀ i, i ∈ al → i ∉ au) (hf : ∀ i, i ∈ fr ↔ i ∉ al ∧ i ∉ au) (x : Fin n → K)
    (hxl : ∀ i ∈ al, x i = bval (p.lb i)) (hxu : ∀ i ∈ au, x i = bval (p.ub i)) :
    SSq p.A p.b (putBounds p al au (p.pinv fr (p.rhs al au))) ≤ SSq p.A p.b x := by
  have key : ∀ y : Fin n → K, (∀ i ∈ al, y i = bval (p.lb i)) → (∀ i ∈ au, y i = bval (p.ub i)) →
      SSq p.A p.b y = ∑ j, ((fr.map fun i => p.A j i * y i).sum - p.rhs al au j) ^ 2 := by
    intro y hyl hyu
    unfold SSq
    refine Finset.sum_congr rfl fun j _ => ?_
    rw [sum_split al au fr hal hau hfr hd hf (fun i => p.A j i * y i)]
    have e1 : (al.map fun i => p.A j i * y i) = al.map fun i => p.A j i * bval (p.lb i) :=
      List.map_congr_left fun i hi => (by rw [hyl i hi])
    have e2 : (au.map fun i => p.A j i * y i) = au.map fun i => p.A j i * bval (p.ub i) :=
      List.map_congr_left fun i hi => (by rw [hyu i hi])
    rw [e1, e2]
    simp only [BllsIn.rhs]
    ring
  rw [key x hxl hxu, key]
  · refine le_trans (le_of_eq ?_) (hL fr _ x hfr)
    refine Finset.sum_congr rfl fun j _ => ?_
    have : (fr.map fun i => p.A j i * putBounds p al au (p.pinv fr (p.rhs al au)) i) =
        fr.map fun i => p.A j i * p.pinv fr (p.rhs al au) i :=
      List.map_congr_left fun i hi => (by
        rw [putBounds_free p al au _ i ((hf i).1 hi).1 ((hf i).1 hi).2])
    rw [this]
  · intro i hi
    simp only [putBounds, hd i hi, hi, if_true, if_false]
  · intro i hi
    simp only [putBounds, hi, if_true]

theorem not_belowB {lo : Option K} {x : K} (h : ∀ l, lo = some l → l ≤ x) : belowB lo x = false := by
  cases lo with
  | none => rfl
  | some l => simp [belowB, h l rfl]

theorem not_aboveB {hi : Option K} {x : K} (h : ∀ u, hi = some u → x ≤ u) : aboveB hi x = false := by
  cases hi with
  | none => rfl
  | some u => simp [aboveB, h u rfl]

/-- The first pass of the nested search, if its candidate is within the bounds. -/
theorem subLoop_within (p : BllsIn K m n) (r : ℕ) (S : BState K m n)
    (hw : Within p.lb p.ub (putBounds p S.atlb S.atub (p.pinv S.free (p.rhs S.atlb S.atub)))) :
    (subLoop p (r + 1) S).s = putBounds p S.atlb S.atub (p.pinv S.free (p.rhs S.atlb S.atub)) := by
  have e1 : (S.free.filter fun i => belowB (p.lb i)
      (putBounds p S.atlb S.atub (p.pinv S.free (p.rhs S.atlb S.atub)) i)) = [] := by
    rw [List.filter_eq_nil_iff]
    intro i _
    rw [not_belowB (hw i).1]; exact Bool.false_ne_true
  have e2 : (S.free.filter fun i => aboveB (p.ub i)
      (putBounds p S.atlb S.atub (p.pinv S.free (p.rhs S.atlb S.atub)) i)) = [] := by
    rw [List.filter_eq_nil_iff]
    intro i _
    rw [not_aboveB (hw i).2]; exact Bool.false_ne_true
  have hf : S.countSub.free = S.free := rfl
  have ha : S.countSub.atlb = S.atlb := rfl
  have hb : S.countSub.atub = S.atub := rfl
  unfold subLoop
  simp only [hf, ha, hb, e1, e2, List.length_nil]
  rw [if_neg (by omega)]

/-- C88, what holds for every iteration of `blls_` from a point within the bounds: there is a point
`c` within the bounds (the Cauchy point) whose residual satisfies the Armijo condition with constant
`0.01`, so is not larger than before the iteration; there is a point `y` which minimises the residual
over all points with those variables at their bounds that are within `1e-12` of them at `c`; and if
`y` is within the bounds, then it is the next iterate, or the iteration ends the whole search at `c`
(with components within `1e-12` of bounds moved to them) because no variable is free or the residual
is at most `1e-11`.
Missing: what happens if `y` is outside the bounds, see `C88_false`. -/
theorem C88_iteration_partial (p : BllsIn K m n) (hc : Consistent p.lb p.ub)
    (hgap : ∀ i l u, p.lb i = some l → p.ub i = some u → l + 2 / 10 ^ 12 < u)
    (hN : ∀ v, p.nrmM v ^ 2 = v ⬝ᵥ v) (hL : LeastSq p.A p.pinv)
    (S T : BState K m n) (opt : K) (hS : Within p.lb p.ub S.s) (hres : S.res = p.resid S.s)
    (h : bllsIter p S = some (T, opt)) :
    ∃ c y : Fin n → K, Within p.lb p.ub c ∧
      SSq p.A p.b c ≤ SSq p.A p.b S.s + 2 / 100 * SSqSlope p.A p.b S.s (c - S.s) ∧
      SSqSlope p.A p.b S.s (c - S.s) ≤ 0 ∧
      OnFace p.lb p.ub c y ∧
      (∀ x, OnFace p.lb p.ub c x → SSq p.A p.b y ≤ SSq p.A p.b x) ∧
      (Within p.lb p.ub y → T.s = y ∨
        opt = 0 ∧ OnFace p.lb p.ub c T.s ∧
          (∀ i, T.s i ≠ c i → Touch (p.lb i) (c i) ∨ Touch (p.ub i) (c i)) ∧
          ((∀ i, Touch (p.lb i) (c i) ∨ Touch (p.ub i) (c i)) ∨
            p.nrmM (p.A.mulVec T.s - p.b) ≤ 1 / 10 ^ 11)) := by
  have htouch : ∀ i x, nearB (p.lb i) x = true → nearB (p.ub i) x = true → False := by
    intro i x h1 h2
    obtain ⟨l, hl, h1⟩ := (nearB_iff _ _).1 h1
    obtain ⟨u, hu, h2⟩ := (nearB_iff _ _).1 h2
    have h3 := hgap i l u hl hu
    have h4 := abs_le.1 h1
    have h5 := abs_le.1 h2
    have h6 : (2 : K) / 10 ^ 12 = 1 / 10 ^ 12 + 1 / 10 ^ 12 := by ring
    linarith [h4.2, h5.1]
  have hbl : ∀ i x, nearB (p.lb i) x = true → p.lb i = some (bval (p.lb i)) := by
    intro i x h1
    obtain ⟨l, hl, _⟩ := (nearB_iff _ _).1 h1
    rw [hl]; rfl
  have hbu : ∀ i x, nearB (p.ub i) x = true → p.ub i = some (bval (p.ub i)) := by
    intro i x h1
    obtain ⟨l, hl, _⟩ := (nearB_iff _ _).1 h1
    rw [hl]; rfl
  unfold bllsIter at h
  simp only at h
  split at h
  · cases h
  rename_i hk
  rw [hres] at h hk
  have ha : 0 ≤ (p.nrmN (p.grad (p.resid S.s)) /
      p.nrmM (p.A.mulVec (p.grad (p.resid S.s)))) ^ 2 := sq_nonneg _
  obtain ⟨⟨t, ht, hct⟩, harm⟩ := cauchy_accept p S.s (p.grad (p.resid S.s)) 14 1 _ ha (by omega)
  generalize (cauchy p S.s (p.grad (p.resid S.s)) 14 1
    ((p.nrmN (p.grad (p.resid S.s)) / p.nrmM (p.A.mulVec (p.grad (p.resid S.s)))) ^ 2)) = q
    at h hct harm hk
  have hslope : SSqSlope p.A p.b S.s (q.2 - S.s) ≤ 0 := by
    rw [← grad_slope, dotProduct]
    refine Finset.sum_nonpos fun i _ => ?_
    rw [hct]
    exact clip_sign (p.lb i) (p.ub i) (S.s i) (p.grad (p.resid S.s) i) t ht (hS i)
  have hmem_l : ∀ i, i ∈ (List.finRange n).filter (fun i => nearB (p.lb i) (q.2 i)) ↔
      nearB (p.lb i) (q.2 i) = true := fun i => by simp [List.mem_filter]
  have hmem_u : ∀ i, i ∈ (List.finRange n).filter (fun i => nearB (p.ub i) (q.2 i)) ↔
      nearB (p.ub i) (q.2 i) = true := fun i => by simp [List.mem_filter]
  have hndl : ((List.finRange n).filter (fun i => nearB (p.lb i) (q.2 i))).Nodup :=
    (List.nodup_finRange n).filter _
  have hndu : ((List.finRange n).filter (fun i => nearB (p.ub i) (q.2 i))).Nodup :=
    (List.nodup_finRange n).filter _
  generalize (List.finRange n).filter (fun i => nearB (p.lb i) (q.2 i)) = al at h hmem_l hndl
  generalize (List.finRange n).filter (fun i => nearB (p.ub i) (q.2 i)) = au at h hmem_u hndu
  set S1 : BState K m n := { S with
      s := putBounds p al au q.2
      res := p.resid (putBounds p al au q.2)
      resn := p.nrmM (p.resid (putBounds p al au q.2))
      atlb := al
      atub := au
      trials := S.trials + q.1 } with hS1
  have hfree : ∀ i, i ∈ S1.free ↔ i ∉ al ∧ i ∉ au := fun i => mem_free S1 i
  have hnf : S1.free.Nodup := (List.nodup_finRange n).filter _
  have hd : ∀ i, i ∈ al → i ∉ au := fun i h1 h2 =>
    htouch i _ ((hmem_l i).1 h1) ((hmem_u i).1 h2)
  refine ⟨q.2, putBounds p al au (p.pinv S1.free (p.rhs al au)), ?_, ?_, hslope, ⟨?_, ?_⟩, ?_, ?_⟩
  · rw [hct]; exact clip_within p hc _
  · rw [ssq_expand p.A p.b S.s q.2, ← hN]
    rw [grad_slope] at harm
    unfold cArmijo at harm
    linarith
  · intro i hi
    have h1 := (nearB_iff _ _).2 hi
    have h2 := (hmem_l i).2 h1
    rw [hbl i _ h1]
    simp only [putBounds, hd i h2, h2, if_true, if_false]
  · intro i hi
    have h1 := (nearB_iff _ _).2 hi
    have h2 := (hmem_u i).2 h1
    rw [hbu i _ h1]
    simp only [putBounds, h2, if_true]
  · intro x hx
    refine sub_min p hL al au S1.free hndl hndu hnf hd hfree x ?_ ?_
    · intro i hi
      rw [hx.1 i ((nearB_iff _ _).1 ((hmem_l i).1 hi))]; rfl
    · intro i hi
      rw [hx.2 i ((nearB_iff _ _).1 ((hmem_u i).1 hi))]; rfl
  · intro hw
    split at h
    · right
      obtain ⟨rfl, rfl⟩ := Prod.mk.inj (Option.some.inj h)
      rename_i hend
      refine ⟨rfl, ⟨fun i hi => ?_, fun i hi => ?_⟩, fun i hi => ?_, ?_⟩
      · have h1 := (nearB_iff _ _).2 hi
        have h2 := (hmem_l i).2 h1
        rw [hbl i _ h1]
        show _ = some (putBounds p al au q.2 i)
        simp only [putBounds, hd i h2, h2, if_true, if_false]
      · have h1 := (nearB_iff _ _).2 hi
        have h2 := (hmem_u i).2 h1
        rw [hbu i _ h1]
        show _ = some (putBounds p al au q.2 i)
        simp only [putBounds, h2, if_true]
      · by_contra hno
        rw [not_or] at hno
        refine hi (putBounds_free p al au q.2 i (fun hm => hno.1 ?_) (fun hm => hno.2 ?_))
        · exact (nearB_iff _ _).1 ((hmem_l i).1 hm)
        · exact (nearB_iff _ _).1 ((hmem_u i).1 hm)
      · rcases hend with h0 | h0
        · left
          intro i
          rw [List.length_eq_zero_iff, List.eq_nil_iff_forall_not_mem] at h0
          have h1 := h0 i
          rw [hfree] at h1
          by_contra hno
          rw [not_or] at hno
          exact h1 ⟨fun hm => hno.1 ((nearB_iff _ _).1 ((hmem_l i).1 hm)),
            fun hm => hno.2 ((nearB_iff _ _).1 ((hmem_u i).1 hm))⟩
        · right
          exact h0
    · rename_i hne
      left
      have hn : n ≠ 0 := by
        rintro rfl
        apply hne
        left
        rw [List.length_eq_zero_iff, List.eq_nil_iff_forall_not_mem]
        exact fun i => i.elim0
      obtain ⟨k, rfl⟩ := Nat.exists_eq_succ_of_ne_zero hn
      obtain ⟨rfl, _⟩ := Prod.mk.inj (Option.some.inj h)
      exact subLoop_within p k S1 hw

/-- Consequence: if the subspace minimiser is within the bounds and no component of the Cauchy point
is close to, but not at, a bound, the iteration does not increase the residual. -/
theorem C88_descent_partial (p : BllsIn K m n) (hc : Consistent p.lb p.ub)
    (hgap : ∀ i l u, p.lb i = some l → p.ub i = some u → l + 2 / 10 ^ 12 < u)
    (hN : ∀ v, p.nrmM v ^ 2 = v ⬝ᵥ v) (hL : LeastSq p.A p.pinv)
    (S T : BState K m n) (opt : K) (hS : Within p.lb p.ub S.s) (hres : S.res = p.resid S.s)
    (h : bllsIter p S = some (T, opt)) :
    ∃ c y : Fin n → K, Within p.lb p.ub c ∧ OnFace p.lb p.ub c y ∧
      (∀ x, OnFace p.lb p.ub c x → SSq p.A p.b y ≤ SSq p.A p.b x) ∧
      (Within p.lb p.ub y → OnFace p.lb p.ub c c → SSq p.A p.b T.s ≤ SSq p.A p.b S.s) := by
  obtain ⟨c, y, h1, h2, h3, h4, h5, h6⟩ := C88_iteration_partial p hc hgap hN hL S T opt hS hres h
  refine ⟨c, y, h1, h4, h5, fun hw hcc => ?_⟩
  have hcs : SSq p.A p.b c ≤ SSq p.A p.b S.s := by linarith
  rcases h6 hw with h7 | ⟨_, h7, h8, _⟩
  · rw [h7]; exact (h5 c hcc).trans hcs
  · have : T.s = c := by
      funext i
      by_contra hne
      rcases h8 i hne with ht | ht
      · exact hne (Option.some.inj ((h7.1 i ht).symm.trans (hcc.1 i ht)))
      · exact hne (Option.some.inj ((h7.2 i ht).symm.trans (hcc.2 i ht)))
    rw [this]; exact hcs

/-! ### Counterexample and concrete case -/

/-- A norm that exceeds the Euclidean norm by at most `ε`. -/
def Spec.NormUp (ε : K) {k : ℕ} (nrm : (Fin k → K) → K) : Prop :=
  ∀ v, 0 ≤ nrm v ∧ v ⬝ᵥ v ≤ nrm v ^ 2 ∧ (ε ≤ nrm v → (nrm v - ε) ^ 2 ≤ v ⬝ᵥ v)

theorem Ex.sqUp_close (a : ℚ) (ha : 0 ≤ a) :
    1 / 10 ^ 20 ≤ Ex.sqUp a → (Ex.sqUp a - 1 / 10 ^ 20) ^ 2 ≤ a := by
  unfold Ex.sqUp
  by_cases h : a ≤ 0
  · rw [if_pos h]; intro h1; norm_num at h1
  rw [if_neg h]
  intro _
  have h1 : Nat.sqrt (a * 10 ^ 40).floor.toNat * Nat.sqrt (a * 10 ^ 40).floor.toNat ≤
      (a * 10 ^ 40).floor.toNat := Nat.sqrt_le _
  generalize Nat.sqrt (a * 10 ^ 40).floor.toNat = s at h1 ⊢
  have h2 : ((a * 10 ^ 40).floor : ℚ) ≤ a * 10 ^ 40 := Int.floor_le (a * 10 ^ 40)
  have h0 : 0 ≤ (a * 10 ^ 40).floor := by
    have hp : (0 : ℚ) ≤ a * 10 ^ 40 := by positivity
    exact Int.floor_nonneg.2 hp
  have h3 : ((s * s : ℕ) : ℤ) ≤ (a * 10 ^ 40).floor := by omega
  have h4 : ((s * s : ℕ) : ℚ) ≤ ((a * 10 ^ 40).floor : ℚ) := by exact_mod_cast h3
  rw [Nat.cast_mul] at h4
  have h5 : (((s + 1 : ℕ) : ℚ) / 10 ^ 20 - 1 / 10 ^ 20) ^ 2 = (s * s : ℚ) / 10 ^ 40 := by
    push_cast; ring
  rw [h5, div_le_iff₀ (by positivity)]
  linarith

namespace Ex

/-- Euclidean norm rounded up to twenty decimals. -/
def normUp {k : ℕ} (v : Fin k → ℚ) : ℚ := Ex.sqUp (v ⬝ᵥ v)

theorem normUp_spec {k : ℕ} : NormUp (1 / 10 ^ 20) (normUp (k := k)) := by
  intro v
  have h0 : 0 ≤ v ⬝ᵥ v := Finset.sum_nonneg fun i _ => mul_self_nonneg _
  have h1 := sqUp_spec _ h0
  exact ⟨h1.1, by rw [sq]; exact h1.2, sqUp_close _ h0⟩

/-- The matrix of the example. -/
def worseA : Matrix (Fin 3) (Fin 3) ℚ := !![2, 4, -4; -2, 0, 3; -1, -4, 2]

/-- Its pseudo-inverses, by the free variables. -/
def worsePinv (f0 f1 f2 : Bool) (r : Fin 3 → ℚ) : Fin 3 → ℚ :=
  match f0, f1, f2 with
  | true, true, true => ![(-3) * r 0 + (-2) * r 1 + (-3) * r 2, (-1 / 4) * r 0 + 0 * r 1 + (-1 / 2) * r 2, (-2) * r 0 + (-1) * r 1 + (-2) * r 2]
  | true, true, false => ![(1 / 9) * r 0 + (-4 / 9) * r 1 + (1 / 9) * r 2, (1 / 12) * r 0 + (1 / 6) * r 1 + (-1 / 6) * r 2, 0]
  | true, false, true => ![(-6 / 5) * r 0 + (-2) * r 1 + (3 / 5) * r 2, 0, (-4 / 5) * r 0 + (-1) * r 1 + (2 / 5) * r 2]
  | true, false, false => ![(2 / 9) * r 0 + (-2 / 9) * r 1 + (-1 / 9) * r 2, 0, 0]
  | false, true, true => ![0, (5 / 88) * r 0 + (9 / 44) * r 1 + (-17 / 88) * r 2, (-1 / 11) * r 0 + (3 / 11) * r 1 + (-1 / 11) * r 2]
  | false, true, false => ![0, (1 / 8) * r 0 + 0 * r 1 + (-1 / 8) * r 2, 0]
  | false, false, true => ![0, 0, (-4 / 29) * r 0 + (3 / 29) * r 1 + (2 / 29) * r 2]
  | false, false, false => ![0, 0, 0]

/-- Three variables in `[0,1/2] x [0,3] x [0,1/2]`, exact least-squares solutions. -/
def worse : BllsIn ℚ 3 3 where
  A := worseA
  b := ![1, -3, 6]
  lb := fun _ => some 0
  ub := ![some (1 / 2), some 3, some (1 / 2)]
  nrmM := normUp
  nrmN := normUp
  pinv := fun free r => worsePinv (decide (0 ∈ free)) (decide (1 ∈ free)) (decide (2 ∈ free)) r

theorem worse_sum (f : Fin 3 → ℚ) (free : List (Fin 3)) (h : free.Nodup) :
    (free.map f).sum = (if 0 ∈ free then f 0 else 0) + (if 1 ∈ free then f 1 else 0) +
      (if 2 ∈ free then f 2 else 0) := by
  have e : free.toFinset = Finset.univ.filter (· ∈ free) := by ext i; simp
  rw [← List.sum_toFinset f h, e, Finset.sum_filter, Fin.sum_univ_three]

theorem worse_lstsq : LeastSq worse.A worse.pinv := by
  intro free r v hn
  have key : ∀ u w : Fin 3 → ℚ, ∑ j, u j * (w j - u j) = 0 → ∑ j, u j ^ 2 ≤ ∑ j, w j ^ 2 := by
    intro u w h
    have : ∑ j, w j ^ 2 = ∑ j, u j ^ 2 + 2 * ∑ j, u j * (w j - u j) + ∑ j, (w j - u j) ^ 2 := by
      rw [Finset.mul_sum, ← Finset.sum_add_distrib, ← Finset.sum_add_distrib]
      exact Finset.sum_congr rfl fun j _ => (by ring)
    have h2 : 0 ≤ ∑ j, (w j - u j) ^ 2 := Finset.sum_nonneg fun j _ => sq_nonneg _
    rw [this, h]; linarith
  refine key _ _ ?_
  simp only [worse_sum _ free hn, Fin.sum_univ_three, worse, worseA]
  by_cases h0 : (0 : Fin 3) ∈ free <;> by_cases h1 : (1 : Fin 3) ∈ free <;>
    by_cases h2 : (2 : Fin 3) ∈ free <;>
    simp [h0, h1, h2, worsePinv] <;> ring

end Ex

/-- Negation of C88: with exact least-squares solutions in the subspaces and Euclidean norms (rounded
up to twenty decimals), `blls_` reports success although the point it returns has a larger residual
than its own starting point, the projected unconstrained solution. -/
theorem C88_false : ∃ p : BllsIn ℚ 3 3, Consistent p.lb p.ub ∧
    (∀ i l u, p.lb i = some l → p.ub i = some u → l + 2 / 10 ^ 12 < u) ∧
    NormUp (1 / 10 ^ 20) p.nrmM ∧ NormUp (1 / 10 ^ 20) p.nrmN ∧ LeastSq p.A p.pinv ∧
    (blls p).exitc = 0 ∧ Within p.lb p.ub (blls p).st.s ∧ (blls p).st.s = ![1 / 2, 0, 0] ∧
    p.clip (p.pinv (List.finRange 3) p.b) = 0 ∧
    SSq p.A p.b 0 < SSq p.A p.b (blls p).st.s := by
  have hs : (blls Ex.worse).st.s = ![1 / 2, 0, 0] := by decide +kernel
  refine ⟨Ex.worse, ?_, ?_, Ex.normUp_spec, Ex.normUp_spec, Ex.worse_lstsq, by decide +kernel, ?_,
    hs, by decide +kernel, ?_⟩
  · intro i l u hl hu
    obtain rfl : (0 : ℚ) = l := Option.some.inj hl
    fin_cases i
    · obtain rfl : (1 / 2 : ℚ) = u := Option.some.inj hu
      norm_num
    · obtain rfl : (3 : ℚ) = u := Option.some.inj hu
      norm_num
    · obtain rfl : (1 / 2 : ℚ) = u := Option.some.inj hu
      norm_num
  · intro i l u hl hu
    obtain rfl : (0 : ℚ) = l := Option.some.inj hl
    fin_cases i
    · obtain rfl : (1 / 2 : ℚ) = u := Option.some.inj hu
      norm_num
    · obtain rfl : (3 : ℚ) = u := Option.some.inj hu
      norm_num
    · obtain rfl : (1 / 2 : ℚ) = u := Option.some.inj hu
      norm_num
  · rw [hs]
    intro i
    refine ⟨fun l hl => ?_, fun u hu => ?_⟩
    · obtain rfl : (0 : ℚ) = l := Option.some.inj hl
      fin_cases i <;> norm_num
    · fin_cases i
      · obtain rfl : (1 / 2 : ℚ) = u := Option.some.inj hu
        norm_num
      · obtain rfl : (3 : ℚ) = u := Option.some.inj hu
        norm_num
      · obtain rfl : (1 / 2 : ℚ) = u := Option.some.inj hu
        norm_num
  · rw [hs]
    decide +kernel

namespace Ex

/-- One equation `x0 + x1 = 3` with `x0` in `[0,1]`, `x1` in `[0,5]`. -/
def line : BllsIn ℚ 1 2 where
  A := !![1, 1]
  b := ![3]
  lb := fun _ => some 0
  ub := ![some 1, some 5]
  nrmM := fun v => |v 0|
  nrmN := fun v => max |v 0| |v 1|
  pinv := fun free r => fun i => if i ∈ free then r 0 / free.length else 0

/-- The start point `(1, 3/2)`. -/
def lineStart : BState ℚ 1 2 :=
  ⟨![1, 3 / 2], line.resid ![1, 3 / 2], 1 / 2, [], [], 0, [], [], 0, false, 0, 0, 0⟩

theorem line_lstsq : LeastSq line.A line.pinv := by
  intro free r v hn
  simp only [Fin.sum_univ_one]
  cases free with
  | nil => simp
  | cons a l =>
    have h : ((a :: l).map fun i => line.A 0 i * line.pinv (a :: l) r i) =
        (a :: l).map fun _ => r 0 / ((a :: l).length : ℚ) := by
      refine List.map_congr_left fun i hi => ?_
      have h1 : line.A 0 i = 1 := by fin_cases i <;> rfl
      have h2 : line.pinv (a :: l) r i = r 0 / ((a :: l).length : ℚ) := if_pos hi
      rw [h1, h2, one_mul]
    rw [h, List.map_const', List.sum_replicate, nsmul_eq_mul,
      mul_div_cancel₀ _ (by simp only [List.length_cons]; positivity), sub_self]
    exact le_trans (le_of_eq (by norm_num)) (sq_nonneg _)

end Ex

/-- The hypotheses of `C88_iteration_partial` and `C88_descent_partial` hold, the first variable is at
its bound at the Cauchy point, and the residual becomes zero. -/
example : Consistent Ex.line.lb Ex.line.ub ∧
    (∀ i l u, Ex.line.lb i = some l → Ex.line.ub i = some u → l + 2 / 10 ^ 12 < u) ∧
    (∀ v, Ex.line.nrmM v ^ 2 = v ⬝ᵥ v) ∧ LeastSq Ex.line.A Ex.line.pinv ∧
    Within Ex.line.lb Ex.line.ub Ex.lineStart.s ∧ Ex.lineStart.res = Ex.line.resid Ex.lineStart.s ∧
    (∃ T opt, bllsIter Ex.line Ex.lineStart = some (T, opt) ∧ T.s = ![1, 2]) := by
  have hb : ∀ i l u, Ex.line.lb i = some l → Ex.line.ub i = some u →
      l + 2 / 10 ^ 12 < u ∧ l ≤ u := by
    intro i l u hl hu
    obtain rfl : (0 : ℚ) = l := Option.some.inj hl
    fin_cases i
    · obtain rfl : (1 : ℚ) = u := Option.some.inj hu
      norm_num
    · obtain rfl : (5 : ℚ) = u := Option.some.inj hu
      norm_num
  refine ⟨fun i l u h1 h2 => (hb i l u h1 h2).2, fun i l u h1 h2 => (hb i l u h1 h2).1, fun v => ?_,
    Ex.line_lstsq, fun i => ⟨fun l hl => ?_, fun u hu => ?_⟩, rfl, ?_⟩
  · show |v 0| ^ 2 = _
    rw [sq_abs, dotProduct, Fin.sum_univ_one, sq]
  · obtain rfl : (0 : ℚ) = l := Option.some.inj hl
    fin_cases i <;> norm_num [Ex.lineStart]
  · fin_cases i
    · obtain rfl : (1 : ℚ) = u := Option.some.inj hu
      norm_num [Ex.lineStart]
    · obtain rfl : (5 : ℚ) = u := Option.some.inj hu
      norm_num [Ex.lineStart]
  · have h : ((bllsIter Ex.line Ex.lineStart).map fun r => r.1.s) = some ![1, 2] := by decide +kernel
    obtain ⟨r, h1, h2⟩ := Option.map_eq_some_iff.1 h
    exact ⟨r.1, r.2, h1, h2⟩

/-- The same equation with the first variable fixed by equal bounds. -/
def Ex.pinned : BllsIn ℚ 1 2 := { Ex.line with lb := ![some 1, some 0] }

/-- A variable with equal bounds is at both of them and is subtracted twice from the right-hand side
(L223-L227), so that the gap between the bounds cannot be left out of `C88_iteration_partial`: the
candidate `(1, 1)` is not the minimiser `(1, 2)`, and it is returned, with a larger residual than that
of the start point `(1, 3/2)`. -/
theorem C88_fixed : LeastSq Ex.pinned.A Ex.pinned.pinv ∧ (∀ v, Ex.pinned.nrmM v ^ 2 = v ⬝ᵥ v) ∧
    Consistent Ex.pinned.lb Ex.pinned.ub ∧
    (blls Ex.pinned).exitc = 1 ∧ (blls Ex.pinned).st.s = ![1, 1] ∧
    Ex.pinned.clip (Ex.pinned.pinv (List.finRange 2) Ex.pinned.b) = ![1, 3 / 2] ∧
    SSq Ex.pinned.A Ex.pinned.b ![1, 3 / 2] < SSq Ex.pinned.A Ex.pinned.b (blls Ex.pinned).st.s ∧
    SSq Ex.pinned.A Ex.pinned.b ![1, 2] = 0 := by
  have hs : (blls Ex.pinned).st.s = ![1, 1] := by decide +kernel
  refine ⟨Ex.line_lstsq, fun v => ?_, fun i l u hl hu => ?_, by decide +kernel, hs, by decide +kernel,
    by rw [hs]; decide +kernel, by decide +kernel⟩
  · show |v 0| ^ 2 = _
    rw [sq_abs, dotProduct, Fin.sum_univ_one, sq]
  · fin_cases i
    · obtain rfl : (1 : ℚ) = l := Option.some.inj hl
      obtain rfl : (1 : ℚ) = u := Option.some.inj hu
      norm_num
    · obtain rfl : (0 : ℚ) = l := Option.some.inj hl
      obtain rfl : (5 : ℚ) = u := Option.some.inj hu
      norm_num

#print axioms C88_fixed
#print axioms C88_iteration_partial
#print axioms C88_descent_partial
#print axioms C88_false

end Sqpdfo
