import Mathlib.Algebra.Order.BigOperators.Ring.Finset
import Mathlib.Data.Finset.Basic
import Verif.Model.TRMSbc
import Verif.Props.C42_C61_TRMS

/-! # C43, C66: the bound-constrained trust-region solver -/

set_option linter.unusedSectionVars false

namespace Sqpdfo
open Matrix Spec
variable {K : Type} [Field K] [LinearOrder K] [IsStrictOrderedRing K] {n : ℕ}

/-- `s` satisfies the bounds. -/
def Spec.StepIn (lb ub s : Fin n → K) : Prop := ∀ i, lb i ≤ s i ∧ s i ≤ ub i

theorem epsBnd_pos : (0 : K) < epsBnd := by unfold epsBnd; positivity

theorem mem_freeList {fr : Finset (Fin n)} {p : Fin n → Prop} [DecidablePred p] {i : Fin n} :
    i ∈ freeList fr p ↔ i ∈ fr ∧ p i := by
  simp [freeList]

theorem freeList_isEmpty {fr : Finset (Fin n)} {p : Fin n → Prop} [DecidablePred p]
    (h : (freeList fr p).isEmpty = true) {i : Fin n} (hi : i ∈ fr) : ¬ p i := by
  intro hp
  have : i ∈ freeList fr p := mem_freeList.2 ⟨hi, hp⟩
  rw [List.isEmpty_iff.1 h] at this
  cases this

theorem firstBest_mem {better : K → K → Bool} {f : Fin n → K} :
    ∀ (l : List (Fin n)), l ≠ [] → ∃ i, firstBest better f l = some i := by
  intro l hl
  cases l with
  | nil => exact absurd rfl hl
  | cons a l => exact ⟨_, rfl⟩

theorem pickB_some {I : BCIn K n} {better : K → K → Bool} {s d sd : Fin n → K}
    {us ls : List (Fin n)} (h : us ≠ [] ∨ ls ≠ []) : ∃ b, pickB I better s d sd us ls = some b := by
  unfold pickB
  cases hu : firstBest better (fun i => |I.ub i - sd i|) us with
  | some u =>
    cases hl : firstBest better (fun i => |sd i - I.lb i|) ls with
    | some l => exact ⟨_, rfl⟩
    | none => exact ⟨_, rfl⟩
  | none =>
    cases hl : firstBest better (fun i => |sd i - I.lb i|) ls with
    | some l => exact ⟨_, rfl⟩
    | none =>
      exfalso
      rcases h with h | h
      · obtain ⟨i, hi⟩ := firstBest_mem (better := better) (f := fun i => |I.ub i - sd i|) us h
        rw [hi] at hu; cases hu
      · obtain ⟨i, hi⟩ := firstBest_mem (better := better) (f := fun i => |sd i - I.lb i|) ls h
        rw [hi] at hl; cases hl

/-- What the loop on `lambda` guarantees of the step it finds. -/
structure HomStep (I : BCIn K n) (fr : Finset (Fin n)) (s s' : Fin n → K) : Prop where
  fixed : ∀ i, i ∉ fr → s' i = s i
  hit : ∃ i ∈ fr, s' i = I.ub i ∨ s' i = I.lb i
  comp : (∀ i, I.lb i ≤ I.ub i) → ∀ i, s' i = s i ∨ (I.lb i ≤ s' i ∧ s' i ≤ I.ub i)

theorem HomStep.inside {I : BCIn K n} {fr : Finset (Fin n)} {s s' : Fin n → K} (h : HomStep I fr s s')
    (hb : ∀ i, I.lb i ≤ I.ub i) (hs : StepIn I.lb I.ub s) : StepIn I.lb I.ub s' := by
  intro i
  rcases h.comp hb i with h | h
  · rw [h]; exact hs i
  · exact h

theorem zeroOn_apply (c : Finset (Fin n)) (v : Fin n → K) (i : Fin n) :
    zeroOn c v i = if i ∈ c then 0 else v i := rfl

theorem extFree_not {fr : Finset (Fin n)} {d : fr → K} {i : Fin n} (h : i ∉ fr) :
    extFree fr d i = 0 := by
  unfold extFree
  rw [dif_neg h]

theorem moveToBounds_step (I : BCIn K n) (fr crit : Finset (Fin n)) (s d0 : Fin n → K)
    (hd0 : ∀ i, i ∉ fr → d0 i = 0) (hn : nearAll I fr (zeroOn crit (s + d0)) = true)
    (ha : someAct I fr (zeroOn crit (s + d0)) = true) :
    HomStep I fr s (moveToBounds I fr s (zeroOn crit d0) (zeroOn crit (s + d0))) := by
  have mU : ∀ {i sd}, i ∈ actU I fr sd ↔ i ∈ fr ∧ |I.ub i - sd i| ≤ epsBnd := mem_freeList
  have mL : ∀ {i sd}, i ∈ actL I fr sd ↔ i ∈ fr ∧ |sd i - I.lb i| ≤ epsBnd := mem_freeList
  have e0 := epsBnd_pos (K := K)
  unfold nearAll at hn
  rw [Bool.and_eq_true] at hn
  obtain ⟨hu, hl⟩ := hn
  unfold someAct at ha
  rw [Bool.not_eq_true'] at ha
  refine ⟨fun i hi => ?_, ?_, fun hb i => ?_⟩
  · unfold moveToBounds
    rw [if_neg (fun h => hi (mL.1 h).1), if_neg (fun h => hi (mU.1 h).1)]
    simp only [zeroOn_apply, hd0 i hi, ite_self, add_zero]
  · by_cases hL : ∃ i, i ∈ actL I fr (zeroOn crit (s + d0))
    · obtain ⟨i, hi⟩ := hL
      refine ⟨i, (mL.1 hi).1, Or.inr ?_⟩
      unfold moveToBounds
      rw [if_pos hi]
    · rw [Bool.and_eq_false_iff] at ha
      rcases ha with ha | ha
      · rw [List.isEmpty_eq_false_iff] at ha
        obtain ⟨i, hi⟩ := List.exists_mem_of_ne_nil _ ha
        refine ⟨i, (mU.1 hi).1, Or.inl ?_⟩
        unfold moveToBounds
        rw [if_neg (fun h => hL ⟨i, h⟩), if_pos hi]
      · rw [List.isEmpty_eq_false_iff] at ha
        exact absurd (List.exists_mem_of_ne_nil _ ha) hL
  · unfold moveToBounds
    by_cases h1 : i ∈ actL I fr (zeroOn crit (s + d0))
    · rw [if_pos h1]; exact Or.inr ⟨le_refl _, hb i⟩
    rw [if_neg h1]
    by_cases h2 : i ∈ actU I fr (zeroOn crit (s + d0))
    · rw [if_pos h2]; exact Or.inr ⟨hb i, le_refl _⟩
    rw [if_neg h2, zeroOn_apply]
    by_cases h3 : i ∈ crit
    · rw [if_pos h3, add_zero]; exact Or.inl rfl
    rw [if_neg h3]
    by_cases hi : i ∈ fr
    · have u1 := freeList_isEmpty hu hi
      have l1 := freeList_isEmpty hl hi
      have u2 : ¬ |I.ub i - zeroOn crit (s + d0) i| ≤ epsBnd := fun h => h2 (mU.2 ⟨hi, h⟩)
      have l2 : ¬ |zeroOn crit (s + d0) i - I.lb i| ≤ epsBnd := fun h => h1 (mL.2 ⟨hi, h⟩)
      rw [zeroOn_apply, if_neg h3, Pi.add_apply] at u1 l1 u2 l2
      rw [abs_le] at u2 l2
      right
      constructor
      · by_contra hc
        exact l2 ⟨not_lt.1 l1, by linarith⟩
      · by_contra hc
        exact u2 ⟨not_lt.1 u1, by linarith⟩
    · rw [hd0 i hi, add_zero]; exact Or.inl rfl

theorem nearAll_of_inside {I : BCIn K n} {fr : Finset (Fin n)} {sd : Fin n → K}
    (h : insideAll I fr sd = true) : nearAll I fr sd = true := by
  unfold insideAll at h
  unfold nearAll
  rw [Bool.and_eq_true] at h ⊢
  have e0 := epsBnd_pos (K := K)
  constructor
  · rw [List.isEmpty_iff, List.eq_nil_iff_forall_not_mem]
    intro i hi
    obtain ⟨a, b⟩ := mem_freeList.1 hi
    have := freeList_isEmpty h.1 a
    simp only [neg_zero, not_lt] at this
    linarith
  · rw [List.isEmpty_iff, List.eq_nil_iff_forall_not_mem]
    intro i hi
    obtain ⟨a, b⟩ := mem_freeList.1 hi
    have := freeList_isEmpty h.2 a
    simp only [neg_zero, not_lt] at this
    linarith

/-- Conditions under which the loop on `lambda` is well defined. -/
structure HomOk (S : HomState K n) : Prop where
  cond : S.act = true → S.outs = true
  init : S.initU ≠ [] ∨ S.initL ≠ []

theorem homRound_spec (k : BCKer K n) (I : BCIn K n) {fr : Finset (Fin n)} (m : MSKer K fr)
    (crit : Finset (Fin n)) (s d0 : Fin n → K)
    (hd0 : ∀ i, i ∉ fr → d0 i = 0) (R : Matrix fr fr K) (S : HomState K n) (hS : HomOk S) :
    match homRound k I m s (zeroOn crit d0) (zeroOn crit (s + d0)) R S with
    | .inl o => ∃ s', o = .found s' S.lam S.nfact ∧ HomStep I fr s s'
    | .inr T => HomOk T ∧ T.nfact = S.nfact := by
  unfold homRound
  generalize hi : insideAll I fr (zeroOn crit (s + d0)) = inside
  cases inside with
  | true =>
    simp only [if_true]
    obtain ⟨b, hb⟩ := pickB_some (I := I) (better := fun a b => decide (a < b)) (s := s)
      (d := zeroOn crit d0) (sd := zeroOn crit (s + d0)) hS.init
    rw [hb]
    simp only
    by_cases hc : nearAll I fr (zeroOn crit (s + d0)) = true ∧
        someAct I fr (zeroOn crit (s + d0)) = true
    · rw [if_pos hc]
      exact ⟨_, rfl, moveToBounds_step I fr crit s d0 hd0 hc.1 hc.2⟩
    · rw [if_neg hc]
      have hn := nearAll_of_inside hi
      have ha : someAct I fr (zeroOn crit (s + d0)) = false := by
        cases h : someAct I fr (zeroOn crit (s + d0)) with
        | false => rfl
        | true => exact absurd ⟨hn, h⟩ hc
      refine ⟨⟨?_, hS.init⟩, rfl⟩
      simp [homUpdate, hn, ha]
  | false =>
    simp only [Bool.false_eq_true, if_false]
    have hne : outU I fr (zeroOn crit (s + d0)) 0 ≠ [] ∨ outL I fr (zeroOn crit (s + d0)) 0 ≠ [] := by
      unfold insideAll at hi
      rw [Bool.and_eq_false_iff, List.isEmpty_eq_false_iff, List.isEmpty_eq_false_iff] at hi
      exact hi
    obtain ⟨b, hb⟩ := pickB_some (I := I) (better := fun a b => decide (a > b)) (s := s)
      (d := zeroOn crit d0) (sd := zeroOn crit (s + d0)) hne
    rw [hb]
    simp only
    by_cases hc : nearAll I fr (zeroOn crit (s + d0)) = true ∧
        someAct I fr (zeroOn crit (s + d0)) = true
    · rw [if_pos hc]
      exact ⟨_, rfl, moveToBounds_step I fr crit s d0 hd0 hc.1 hc.2⟩
    · rw [if_neg hc]
      refine ⟨⟨fun _ => rfl, ?_⟩, rfl⟩
      simp only [homUpdate]
      rcases hS.init with h | h
      · left; simp [h]
      · right; simp [h]

theorem homLoop_spec (k : BCKer K n) (I : BCIn K n) {fr : Finset (Fin n)} (m : MSKer K fr) (g s : Fin n → K) :
    ∀ (r : ℕ) (S : HomState K n), HomOk S →
      match homLoop k I m g s r S with
      | .undef => False
      | .found s' _ nf => HomStep I fr s s' ∧ nf ≤ S.nfact + r
      | .error4 _ nf => nf ≤ S.nfact + r
      | .limit _ nf => nf ≤ S.nfact + r := by
  intro r
  induction r with
  | zero => intro S _; exact le_rfl
  | succ r ih =>
    intro S hS
    have lift : ∀ (T : HomState K n), T.nfact = S.nfact + 1 → HomOk T →
        match homLoop k I m g s r T with
        | .undef => False
        | .found s' _ nf => HomStep I fr s s' ∧ nf ≤ S.nfact + (r + 1)
        | .error4 _ nf => nf ≤ S.nfact + (r + 1)
        | .limit _ nf => nf ≤ S.nfact + (r + 1) := by
      intro T hT a
      have := ih T a
      have e : T.nfact + r = S.nfact + (r + 1) := by omega
      rw [e] at this
      exact this
    rw [homLoop]
    rw [if_neg (fun h => by rw [hS.cond h.1] at h; exact absurd h.2 (by simp))]
    cases hc : m.chol (I.H.submatrix Subtype.val Subtype.val +
        S.lam • (1 : Matrix fr fr K)) with
    | nan => simp only; omega
    | fail => exact lift _ rfl ⟨hS.cond, hS.init⟩
    | ok R =>
      cases hh : S.hard with
      | true => exact lift _ rfl ⟨hS.cond, hS.init⟩
      | false =>
        simp only
        generalize hd : extFree fr (m.solve (-R) (m.solve Rᵀ fun i => g i.1)) = d
        have hz : ∀ i, i ∉ fr → d i = 0 := by
          intro i hi; rw [← hd]; exact extFree_not hi
        have h := homRound_spec k I m (critBoth I fr (s + d)) s d hz R
          { S with nfact := S.nfact + 1 } ⟨hS.cond, hS.init⟩
        rw [hh] at h
        revert h
        generalize homRound k I m s _ _ R _ = X
        intro h
        cases X with
        | inl o =>
          obtain ⟨s', rfl, h⟩ := h
          exact ⟨h, by simp only; omega⟩
        | inr T => exact lift T h.2 h.1

/-- Where a step of the loop on `lambda` comes from: the solution for the returned `lambda`, with zeros in the critical
components, within `eps_bound` of the bounds and moved to the bounds that are as close. -/
def HomAt (I : BCIn K n) {fr : Finset (Fin n)} (m : MSKer K fr) (g s : Fin n → K) (lam : K) (s' : Fin n → K) : Prop :=
  ∃ (R : Matrix fr fr K) (d : Fin n → K),
    m.chol (I.H.submatrix Subtype.val Subtype.val + lam • (1 : Matrix fr fr K)) = .ok R ∧
    d = extFree fr (m.solve (-R) (m.solve Rᵀ fun i => g i.1)) ∧
    nearAll I fr (zeroOn (critBoth I fr (s + d)) (s + d)) = true ∧
    s' = moveToBounds I fr s (zeroOn (critBoth I fr (s + d)) d) (zeroOn (critBoth I fr (s + d)) (s + d))

/-- `lambda` and its bounds are not negative. -/
structure HomNN (S : HomState K n) : Prop where
  low : 0 ≤ S.lower
  upp : 0 ≤ S.upper
  lam : 0 ≤ S.lam

theorem homUpdate_nn {k : BCKer K n} {fr : Finset (Fin n)} {m : MSKer K fr} {R : Matrix fr fr K} {d : Fin n → K}
    {b : Pick K n} {inside : Bool} {S : HomState K n} (h : HomNN S) : HomNN (homUpdate k m R d b inside S) := by
  obtain ⟨t0, t1⟩ := theta_bounds (K := K)
  obtain ⟨h1, h2, h3⟩ := h
  unfold homUpdate
  dsimp only
  generalize decide (SignType.sign (d b.i) = b.sgn) = nw
  generalize hu : (if inside = true then S.lam else S.upper) = u
  generalize hl : (if inside = true then S.lower else S.lam) = l
  have u0 : 0 ≤ u := by rw [← hu]; split_ifs <;> assumption
  have l0 : 0 ≤ l := by rw [← hl]; split_ifs <;> assumption
  generalize (if nw = true then _ else (l + u) / 2) = new
  generalize hu' : (if nw = true ∧ S.back = false ∧ u ≤ new then 2 * new else u) = u'
  have u0' : 0 ≤ u' := by
    rw [← hu']
    split_ifs with hc
    · linarith [hc.2.2]
    · exact u0
  have hr : 0 ≤ l + thetaMS * (u' - l) := by
    have a := mul_nonneg t0 u0'
    have b := mul_nonneg (sub_nonneg.2 t1) l0
    linarith
  refine ⟨l0, u0', ?_⟩
  dsimp only
  split_ifs with hc
  · linarith [hc.1]
  · exact le_max_of_le_right hr

theorem homLoop_at (k : BCKer K n) (I : BCIn K n) {fr : Finset (Fin n)} (m : MSKer K fr) (g s : Fin n → K) :
    ∀ (r : ℕ) (S : HomState K n) (s' : Fin n → K) (lam : K) (nf : ℕ),
      homLoop k I m g s r S = .found s' lam nf → HomAt I m g s lam s' ∧ (HomNN S → 0 ≤ lam) := by
  intro r
  induction r with
  | zero => intro S s' lam nf h; cases h
  | succ r ih =>
    intro S s' lam nf h
    rw [homLoop] at h
    split_ifs at h
    have hfail : homLoop k I m g s r { S with
          nfact := S.nfact + 1
          hard := false
          lower := S.lam
          lam := (1 - 1 / 2) * S.lam + 1 / 2 * S.upper } = .found s' lam nf →
        HomAt I m g s lam s' ∧ (HomNN S → 0 ≤ lam) := by
      intro h
      obtain ⟨a, b⟩ := ih _ s' lam nf h
      refine ⟨a, fun hS => b ⟨hS.lam, hS.upp, ?_⟩⟩
      have := hS.lam
      have := hS.upp
      dsimp only
      linarith
    cases hc : m.chol (I.H.submatrix Subtype.val Subtype.val + S.lam • (1 : Matrix fr fr K)) with
    | nan => rw [hc] at h; cases h
    | fail => rw [hc] at h; exact hfail h
    | ok R =>
      rw [hc] at h
      cases hh : S.hard with
      | true => simp only [hh] at h; exact hfail h
      | false =>
        simp only [hh] at h
        generalize hd : extFree fr (m.solve (-R) (m.solve Rᵀ fun i => g i.1)) = d at h
        unfold homRound at h
        dsimp only at h
        split at h
        · next o ho =>
          split at ho
          · cases ho; cases h
          · split_ifs at ho with hcond
            all_goals (simp only [Sum.inl.injEq] at ho; rw [← ho] at h; cases h)
            all_goals exact ⟨⟨R, d, hc, hd.symm, hcond.1, rfl⟩, fun hS => hS.lam⟩
        · next T ho =>
          split at ho
          · cases ho
          · obtain ⟨a, b⟩ := ih T s' lam nf h
            refine ⟨a, fun hS => b ?_⟩
            split_ifs at ho with hcond
            all_goals (simp only [Sum.inr.injEq] at ho; rw [← ho]; exact homUpdate_nn ⟨hS.low, hS.upp, hS.lam⟩)

/-- At most 300 factorisations and one eigenvalue decomposition, for all kernels. -/
theorem msLoop_nfact {ι : Type} [Fintype ι] [DecidableEq ι] (k : MSKer K ι) (g : ι → K)
    (H : Matrix ι ι K) (Δ εD : K) : ∀ (r : ℕ) (S : MSState K ι),
    match msLoop k g H Δ εD r S with
    | .inl o => o.nfact ≤ S.nfact + r ∧ o.neigd = 0
    | .inr T => T.nfact ≤ S.nfact + r := by
  intro r
  induction r with
  | zero => intro S; exact le_rfl
  | succ r ih =>
    intro S
    have lift : ∀ T : MSState K ι, T.nfact = S.nfact + 1 →
        match msLoop k g H Δ εD r T with
        | .inl o => o.nfact ≤ S.nfact + (r + 1) ∧ o.neigd = 0
        | .inr T => T.nfact ≤ S.nfact + (r + 1) := by
      intro T hT
      have := ih T
      have e : T.nfact + r = S.nfact + (r + 1) := by omega
      rw [e] at this
      exact this
    rw [msLoop]
    cases hc : k.chol (H + S.lam • (1 : Matrix ι ι K)) with
    | nan => simp only; exact ⟨by change S.nfact ≤ _; omega, rfl⟩
    | fail =>
      simp only
      by_cases h : (msBisect S).upper - (msBisect S).lower < thetaMS * max 1 (msBisect S).upper
      · rw [if_pos h]; change S.nfact + 1 ≤ _; omega
      · rw [if_neg h]; exact lift _ rfl
    | ok R =>
      simp only
      split_ifs
      · exact ⟨by change S.nfact + 1 ≤ _; omega, rfl⟩
      · change S.nfact + 1 ≤ _; omega
      · exact lift _ rfl

theorem trms_nfact {ι : Type} [Fintype ι] [DecidableEq ι] (k : MSKer K ι) (g : ι → K)
    (H : Matrix ι ι K) (Δ εD : K) :
    (trms k g H Δ εD).nfact ≤ 300 ∧ (trms k g H Δ εD).neigd ≤ 1 := by
  unfold trms
  split_ifs
  · exact ⟨Nat.zero_le _, Nat.zero_le _⟩
  · exact ⟨Nat.zero_le _, Nat.zero_le _⟩
  · have h := msLoop_nfact k g H Δ εD 300 (msStart k g H Δ)
    have h0 : (msStart k g H Δ).nfact = 0 := rfl
    rw [h0] at h
    cases hr : msLoop k g H Δ εD 300 (msStart k g H Δ) with
    | inl o => rw [hr] at h; exact ⟨by simpa using h.1, by simp [h.2]⟩
    | inr T => rw [hr] at h; exact ⟨by simpa [msHard] using h, le_rfl⟩

/-- A bound of the variable is (almost) zero: the iterate is at this bound. -/
def Spec.OwnBound (I : BCIn K n) (i : Fin n) : Prop := I.ub i ≤ 1 / 10 ^ 10 ∨ - (1 / 10 ^ 10) ≤ I.lb i

/-- The call of the unconstrained solver for the free variables `fr`. -/
def msCall (k : BCKer K n) (I : BCIn K n) (S : BCState K n) (fr : Finset (Fin n)) (ne : fr.Nonempty) : MSOut K fr :=
  trms (k.ms fr ne) (fun i => S.g i.1) (I.H.submatrix Subtype.val Subtype.val) S.Δ I.εD

theorem critBoth_own {I : BCIn K n} {fr : Finset (Fin n)} {s : Fin n → K} {i : Fin n} (h : i ∈ critBoth I fr s) :
    OwnBound I i := by
  unfold critBoth uCrit lCrit at h
  rw [Finset.mem_union, Finset.mem_filter, Finset.mem_filter] at h
  rcases h with h | h
  · exact Or.inl h.2.2
  · exact Or.inr h.2.2

/-- What the calls of the unconstrained solver guarantee. -/
structure BCStepOf (k : BCKer K n) (I : BCIn K n) (S : BCState K n) (r : ℕ) (after : Fin n → K)
    (hard : Bool) (T : BCState K n) : Prop where
  sub : T.fr ⊆ S.fr
  ne : T.fr.Nonempty
  s : T.s = S.s
  g : T.g = S.g
  Δ : T.Δ = S.Δ
  norms : T.norms = S.norms
  value : T.value = S.value
  nfact : T.nfact ≤ S.nfact + 300 * r
  eq : after = S.s + extFree T.fr (msCall k I S T.fr ne).s
  lam : T.lam = (msCall k I S T.fr ne).lam
  hardEq : hard = (msCall k I S T.fr ne).hard
  neigd : S.neigd + (msCall k I S T.fr ne).neigd ≤ T.neigd
  fixed : ∀ i ∈ S.fr, i ∉ T.fr → OwnBound I i
  ncrit : critBoth I T.fr after = ∅

theorem innerLoop_spec (k : BCKer K n) (I : BCIn K n) : ∀ (r : ℕ) (S : BCState K n),
    S.fr.Nonempty → S.fr.card ≤ r →
    match innerLoop k I r S with
    | .more => False
    | .ret o => o.s = S.s ∧ o.norms = k.nrm S.s ∧ o.value = modelVal I.g0 I.H S.s ∧
        o.nfact ≤ S.nfact + 300 * r ∧ (∃ m, o.msg = .ms m) ∧ S.neigd ≤ o.neigd ∧ ∀ i ∈ S.fr, OwnBound I i
    | .step after hard T => BCStepOf k I S r after hard T := by
  intro r
  induction r with
  | zero =>
    intro S h h0
    exact absurd (Finset.card_pos.2 h) (by omega)
  | succ r ih =>
    intro S h hc
    rw [innerLoop, dif_pos h]
    dsimp only
    have hn := (trms_nfact (k.ms S.fr h) (fun i => S.g i.1)
      (I.H.submatrix Subtype.val Subtype.val) S.Δ I.εD).1
    generalize ho : trms (k.ms S.fr h) (fun i => S.g i.1)
      (I.H.submatrix Subtype.val Subtype.val) S.Δ I.εD = o at *
    by_cases h1 : (critBoth I S.fr (S.s + extFree S.fr o.s)).Nonempty
    · rw [if_pos h1]
      by_cases h2 : S.fr \ critBoth I S.fr (S.s + extFree S.fr o.s) = ∅
      · rw [if_pos h2]
        refine ⟨rfl, rfl, rfl, ?_, ⟨_, rfl⟩, Nat.le_add_right _ _, fun i hi => ?_⟩
        · change S.nfact + o.nfact ≤ _
          omega
        · exact critBoth_own (Finset.sdiff_eq_empty_iff_subset.1 h2 hi)
      · rw [if_neg h2]
        have hlt : (S.fr \ critBoth I S.fr (S.s + extFree S.fr o.s)).card < S.fr.card := by
          apply Finset.card_lt_card
          refine Finset.sdiff_ssubset ?_ h1
          unfold critBoth uCrit lCrit
          exact Finset.union_subset (Finset.filter_subset _ _) (Finset.filter_subset _ _)
        have := ih { S with
            lam := o.lam, nfact := S.nfact + o.nfact, neigd := S.neigd + o.neigd, msg := .ms o.msg
            gplus := S.gplus + extFree S.fr o.gplus
            fr := S.fr \ critBoth I S.fr (S.s + extFree S.fr o.s) }
          (Finset.nonempty_iff_ne_empty.2 h2) (by simp only; omega)
        revert this
        generalize innerLoop k I r _ = X
        cases X with
        | more => exact id
        | ret p =>
          rintro ⟨a, b, c, d, e, f, f'⟩
          refine ⟨a, b, c, by simp only at d; omega, e, by simp only at f; omega, fun i hi => ?_⟩
          by_cases hi' : i ∈ critBoth I S.fr (S.s + extFree S.fr o.s)
          · exact critBoth_own hi'
          · exact f' i (Finset.mem_sdiff.2 ⟨hi, hi'⟩)
        | step after hard T =>
          rintro ⟨a1, a2, a3, a4, a5, a6, a7, a8, a9, b1, b2, b3, b4, a10⟩
          refine ⟨a1.trans Finset.sdiff_subset, a2, a3, a4, a5, a6, a7, by simp only at a8; omega,
            a9, b1, b2, ?_, fun i hi hT => ?_, a10⟩
          · refine le_trans ?_ b3
            exact Nat.add_le_add_right (Nat.le_add_right _ _) _
          by_cases hi' : i ∈ critBoth I S.fr (S.s + extFree S.fr o.s)
          · exact critBoth_own hi'
          · exact b4 i (Finset.mem_sdiff.2 ⟨hi, hi'⟩) hT
    · rw [if_neg h1]
      subst ho
      refine ⟨Finset.Subset.refl _, h, rfl, rfl, rfl, rfl, rfl, ?_, rfl, rfl, rfl, le_rfl,
        fun i hi hn => absurd hi hn, Finset.not_nonempty_iff_eq_empty.1 h1⟩
      change S.nfact + _ ≤ _
      omega

/-- A step found by the loop on `lambda` from the state `S` with the free variables `fr`; `e` eigenvalue decompositions
have been computed so far. -/
structure BCFound (k : BCKer K n) (I : BCIn K n) (S : BCState K n) (fr : Finset (Fin n)) (e : ℕ) (s' : Fin n → K) :
    Prop where
  sub : fr ⊆ S.fr
  fixed : ∀ i ∈ S.fr, i ∉ fr → OwnBound I i
  step : HomStep I fr S.s s'
  sol : ∃ ne lam, S.neigd + (msCall k I S fr ne).neigd ≤ e ∧ (0 ≤ (msCall k I S fr ne).lam → 0 ≤ lam) ∧
    HomAt I (k.ms fr ne) S.g S.s lam s'

/-- The possible ends of a pass. -/
inductive BCPassOut (k : BCKer K n) (I : BCIn K n) (S : BCState K n) (o : BCOut K n) : Prop
  | stay (s : o.s = S.s) (norms : o.norms = k.nrm S.s) (value : o.value = modelVal I.g0 I.H S.s)
      (msg : ∃ m, o.msg = .ms m) (neigd : S.neigd ≤ o.neigd) (fixed : ∀ i ∈ S.fr, OwnBound I i)
  | nan (s : o.s = S.s) (norms : o.norms = S.norms) (value : o.value = S.value) (msg : o.msg = .error4)
      (neigd : S.neigd ≤ o.neigd)
  | limit (s : o.s = 0) (norms : o.norms = 0) (msg : o.msg = .limit)
  | interior (fr : Finset (Fin n)) (sub : fr ⊆ S.fr) (ne : fr.Nonempty)
      (s : o.s = S.s + extFree fr (msCall k I S fr ne).s)
      (inside : insideAll I fr o.s = true)
      (norms : o.norms = k.nrm o.s) (value : o.value = modelVal I.g0 I.H o.s) (msg : o.msg = .interior)
      (lam : o.lam = (msCall k I S fr ne).lam)
      (neigd : S.neigd + (msCall k I S fr ne).neigd ≤ o.neigd) (fixed : ∀ i ∈ S.fr, i ∉ fr → OwnBound I i)
  | bound (fr : Finset (Fin n)) (found : BCFound k I S fr o.neigd o.s)
      (norms : o.norms = k.nrm o.s) (value : o.value = modelVal I.g0 I.H o.s)
      (msg : o.msg = if I.Δ0 - k.nrm o.s < - epsBnd then .error7 else .boundary)
      (why : I.Δ0 < k.nrm o.s ∨ critical (Finset.univ \ nearBnd I o.s) (I.g0 + I.H *ᵥ o.s))

/-- The state after a pass. -/
structure BCPassNext (k : BCKer K n) (I : BCIn K n) (S T : BCState K n) : Prop where
  found : ∃ fr, BCFound k I S fr T.neigd T.s
  norms : T.norms = k.nrm T.s
  value : T.value = modelVal I.g0 I.H T.s
  Δ : T.Δ = I.Δ0 - k.nrm T.s
  Δ0 : 0 ≤ T.Δ
  g : T.g = I.g0 + I.H *ᵥ T.s
  fr : T.fr = (Finset.univ \ nearBnd I T.s) \ gCrit I (Finset.univ \ nearBnd I T.s) (I.g0 + I.H *ᵥ T.s)
  msg : T.msg = .boundary

theorem BCPassNext.frSub {k : BCKer K n} {I : BCIn K n} {S T : BCState K n} (h : BCPassNext k I S T) :
    T.fr ⊆ Finset.univ \ nearBnd I T.s := by
  rw [h.fr]; exact Finset.sdiff_subset

theorem homotopy_at (k : BCKer K n) (I : BCIn K n) (S : BCState K n) (after : Fin n → K) (hard : Bool)
    (hne : S.fr.Nonempty) {s' : Fin n → K} {lam : K} {nf : ℕ} (h : homotopy k I S after hard = .found s' lam nf) :
    HomAt I (k.ms S.fr hne) S.g S.s lam s' ∧ (0 ≤ S.lam → 0 ≤ lam) := by
  unfold homotopy at h
  dsimp only at h
  rw [dif_pos hne] at h
  obtain ⟨a, b⟩ := homLoop_at k I (k.ms S.fr hne) S.g S.s 100 _ s' lam nf h
  exact ⟨a, fun hl => b ⟨hl, le_max_left _ _, hl⟩⟩

theorem homotopy_spec (k : BCKer K n) (I : BCIn K n) (S : BCState K n) (after : Fin n → K) (hard : Bool)
    (hne : S.fr.Nonempty) (hout : insideAll I S.fr after = false) :
    match homotopy k I S after hard with
      | .undef => False
      | .found s' _ nf => HomStep I S.fr S.s s' ∧ nf ≤ S.nfact + 100
      | .error4 _ nf => nf ≤ S.nfact + 100
      | .limit _ nf => nf ≤ S.nfact + 100 := by
  unfold homotopy
  dsimp only
  rw [dif_pos hne]
  refine homLoop_spec k I (k.ms S.fr hne) S.g S.s 100 _ ⟨fun _ => rfl, ?_⟩
  unfold insideAll at hout
  rw [Bool.and_eq_false_iff, List.isEmpty_eq_false_iff, List.isEmpty_eq_false_iff] at hout
  exact hout

theorem bcPass_spec (k : BCKer K n) (I : BCIn K n) (S : BCState K n) (hS : S.fr.Nonempty) :
    match bcPass k I S with
    | .bad => False
    | .ret o => BCPassOut k I S o ∧ o.nfact ≤ S.nfact + (300 * n + 100)
    | .next T => BCPassNext k I S T ∧ T.nfact ≤ S.nfact + (300 * n + 100) := by
  unfold bcPass
  have hi := innerLoop_spec k I n S hS (by simpa using Finset.card_le_univ S.fr)
  revert hi
  generalize innerLoop k I n S = X
  cases X with
  | more => exact id
  | ret o =>
    rintro ⟨a, b, c, d, e, f, f'⟩
    exact ⟨.stay a b c e f f', by omega⟩
  | step after hard T =>
    intro hT
    have hs := hT.s
    have hnf := hT.nfact
    by_cases hin : insideAll I T.fr after = false
    · simp only [hin, if_true]
      have hh := homotopy_spec k I T after hard hT.ne hin
      have ha := fun s' lam nf => homotopy_at k I T after hard hT.ne (s' := s') (lam := lam) (nf := nf)
      revert hh ha
      generalize homotopy k I T after hard = Y
      cases Y with
      | undef => exact fun h _ => h
      | error4 lam nf =>
        intro h _
        exact ⟨.nan hT.s hT.norms hT.value rfl (le_trans (Nat.le_add_right _ _) hT.neigd), by change nf ≤ _; simp only at h; omega⟩
      | limit lam nf =>
        intro h _
        exact ⟨.limit rfl rfl rfl, by change nf ≤ _; simp only at h; omega⟩
      | found s lam nf =>
        rintro ⟨h, h'⟩ ha
        obtain ⟨ha1, ha2⟩ := ha s lam nf rfl
        rw [hs] at h
        have hf : BCFound k I S T.fr T.neigd s :=
          ⟨hT.sub, hT.fixed, h, hT.ne, lam, hT.neigd, fun h0 => ha2 (by rw [hT.lam]; exact h0), by
            rw [hT.s, hT.g] at ha1; exact ha1⟩
        have hle : nf ≤ S.nfact + (300 * n + 100) := by omega
        simp only
        unfold afterHom
        dsimp only
        by_cases h1 : I.Δ0 - k.nrm s < - epsBnd
        · rw [if_pos h1]
          exact ⟨.bound T.fr hf rfl rfl (if_pos h1).symm
            (Or.inl (by have := epsBnd_pos (K := K); change I.Δ0 < k.nrm s; linarith)), hle⟩
        rw [if_neg h1]
        by_cases h2 : I.Δ0 - k.nrm s < 0
        · rw [if_pos h2]
          exact ⟨.bound T.fr hf rfl rfl (if_neg h1).symm (Or.inl (sub_neg.1 h2)), hle⟩
        rw [if_neg h2]
        split_ifs with h3
        · exact ⟨.bound T.fr hf rfl rfl (if_neg h1).symm (Or.inr h3.2), hle⟩
        · exact ⟨⟨⟨T.fr, hf⟩, rfl, rfl, rfl, not_lt.1 h2, rfl, rfl, rfl⟩, hle⟩
    · simp only [hin]
      refine ⟨.interior T.fr hT.sub hT.ne hT.eq (eq_true_of_ne_false hin) rfl rfl rfl hT.lam hT.neigd hT.fixed, ?_⟩
      change T.nfact ≤ _
      omega

theorem mem_nearBnd {I : BCIn K n} {s : Fin n → K} {i : Fin n} :
    i ∈ nearBnd I s ↔ I.ub i - s i ≤ epsBnd ∨ s i - I.lb i ≤ epsBnd := by
  simp [nearBnd]

/-- A step of the loop on `lambda` brings a free variable to a bound. -/
theorem HomStep.near {I : BCIn K n} {fr : Finset (Fin n)} {s s' : Fin n → K} (h : HomStep I fr s s') :
    ∃ i ∈ fr, i ∈ nearBnd I s' := by
  obtain ⟨i, hi, h⟩ := h.hit
  refine ⟨i, hi, mem_nearBnd.2 ?_⟩
  rcases h with h | h
  · left; rw [h, sub_self]; exact epsBnd_pos.le
  · right; rw [h, sub_self]; exact epsBnd_pos.le

theorem HomStep.card_lt {I : BCIn K n} {fr : Finset (Fin n)} {s s' : Fin n → K}
    (h : HomStep I fr s s') (hd : Disjoint fr (nearBnd I s)) :
    (nearBnd I s).card < (nearBnd I s').card := by
  obtain ⟨i, hi, hn⟩ := HomStep.near h
  apply Finset.card_lt_card
  refine Finset.ssubset_iff_of_subset (fun j hj => ?_) |>.2
    ⟨i, hn, fun hc => Finset.disjoint_left.1 hd hi hc⟩
  have hjf : j ∉ fr := fun hc => Finset.disjoint_left.1 hd hc hj
  rw [mem_nearBnd] at hj ⊢
  rw [h.fixed j hjf]
  exact hj

/-- Induction over the passes: a property `P` of the states is kept, and `Q` holds of the result. -/
theorem bcLoop_ind (k : BCKer K n) (I : BCIn K n) (P : BCState K n → Prop) (Q : BCOut K n → Prop)
    (hfin : ∀ S, S.fr = ∅ → P S → Q S.out)
    (hret : ∀ S o, P S → S.fr.Nonempty → BCPassOut k I S o → Q o)
    (hnext : ∀ S T, P S → S.fr.Nonempty → BCPassNext k I S T → P T) :
    ∀ (r : ℕ) (S : BCState K n), P S → Disjoint S.fr (nearBnd I S.s) →
      n ≤ r + (nearBnd I S.s).card →
      ∃ o, bcLoop k I r S = some o ∧ Q o ∧ o.nfact ≤ S.nfact + r * (300 * n + 100) := by
  intro r
  induction r with
  | zero =>
    intro S hP hd hc
    have hu : nearBnd I S.s = Finset.univ := by
      apply Finset.eq_univ_of_card
      rw [Fintype.card_fin]
      have := Finset.card_le_univ (nearBnd I S.s)
      rw [Fintype.card_fin] at this
      omega
    have he : S.fr = ∅ := by
      rw [hu] at hd
      exact Finset.eq_empty_of_forall_notMem fun i hi =>
        Finset.disjoint_left.1 hd hi (Finset.mem_univ i)
    rw [bcLoop, if_pos he]
    exact ⟨_, rfl, hfin S he hP, by change S.nfact ≤ _; omega⟩
  | succ r ih =>
    intro S hP hd hc
    rw [bcLoop]
    by_cases he : S.fr = ∅
    · rw [if_pos he]
      exact ⟨_, rfl, hfin S he hP, Nat.le_add_right _ _⟩
    rw [if_neg he]
    have hne := Finset.nonempty_iff_ne_empty.2 he
    have h := bcPass_spec k I S hne
    revert h
    generalize bcPass k I S = X
    cases X with
    | bad => exact False.elim
    | ret o =>
      rintro ⟨h, h'⟩
      exact ⟨o, rfl, hret S o hP hne h, by rw [Nat.add_mul]; omega⟩
    | next T =>
      rintro ⟨h, h'⟩
      obtain ⟨fr, hf⟩ := h.found
      have hlt := HomStep.card_lt hf.step (hd.mono_left hf.sub)
      obtain ⟨o, a, b, c⟩ := ih T (hnext S T hP hne h)
        (Finset.disjoint_of_subset_left h.frSub Finset.sdiff_disjoint) (by omega)
      exact ⟨o, a, b, by rw [Nat.add_mul]; omega⟩

/-- The same for the whole solver. -/
theorem trmsBc_ind (k : BCKer K n) (I : BCIn K n) (P : BCState K n → Prop) (Q : BCOut K n → Prop)
    (h0 : P (bcStart I)) (hfin : ∀ S, S.fr = ∅ → P S → Q S.out)
    (hret : ∀ S o, P S → S.fr.Nonempty → BCPassOut k I S o → Q o)
    (hnext : ∀ S T, P S → S.fr.Nonempty → BCPassNext k I S T → P T) :
    ∃ o, trmsBc k I = some o ∧ Q o ∧ o.nfact ≤ n * (300 * n + 100) := by
  unfold trmsBc
  by_cases he : (bcStart I).fr = ∅
  · refine ⟨(bcStart I).out, ?_, hfin _ he h0, Nat.zero_le _⟩
    cases n with
    | zero => rw [bcLoop, if_pos he]
    | succ n => rw [bcLoop, if_pos he]
  have hne := Finset.nonempty_iff_ne_empty.2 he
  have hn : 0 < n := by
    have := Finset.card_pos.2 hne
    have h' := Finset.card_le_univ (bcStart I).fr
    rw [Fintype.card_fin] at h'
    omega
  obtain ⟨m, rfl⟩ : ∃ m, n = m + 1 := ⟨n - 1, by omega⟩
  rw [bcLoop, if_neg he]
  have h := bcPass_spec k I (bcStart I) hne
  revert h
  generalize bcPass k I (bcStart I) = X
  have hz : (bcStart I).nfact = 0 := rfl
  rw [hz]
  cases X with
  | bad => exact False.elim
  | ret o =>
    rintro ⟨h, h'⟩
    exact ⟨o, rfl, hret _ o h0 hne h, by rw [Nat.add_mul, one_mul]; exact le_add_left (by simpa using h')⟩
  | next T =>
    rintro ⟨h, h'⟩
    obtain ⟨fr, hf⟩ := h.found
    obtain ⟨i, _, hi⟩ := HomStep.near hf.step
    have hp := Finset.card_pos.2 ⟨i, hi⟩
    obtain ⟨o, a, b, c⟩ := bcLoop_ind k I P Q hfin hret hnext m T (hnext _ T h0 hne h)
      (Finset.disjoint_of_subset_left h.frSub Finset.sdiff_disjoint) (by omega)
    exact ⟨o, a, b, (c.trans (Nat.add_le_add_right h' _)).trans (le_of_eq (by ring))⟩

theorem insideAll_iff {I : BCIn K n} {fr : Finset (Fin n)} {s : Fin n → K}
    (h : insideAll I fr s = true) {i : Fin n} (hi : i ∈ fr) : I.lb i ≤ s i ∧ s i ≤ I.ub i := by
  unfold insideAll at h
  rw [Bool.and_eq_true] at h
  have h1 := freeList_isEmpty h.1 hi
  have h2 := freeList_isEmpty h.2 hi
  rw [neg_zero, not_lt] at h1 h2
  exact ⟨by linarith, by linarith⟩

/-- C43.  For all kernels and all arguments whose bounds allow the zero step: the solver stops within
`n` passes of the main loop and `n` calls of the unconstrained solver per pass (fewer than
`n*(300*n + 100)` factorisations), and the returned step satisfies the bounds. -/
theorem C43_step_in_bounds (k : BCKer K n) (I : BCIn K n) (hb : StepIn I.lb I.ub 0) :
    ∃ o, trmsBc k I = some o ∧ StepIn I.lb I.ub o.s ∧ o.nfact ≤ n * (300 * n + 100) := by
  have hlu : ∀ i, I.lb i ≤ I.ub i := fun i => (hb i).1.trans (hb i).2
  refine trmsBc_ind k I (fun S => StepIn I.lb I.ub S.s) (fun o => StepIn I.lb I.ub o.s) hb
    (fun S _ h => h) ?_ ?_
  · intro S o hS _ h
    cases h with
    | stay s _ _ _ _ _ => rw [s]; exact hS
    | nan s _ _ _ _ => rw [s]; exact hS
    | limit s _ _ => rw [s]; exact hb
    | interior fr sub ne s inside _ _ _ _ _ _ =>
      intro i
      by_cases hi : i ∈ fr
      · exact insideAll_iff inside hi
      · rw [s, Pi.add_apply, extFree_not hi, add_zero]
        exact hS i
    | bound fr found _ _ _ _ => exact found.step.inside hlu hS
  · intro S T hS _ h
    obtain ⟨fr, st⟩ := h.found
    exact st.step.inside hlu hS

/-- C43 when the zero step may violate the bounds (`lb ≤ ub` only): every component of the returned step is
zero or satisfies its bounds. -/
theorem C43_components (k : BCKer K n) (I : BCIn K n) (hb : ∀ i, I.lb i ≤ I.ub i) :
    ∃ o, trmsBc k I = some o ∧ (∀ i, o.s i = 0 ∨ (I.lb i ≤ o.s i ∧ o.s i ≤ I.ub i)) ∧
      o.nfact ≤ n * (300 * n + 100) := by
  refine trmsBc_ind k I (fun S => ∀ i, S.s i = 0 ∨ (I.lb i ≤ S.s i ∧ S.s i ≤ I.ub i))
    (fun o => ∀ i, o.s i = 0 ∨ (I.lb i ≤ o.s i ∧ o.s i ≤ I.ub i)) (fun _ => Or.inl rfl)
    (fun S _ h => h) ?_ ?_
  · intro S o hS _ h
    cases h with
    | stay s _ _ _ _ _ => rw [s]; exact hS
    | nan s _ _ _ _ => rw [s]; exact hS
    | limit s _ _ => rw [s]; exact fun _ => Or.inl rfl
    | interior fr sub ne s inside _ _ _ _ _ _ =>
      intro i
      by_cases hi : i ∈ fr
      · exact Or.inr (insideAll_iff inside hi)
      · rw [s, Pi.add_apply, extFree_not hi, add_zero]
        exact hS i
    | bound fr found _ _ _ _ =>
      intro i
      rcases found.step.comp hb i with h | h
      · rw [h]; exact hS i
      · exact Or.inr h
  · intro S T hS _ h i
    obtain ⟨fr, st⟩ := h.found
    rcases st.step.comp hb i with h | h
    · rw [h]; exact hS i
    · exact Or.inr h

/-- C43 without an assumption on the bounds: the solver stops. -/
theorem C43_stops (k : BCKer K n) (I : BCIn K n) :
    ∃ o, trmsBc k I = some o ∧ o.nfact ≤ n * (300 * n + 100) := by
  obtain ⟨o, h, _, h'⟩ := trmsBc_ind k I (fun _ => True) (fun _ => True) trivial
    (fun _ _ _ => trivial) (fun _ _ _ _ _ => trivial) (fun _ _ _ _ _ => trivial)
  exact ⟨o, h, h'⟩

/-- C66, the part that holds.  The reported norm is that of the step, at every exit; the reported model
value is that of the step at every exit but the one with the message "limit in bc-MS exceeded". -/
theorem C66_reported_partial (k : BCKer K n) (I : BCIn K n) (h0 : k.sq 0 = 0) :
    ∃ o, trmsBc k I = some o ∧ o.norms = k.sq (o.s ⬝ᵥ o.s) ∧
      (o.msg ≠ .limit → o.value = quadVal I.g0 I.H o.s) := by
  have hz : k.nrm (0 : Fin n → K) = 0 := by unfold BCKer.nrm; rw [dotProduct_zero, h0]
  obtain ⟨o, h1, h2, _⟩ := trmsBc_ind k I
    (fun S => S.norms = k.nrm S.s ∧ S.value = modelVal I.g0 I.H S.s)
    (fun o => o.norms = k.nrm o.s ∧ (o.msg ≠ .limit → o.value = modelVal I.g0 I.H o.s))
    ⟨hz.symm, by change (0 : K) = modelVal I.g0 I.H 0; simp [modelVal]⟩
    (fun S _ h => ⟨h.1, fun _ => h.2⟩)
    (by
      intro S o hS _ h
      cases h with
      | stay s a b _ _ _ => exact ⟨by rw [s]; exact a, fun _ => by rw [s]; exact b⟩
      | nan s a b _ _ => exact ⟨by rw [s, a]; exact hS.1, fun _ => by rw [s, b]; exact hS.2⟩
      | limit s a b => exact ⟨by rw [s, a]; exact hz.symm, fun h => absurd b h⟩
      | interior fr sub ne s inside a b _ _ _ _ => exact ⟨a, fun _ => b⟩
      | bound fr found a b _ _ => exact ⟨a, fun _ => b⟩)
    (fun S T _ _ h => ⟨h.norms, h.value⟩)
  exact ⟨o, h1, h2⟩

/-- Kernels for which the solver of the reduced problems keeps to its radius. -/
structure Spec.GoodBC (k : BCKer K n) : Prop where
  ms : ∀ fr h, GoodKer (k.ms fr h)
  sq : ∀ a, 0 ≤ a → 0 ≤ k.sq a ∧ k.sq a * k.sq a = a

theorem dot_cs {ι : Type} [Fintype ι] (u v : ι → K) : (u ⬝ᵥ v) ^ 2 ≤ (u ⬝ᵥ u) * (v ⬝ᵥ v) := by
  have := Finset.sum_mul_sq_le_sq_mul_sq Finset.univ u v
  simpa only [dotProduct, pow_two] using this

/-- The triangle inequality. -/
theorem GoodBC.add_le {k : BCKer K n} (hk : GoodBC k) (u v : Fin n → K) :
    k.nrm (u + v) ≤ k.nrm u + k.nrm v := by
  obtain ⟨a0, a1⟩ := hk.sq _ (ms_dot_self_nonneg u)
  obtain ⟨b0, b1⟩ := hk.sq _ (ms_dot_self_nonneg v)
  obtain ⟨c0, c1⟩ := hk.sq _ (ms_dot_self_nonneg (u + v))
  unfold BCKer.nrm
  refine abs_le_of_sq_le_sq' ?_ (by linarith) |>.2
  have e : (u + v) ⬝ᵥ (u + v) = u ⬝ᵥ u + 2 * (u ⬝ᵥ v) + v ⬝ᵥ v := by
    simp only [add_dotProduct, dotProduct_add]
    rw [dotProduct_comm v u]; ring
  have cs := dot_cs u v
  rw [← a1, ← b1] at cs
  have : u ⬝ᵥ v ≤ k.sq (u ⬝ᵥ u) * k.sq (v ⬝ᵥ v) := by
    refine abs_le_of_sq_le_sq' ?_ (mul_nonneg a0 b0) |>.2
    calc _ ≤ _ := cs
      _ = _ := by ring
  rw [pow_two, c1, e]
  nlinarith

theorem GoodBC.ext {k : BCKer K n} (hk : GoodBC k) {fr : Finset (Fin n)} (h : fr.Nonempty)
    (d : fr → K) : k.nrm (extFree fr d) = (k.ms fr h).nrm d := by
  have e : extFree fr d ⬝ᵥ extFree fr d = d ⬝ᵥ d := by
    unfold dotProduct extFree
    have h1 : ∀ i ∈ (Finset.univ : Finset (Fin n)), i ∉ fr →
        (if h : i ∈ fr then d ⟨i, h⟩ else 0) * (if h : i ∈ fr then d ⟨i, h⟩ else 0) = 0 := by
      intro i _ hi
      rw [dif_neg hi, mul_zero]
    rw [← Finset.sum_subset (Finset.subset_univ fr) (fun i _ hi => h1 i (Finset.mem_univ i) hi),
      ← Finset.sum_coe_sort fr]
    refine Finset.sum_congr rfl fun i _ => ?_
    rw [dif_pos i.2]
  obtain ⟨a, b⟩ := hk.sq _ (ms_dot_self_nonneg (extFree fr d))
  refine (GoodKer.nrm_eq (hk.ms fr h) d _ a ?_).symm
  rw [b, e]

/-- C66, the length of the step, for kernels that meet their specification and a symmetric matrix: it
exceeds the radius by no more than `max(eps_D*Delta, 1e-5)`, unless the message is "error7". -/
theorem C66_radius_partial {k : BCKer K n} (hk : GoodBC k) (I : BCIn K n)
    (hH : ∀ i j, I.H i j = I.H j i) (hΔ : 0 ≤ I.Δ0) (hε : 0 ≤ I.εD) :
    ∃ o, trmsBc k I = some o ∧
      (o.msg ≠ .error7 → k.sq (o.s ⬝ᵥ o.s) ≤ I.Δ0 + max (I.εD * I.Δ0) (1 / 10 ^ 5)) := by
  have hz : k.nrm (0 : Fin n → K) = 0 := by
    obtain ⟨a, b⟩ := hk.sq 0 le_rfl
    unfold BCKer.nrm
    rw [dotProduct_zero]
    exact mul_self_eq_zero.1 b
  have hm0 : 0 ≤ max (I.εD * I.Δ0) (1 / 10 ^ 5) := le_max_of_le_left (mul_nonneg hε hΔ)
  have hm1 : I.εD * I.Δ0 ≤ max (I.εD * I.Δ0) (1 / 10 ^ 5) := le_max_left _ _
  have hm2 : epsBnd ≤ max (I.εD * I.Δ0) (1 / 10 ^ 5) := le_max_right _ _
  obtain ⟨o, h1, h2, _⟩ := trmsBc_ind k I
    (fun S => S.Δ = I.Δ0 - k.nrm S.s ∧ 0 ≤ S.Δ)
    (fun o => o.msg ≠ .error7 → k.nrm o.s ≤ I.Δ0 + max (I.εD * I.Δ0) (1 / 10 ^ 5))
    ⟨by change I.Δ0 = I.Δ0 - k.nrm 0; rw [hz, sub_zero], hΔ⟩
    (fun S _ h _ => by change k.nrm S.s ≤ _; linarith [h.1, h.2])
    (by
      intro S o hS _ h he
      obtain ⟨hS1, hS2⟩ := hS
      cases h with
      | stay s a b _ _ _ => rw [s]; linarith
      | nan s a b _ _ => rw [s]; linarith
      | limit s a b => rw [s, hz]; linarith
      | interior fr sub ne s inside a b _ _ _ _ =>
        rw [s]
        refine (GoodBC.add_le hk _ _).trans ?_
        rw [GoodBC.ext hk ne]
        unfold msCall
        have := (C42_step_in_region (hk.ms fr ne) (fun i => S.g i.1)
          (I.H.submatrix Subtype.val Subtype.val) S.Δ I.εD (fun i j => hH _ _) hS2 hε).1
        have hn : 0 ≤ k.nrm S.s := (hk.sq _ (ms_dot_self_nonneg _)).1
        have : I.εD * S.Δ ≤ I.εD * I.Δ0 := mul_le_mul_of_nonneg_left (by linarith) hε
        linarith
      | bound fr found a b c _ =>
        rw [c] at he
        split_ifs at he with h3
        · exact absurd rfl he
        · linarith)
    (fun S T _ _ h => ⟨h.Δ, h.Δ0⟩)
  exact ⟨o, h1, h2⟩

/-! ### Concrete cases -/

open Classical in
/-- Exact kernels over the reals. -/
noncomputable def Ex.realBC : BCKer ℝ n where
  ms := fun fr h => @Ex.realKer fr _ _ h.to_subtype
  sq := Real.sqrt
  hb := fun H => √(∑ i, ∑ j, H i j ^ 2)

theorem Ex.realBC_good : GoodBC (Ex.realBC (n := n)) where
  ms := fun fr h => @Ex.realKer_good fr _ _ h.to_subtype
  sq := fun a ha => ⟨Real.sqrt_nonneg a, Real.mul_self_sqrt ha⟩

/-- The length with exact arithmetic. -/
theorem C66_real (I : BCIn ℝ n) (hH : ∀ i j, I.H i j = I.H j i) (hΔ : 0 ≤ I.Δ0) (hε : 0 ≤ I.εD) :
    ∃ o, trmsBc Ex.realBC I = some o ∧
      (o.msg ≠ .error7 → √(o.s ⬝ᵥ o.s) ≤ I.Δ0 + max (I.εD * I.Δ0) (1 / 10 ^ 5)) :=
  C66_radius_partial Ex.realBC_good I hH hΔ hε

/-- Square root rounded down to ten decimals. -/
def Ex.sqDown (a : ℚ) : ℚ := (Nat.sqrt (a * 10 ^ 20).floor.toNat : ℚ) / 10 ^ 10

/-- Kernels for diagonal matrices, with rounded square roots. -/
def Ex.diagBC : BCKer ℚ n where
  ms := fun fr h =>
    { sq := Ex.sqDown
      hb := fun _ => 10
      chol := fun M => if ∀ i, 0 < M i i then .ok (fun i j => if i = j then Ex.sqDown (M i i) else 0)
        else .fail
      solve := fun M b i => b i / M i i
      eig := fun H => (1, fun i => H i i, ⟨fr.min' h, fr.min'_mem h⟩) }
  sq := Ex.sqDown
  hb := fun _ => 10

/-- The model `x^2/2 + y^2/2 - 3*x - 4*y` with `x ≤ 1`. -/
def Ex.bcA : BCIn ℚ 2 where
  g0 := ![-3, -4]
  H := !![1, 0; 0, 1]
  lb := ![-1, -1]
  ub := ![1, 10]
  Δ0 := 10
  εD := 1 / 1000

/-- Three variables near their bounds. -/
def Ex.bcB : BCIn ℚ 3 where
  g0 := ![-1, -2, -2]
  H := !![1, 0, 0; 0, 1, 0; 0, 0, 1]
  lb := ![-1, -1, -1]
  ub := ![1 - 1 / 10 ^ 6, 2 + 1 / 10 ^ 5, 2 + 1 / 10 ^ 5]
  Δ0 := 3
  εD := 1 / 10 ^ 7

/-- Kernels that fail to factorise matrices with one row. -/
def Ex.failBC : BCKer ℚ n where
  ms := fun fr h => { Ex.diagBC.ms fr h with
    chol := fun M => if fr.card = 1 then .fail else (Ex.diagBC.ms fr h).chol M }
  sq := Ex.sqDown
  hb := fun _ => 10

/-- What is returned, without the functions. -/
def BCOut.report (o : BCOut ℚ n) : List ℚ × List ℚ × ℚ × ℚ × BCMsg :=
  (List.ofFn o.s, List.ofFn o.gplus, o.norms, o.value, o.msg)

/-- The zero step violates the upper bound `-1/2` of `x`: `x` gets a step within its bounds if it is moved (first), and
stays where it is otherwise (second, `C43_components`). -/
example : (trmsBc Ex.diagBC { Ex.bcA with g0 := ![1, -4], ub := ![-1 / 2, 5] }).map (fun o => List.ofFn o.s) = some [-1, 4] ∧
    (trmsBc Ex.diagBC { Ex.bcA with ub := ![-1 / 2, 5] }).map (fun o => List.ofFn o.s) = some [0, 4] := by
  decide +kernel

/-- Two passes: the first brings `x` to its bound, the second moves `y` to the minimiser. -/
example : StepIn Ex.bcA.lb Ex.bcA.ub 0 ∧ (trmsBc Ex.diagBC Ex.bcA).map BCOut.report =
    some ([1, 4], [-3, -4], 322117627 / 78125000, - 21 / 2, .interior) := by
  refine ⟨?_, by decide +kernel⟩
  intro i
  fin_cases i <;> decide +kernel

/-- C66 fails for the gradient: the returned `gplus` is not `g + H*s`. -/
theorem C66_gradient_false : ∃ o, trmsBc Ex.diagBC Ex.bcA = some o ∧
    o.gplus ≠ Ex.bcA.g0 + Ex.bcA.H *ᵥ o.s := by
  cases h : trmsBc Ex.diagBC Ex.bcA with
  | none =>
    have : (trmsBc Ex.diagBC Ex.bcA).isSome = true := by decide +kernel
    rw [h] at this; cases this
  | some o =>
    refine ⟨o, rfl, fun hc => ?_⟩
    have h1 : ∀ o ∈ trmsBc Ex.diagBC Ex.bcA, o.gplus 0 ≠ (Ex.bcA.g0 + Ex.bcA.H *ᵥ o.s) 0 := by
      decide +kernel
    exact h1 o h (congrFun hc 0)

/-- C66 fails for the length: moving several variables to their bounds makes the step longer than the
radius plus `1e-5`; the step is returned with the message "error7". -/
theorem C66_radius_false : ∃ o, trmsBc Ex.diagBC Ex.bcB = some o ∧ o.msg = .error7 ∧
    o.s = Ex.bcB.ub ∧
    (Ex.bcB.Δ0 + max (Ex.bcB.εD * Ex.bcB.Δ0) (1 / 10 ^ 5)) ^ 2 < o.s ⬝ᵥ o.s := by
  cases h : trmsBc Ex.diagBC Ex.bcB with
  | none =>
    have : (trmsBc Ex.diagBC Ex.bcB).isSome = true := by decide +kernel
    rw [h] at this; cases this
  | some o =>
    have h1 : ∀ o ∈ trmsBc Ex.diagBC Ex.bcB, o.msg = .error7 ∧ o.s = Ex.bcB.ub ∧
        (Ex.bcB.Δ0 + max (Ex.bcB.εD * Ex.bcB.Δ0) (1 / 10 ^ 5)) ^ 2 < o.s ⬝ᵥ o.s := by
      decide +kernel
    exact ⟨o, rfl, h1 o h⟩

/-- C66 fails for the value if the limit on the rounds is hit in a later pass: the step is zero, the
value that of the earlier pass. -/
theorem C66_value_false : ∃ o, trmsBc Ex.failBC { Ex.bcA with ub := ![1, 5] } = some o ∧
    o.msg = .limit ∧ o.s = 0 ∧ o.value < quadVal Ex.bcA.g0 Ex.bcA.H o.s - 6 := by
  cases h : trmsBc Ex.failBC { Ex.bcA with ub := ![1, 5] } with
  | none =>
    have : (trmsBc Ex.failBC { Ex.bcA with ub := ![1, 5] }).isSome = true := by decide +kernel
    rw [h] at this; cases this
  | some o =>
    have h1 : ∀ o ∈ trmsBc Ex.failBC { Ex.bcA with ub := ![1, 5] },
        o.msg = .limit ∧ o.s = 0 ∧ o.value < - 6 := by
      decide +kernel
    obtain ⟨a, b, c⟩ := h1 o h
    refine ⟨o, rfl, a, b, ?_⟩
    rw [b]
    simpa [quadVal] using c

#print axioms C43_step_in_bounds
#print axioms C43_components
#print axioms C43_stops
#print axioms C66_reported_partial
#print axioms C66_radius_partial
#print axioms C66_real
#print axioms C66_gradient_false
#print axioms C66_radius_false
#print axioms C66_value_false

end Sqpdfo
