import Mathlib.LinearAlgebra.Matrix.ToLinearEquiv
import Verif.Props.C43_C66_TRMSbc

/-! # C126: the search for the parameter of the bound-constrained trust-region step -/

set_option linter.unusedSectionVars false

namespace Sqpdfo
open Matrix Spec
variable {K : Type} [Field K] [LinearOrder K] [IsStrictOrderedRing K] {n : ℕ}

theorem theta_half : (thetaMS : K) ≤ 1 / 2 := by
  unfold thetaMS
  rw [div_le_div_iff₀ (by positivity) (by positivity)]
  norm_num

theorem firstBest_best {better : K → K → Bool} {f : Fin n → K} (R : K → K → Prop) (hr : ∀ a, R a a)
    (ht : ∀ a b c, R a b → R b c → R a c) (h1 : ∀ a b, better a b = true → R b a)
    (h0 : ∀ a b, better a b = false → R a b) {l : List (Fin n)} {i : Fin n}
    (h : firstBest better f l = some i) : i ∈ l ∧ ∀ j ∈ l, R (f j) (f i) := by
  cases l with
  | nil => cases h
  | cons a l =>
    have key : ∀ (l : List (Fin n)) (a : Fin n),
        (l.foldl (fun b i => if better (f i) (f b) then i else b) a = a ∨
          l.foldl (fun b i => if better (f i) (f b) then i else b) a ∈ l) ∧
        R (f a) (f (l.foldl (fun b i => if better (f i) (f b) then i else b) a)) ∧
        ∀ j ∈ l, R (f j) (f (l.foldl (fun b i => if better (f i) (f b) then i else b) a)) := by
      intro l
      induction l with
      | nil => intro a; exact ⟨Or.inl rfl, hr _, fun j hj => absurd hj List.not_mem_nil⟩
      | cons c l ih =>
        intro a
        rw [List.foldl_cons]
        cases hb : better (f c) (f a) with
        | true =>
          simp only [if_true]
          obtain ⟨p, q, r⟩ := ih c
          refine ⟨?_, ht _ _ _ (h1 _ _ hb) q, ?_⟩
          · rcases p with p | p
            · right; rw [p]; exact List.mem_cons_self
            · right; exact List.mem_cons_of_mem _ p
          · intro j hj
            rcases List.mem_cons.1 hj with rfl | hj
            · exact q
            · exact r j hj
        | false =>
          simp only [Bool.false_eq_true, if_false]
          obtain ⟨p, q, r⟩ := ih a
          refine ⟨?_, q, ?_⟩
          · rcases p with p | p
            · left; exact p
            · right; exact List.mem_cons_of_mem _ p
          · intro j hj
            rcases List.mem_cons.1 hj with rfl | hj
            · exact ht _ _ _ (h0 _ _ hb) q
            · exact r j hj
    obtain ⟨p, q, r⟩ := key l a
    simp only [firstBest, Option.some.injEq] at h
    rw [h] at p q r
    refine ⟨?_, ?_⟩
    · rcases p with p | p
      · rw [p]; exact List.mem_cons_self
      · exact List.mem_cons_of_mem _ p
    · intro j hj
      rcases List.mem_cons.1 hj with rfl | hj
      · exact q
      · exact r j hj

/-- `b` holds the data of component `i` and the bound `c` (length and direction of the way from `s` to the bound, and the
length of the step). -/
structure Spec.PickOf (s d : Fin n → K) (i : Fin n) (c : K) (b : Pick K n) : Prop where
  comp : b.i = i
  norms : b.norms = |d i|
  delta : b.delta = |c - s i|
  sgn : b.sgn = SignType.sign (c - s i)

theorem pickB_best {I : BCIn K n} {better : K → K → Bool} (R : K → K → Prop) (hr : ∀ a, R a a)
    (ht : ∀ a b c, R a b → R b c → R a c) (h1 : ∀ a b, better a b = true → R b a)
    (h0 : ∀ a b, better a b = false → R a b) {s d sd : Fin n → K} {us ls : List (Fin n)} {b : Pick K n}
    (h : pickB I better s d sd us ls = some b) :
    (∃ i ∈ us, PickOf s d i (I.ub i) b ∧ (∀ j ∈ us, R |I.ub j - sd j| |I.ub i - sd i|) ∧
      ∀ j ∈ ls, R |sd j - I.lb j| |I.ub i - sd i|) ∨
    (∃ i ∈ ls, PickOf s d i (I.lb i) b ∧ (∀ j ∈ us, R |I.ub j - sd j| |sd i - I.lb i|) ∧
      ∀ j ∈ ls, R |sd j - I.lb j| |sd i - I.lb i|) := by
  have hnil : ∀ {f : Fin n → K} {l : List (Fin n)}, firstBest better f l = none → ∀ j ∈ l, False := by
    intro f l hl j hj
    obtain ⟨i, hi⟩ := firstBest_mem (better := better) (f := f) l (List.ne_nil_of_mem hj)
    rw [hl] at hi; cases hi
  unfold pickB at h
  cases hu : firstBest better (fun i => |I.ub i - sd i|) us with
  | none =>
    cases hl : firstBest better (fun i => |sd i - I.lb i|) ls with
    | none => rw [hu, hl] at h; cases h
    | some l =>
      obtain ⟨b1, b2⟩ := firstBest_best R hr ht h1 h0 hl
      rw [hu, hl] at h
      simp only [Option.some.injEq] at h
      subst h
      exact Or.inr ⟨l, b1, ⟨rfl, rfl, rfl, rfl⟩, fun j hj => (hnil hu j hj).elim, b2⟩
  | some u =>
    obtain ⟨a1, a2⟩ := firstBest_best R hr ht h1 h0 hu
    cases hl : firstBest better (fun i => |sd i - I.lb i|) ls with
    | none =>
      rw [hu, hl] at h
      simp only [Option.some.injEq] at h
      subst h
      exact Or.inl ⟨u, a1, ⟨rfl, rfl, rfl, rfl⟩, a2, fun j hj => (hnil hl j hj).elim⟩
    | some l =>
      obtain ⟨b1, b2⟩ := firstBest_best R hr ht h1 h0 hl
      rw [hu, hl] at h
      simp only [Option.some.injEq] at h
      cases hb : better |I.ub u - sd u| |sd l - I.lb l| with
      | true =>
        rw [if_pos hb] at h
        subst h
        exact Or.inl ⟨u, a1, ⟨rfl, rfl, rfl, rfl⟩, a2, fun j hj => ht _ _ _ (b2 j hj) (h1 _ _ hb)⟩
      | false =>
        rw [if_neg (by rw [hb]; exact Bool.false_ne_true)] at h
        subst h
        exact Or.inr ⟨l, b1, ⟨rfl, rfl, rfl, rfl⟩, fun j hj => ht _ _ _ (a2 j hj) (h0 _ _ hb), b2⟩

/-- By how much `v` violates the bounds `l`, `u` (not positive within the bounds). -/
def Spec.excess (l u v : K) : K := max (v - u) (l - v)

/-- C126, steps outside the bounds.  If a round continues with a step `sd` that violates a bound of a free variable, the
next `lambda` is computed from the free variable that violates its bounds most, and from the bound that it violates. -/
theorem C126_worst (k : BCKer K n) (I : BCIn K n) {fr : Finset (Fin n)} (m : MSKer K fr) (s d sd : Fin n → K)
    (R : Matrix fr fr K) (S S' : HomState K n) (hlu : ∀ i, I.lb i ≤ I.ub i)
    (hout : ∃ i ∈ fr, 0 < excess (I.lb i) (I.ub i) (sd i)) (h : homRound k I m s d sd R S = .inr S') :
    ∃ (i : Fin n) (c : K) (b : Pick K n) (T : HomState K n), i ∈ fr ∧ PickOf s d i c b ∧
      (∀ j ∈ fr, excess (I.lb j) (I.ub j) (sd j) ≤ excess (I.lb i) (I.ub i) (sd i)) ∧
      ((c = I.ub i ∧ I.ub i < sd i) ∨ (c = I.lb i ∧ sd i < I.lb i)) ∧
      S' = homUpdate k m R d b false T ∧ T.lower = S.lower ∧ T.upper = S.upper ∧ T.lam = S.lam := by
  have hU : ∀ {j}, j ∈ outU I fr sd 0 ↔ j ∈ fr ∧ I.ub j < sd j := by
    intro j; unfold outU; rw [mem_freeList, neg_zero, sub_neg]
  have hL : ∀ {j}, j ∈ outL I fr sd 0 ↔ j ∈ fr ∧ sd j < I.lb j := by
    intro j; unfold outL; rw [mem_freeList, neg_zero, sub_neg]
  have hin : insideAll I fr sd = false := by
    by_contra hc
    rw [Bool.not_eq_false] at hc
    obtain ⟨i, hi, he⟩ := hout
    obtain ⟨a, b⟩ := insideAll_iff hc hi
    unfold excess at he
    rcases lt_max_iff.1 he with h | h <;> linarith
  have eU : ∀ {j}, I.ub j < sd j → excess (I.lb j) (I.ub j) (sd j) = |I.ub j - sd j| := by
    intro j hj
    unfold excess
    rw [max_eq_left (by linarith [hlu j]), abs_of_neg (by linarith)]; ring
  have eL : ∀ {j}, sd j < I.lb j → excess (I.lb j) (I.ub j) (sd j) = |sd j - I.lb j| := by
    intro j hj
    unfold excess
    rw [max_eq_right (by linarith [hlu j]), abs_of_neg (by linarith)]; ring
  unfold homRound at h
  simp only [hin, Bool.false_eq_true, if_false] at h
  split at h
  · cases h
  · next b hb =>
    by_cases hcond : nearAll I fr sd = true ∧ someAct I fr sd = true
    · rw [if_pos hcond] at h; cases h
    rw [if_neg hcond] at h
    simp only [Sum.inr.injEq] at h
    have best := pickB_best (R := fun x y => x ≤ y) le_refl (fun _ _ _ => le_trans)
      (fun a b hab => (of_decide_eq_true hab).le) (fun a b hab => not_lt.1 (of_decide_eq_false hab)) hb
    have fin : ∀ {i} {v : K}, excess (I.lb i) (I.ub i) (sd i) = v → 0 ≤ v →
        (∀ j ∈ outU I fr sd 0, |I.ub j - sd j| ≤ v) → (∀ j ∈ outL I fr sd 0, |sd j - I.lb j| ≤ v) →
        ∀ j ∈ fr, excess (I.lb j) (I.ub j) (sd j) ≤ excess (I.lb i) (I.ub i) (sd i) := by
      intro i v hv h0 p q j hj
      rw [hv]
      by_cases c1 : I.ub j < sd j
      · rw [eU c1]; exact p j (hU.2 ⟨hj, c1⟩)
      · by_cases c2 : sd j < I.lb j
        · rw [eL c2]; exact q j (hL.2 ⟨hj, c2⟩)
        · exact (max_le (by linarith) (by linarith)).trans h0
    rcases best with ⟨i, hi, hp, p, q⟩ | ⟨i, hi, hp, p, q⟩
    · obtain ⟨a, b⟩ := hU.1 hi
      exact ⟨i, _, _, _, a, hp, fin (eU b) (abs_nonneg _) p q, Or.inl ⟨rfl, b⟩, h.symm, rfl, rfl, rfl⟩
    · obtain ⟨a, b⟩ := hL.1 hi
      exact ⟨i, _, _, _, a, hp, fin (eL b) (abs_nonneg _) p q, Or.inr ⟨rfl, b⟩, h.symm, rfl, rfl, rfl⟩

/-- C126, steps within the bounds.  If a round continues with a step `sd` within the bounds, the next `lambda` is computed
from the variable that is closest to a bound, among the bounds that were violated in earlier rounds. -/
theorem C126_nearest (k : BCKer K n) (I : BCIn K n) {fr : Finset (Fin n)} (m : MSKer K fr) (s d sd : Fin n → K)
    (R : Matrix fr fr K) (S S' : HomState K n) (hin : ∀ i ∈ fr, I.lb i ≤ sd i ∧ sd i ≤ I.ub i)
    (h : homRound k I m s d sd R S = .inr S') :
    ∃ (i : Fin n) (c : K) (b : Pick K n) (T : HomState K n), PickOf s d i c b ∧
      ((c = I.ub i ∧ i ∈ S.initU) ∨ (c = I.lb i ∧ i ∈ S.initL)) ∧
      (∀ j ∈ S.initU, |c - sd i| ≤ |I.ub j - sd j|) ∧ (∀ j ∈ S.initL, |c - sd i| ≤ |I.lb j - sd j|) ∧
      S' = homUpdate k m R d b true T ∧ T.lower = S.lower ∧ T.upper = S.upper ∧ T.lam = S.lam := by
  have hins : insideAll I fr sd = true := by
    unfold insideAll
    rw [Bool.and_eq_true, List.isEmpty_iff, List.isEmpty_iff, List.eq_nil_iff_forall_not_mem,
      List.eq_nil_iff_forall_not_mem]
    refine ⟨fun j hj => ?_, fun j hj => ?_⟩
    · obtain ⟨a, b⟩ := mem_freeList.1 hj
      linarith [(hin j a).2]
    · obtain ⟨a, b⟩ := mem_freeList.1 hj
      linarith [(hin j a).1]
  unfold homRound at h
  simp only [hins, if_true] at h
  split at h
  · cases h
  · next b hb =>
    by_cases hcond : nearAll I fr sd = true ∧ someAct I fr sd = true
    · rw [if_pos hcond] at h; cases h
    rw [if_neg hcond] at h
    simp only [Sum.inr.injEq] at h
    have best := pickB_best (R := fun x y => y ≤ x) le_refl (fun _ _ _ p q => le_trans q p)
      (fun a b hab => (of_decide_eq_true hab).le) (fun a b hab => not_lt.1 (of_decide_eq_false hab)) hb
    rcases best with ⟨i, hi, hp, p, q⟩ | ⟨i, hi, hp, p, q⟩
    · exact ⟨i, _, _, _, hp, Or.inl ⟨rfl, hi⟩, p, fun j hj => by rw [abs_sub_comm (I.lb j)]; exact q j hj,
        h.symm, rfl, rfl, rfl⟩
    · exact ⟨i, _, _, _, hp, Or.inr ⟨rfl, hi⟩, fun j hj => by rw [abs_sub_comm (I.lb i)]; exact p j hj,
        fun j hj => by rw [abs_sub_comm (I.lb i), abs_sub_comm (I.lb j)]; exact q j hj, h.symm, rfl, rfl, rfl⟩

/-- C126, the lists of bounds that were violated: a round that continues adds the bounds that its step violates. -/
theorem C126_violated (k : BCKer K n) (I : BCIn K n) {fr : Finset (Fin n)} (m : MSKer K fr) (s d sd : Fin n → K)
    (R : Matrix fr fr K) (S S' : HomState K n) (h : homRound k I m s d sd R S = .inr S') :
    (∀ j, j ∈ S'.initU ↔ j ∈ S.initU ∨ (j ∈ fr ∧ I.ub j < sd j)) ∧
      ∀ j, j ∈ S'.initL ↔ j ∈ S.initL ∨ (j ∈ fr ∧ sd j < I.lb j) := by
  have hU : ∀ {j}, j ∈ outU I fr sd 0 ↔ j ∈ fr ∧ I.ub j < sd j := by
    intro j; unfold outU; rw [mem_freeList, neg_zero, sub_neg]
  have hL : ∀ {j}, j ∈ outL I fr sd 0 ↔ j ∈ fr ∧ sd j < I.lb j := by
    intro j; unfold outL; rw [mem_freeList, neg_zero, sub_neg]
  unfold homRound at h
  dsimp only at h
  split at h
  · cases h
  · next b hb =>
    cases hi : insideAll I fr sd with
    | true =>
      have out : ∀ j ∈ fr, ¬ I.ub j < sd j ∧ ¬ sd j < I.lb j := fun j hj => by
        obtain ⟨a, b⟩ := insideAll_iff hi hj
        exact ⟨not_lt.2 b, not_lt.2 a⟩
      simp only [hi, if_true] at h
      by_cases hcond : nearAll I fr sd = true ∧ someAct I fr sd = true
      · rw [if_pos hcond] at h; cases h
      rw [if_neg hcond] at h
      simp only [Sum.inr.injEq] at h
      rw [← h]
      exact ⟨fun j => ⟨Or.inl, fun hj => hj.elim id fun hj => absurd hj.2 (out j hj.1).1⟩,
        fun j => ⟨Or.inl, fun hj => hj.elim id fun hj => absurd hj.2 (out j hj.1).2⟩⟩
    | false =>
      simp only [hi, Bool.false_eq_true, if_false] at h
      by_cases hcond : nearAll I fr sd = true ∧ someAct I fr sd = true
      · rw [if_pos hcond] at h; cases h
      rw [if_neg hcond] at h
      simp only [Sum.inr.injEq] at h
      rw [← h]
      refine ⟨fun j => ?_, fun j => ?_⟩
      · change j ∈ S.initU ++ outU I fr sd 0 ↔ _
        rw [List.mem_append, hU]
      · change j ∈ S.initL ++ outL I fr sd 0 ↔ _
        rw [List.mem_append, hL]

/-- C126, Newton's method.  For a diagonal matrix `diag(h)` and an exact factorisation: if the step in component `i` points to
its bound and the parameter that puts it on the bound (`|g i|/(h i + lambda) = delta`) is well within the interval, that
parameter is the next one. -/
theorem C126_newton (k : BCKer K n) {fr : Finset (Fin n)} (m : MSKer K fr) (R : Matrix fr fr K) (h g d s : Fin n → K)
    (i : fr) (c : K) (b : Pick K n) (inside : Bool) (S : HomState K n) (lo up : K) (hb : PickOf s d i c b)
    (hR : Rᵀ * R = diagonal (fun j : fr => h j.1 + S.lam)) (hpos : ∀ j : fr, 0 < h j.1 + S.lam)
    (hsol : ∀ v, Rᵀ *ᵥ m.solve Rᵀ v = v) (hd : d i.1 = - g i.1 / (h i.1 + S.lam)) (hg : g i.1 ≠ 0)
    (hdir : SignType.sign (d i.1) = SignType.sign (c - s i.1))
    (hlo : lo = if inside then S.lower else S.lam) (hup : up = if inside then S.lam else S.upper)
    (hsafe : lo + thetaMS * (up - lo) < |g i.1| / |c - s i.1| - h i.1 ∧
      |g i.1| / |c - s i.1| - h i.1 ≤ up - thetaMS * (up - lo)) :
    (homUpdate k m R d b inside S).lam = |g i.1| / |c - s i.1| - h i.1 ∧
      (homUpdate k m R d b inside S).lower = lo ∧ (homUpdate k m R d b inside S).upper = up := by
  obtain ⟨hbi, hbn, hbd, hbs⟩ := hb
  have hp := hpos i
  have hd0 : d i.1 ≠ 0 := by rw [hd]; exact div_ne_zero (neg_ne_zero.2 hg) hp.ne'
  have hc0 : c - s i.1 ≠ 0 := by
    intro hc
    rw [hc, sign_zero, sign_eq_zero_iff] at hdir
    exact hd0 hdir
  have hdet : Rᵀ.det ≠ 0 := by
    intro h0
    have := congrArg Matrix.det hR
    rw [det_mul, h0, zero_mul, det_diagonal] at this
    exact (Finset.prod_ne_zero_iff.2 fun j _ => (hpos j).ne') this.symm
  have hw : (m.solve Rᵀ fun j => if j.1 = b.i then 1 else 0) ⬝ᵥ (m.solve Rᵀ fun j => d j.1) =
      d i.1 / (h i.1 + S.lam) := by
    have e2 : (m.solve Rᵀ fun j => d j.1) = R *ᵥ fun j : fr => d j.1 / (h j.1 + S.lam) := by
      rw [← sub_eq_zero]
      refine eq_zero_of_mulVec_eq_zero hdet ?_
      rw [mulVec_sub, hsol, mulVec_mulVec, hR, sub_eq_zero]
      funext j
      rw [mulVec_diagonal, mul_div_cancel₀ _ (hpos j).ne']
    rw [e2, dotProduct_mulVec, ← mulVec_transpose, hsol, hbi]
    simp only [dotProduct, ite_mul, one_mul, zero_mul]
    rw [Finset.sum_eq_single i]
    · rw [if_pos rfl]
    · intro j _ hj
      rw [if_neg fun hc => hj (Subtype.ext hc)]
    · intro hc; exact absurd (Finset.mem_univ i) hc
  have hnew : S.lam + (b.norms - b.delta) / b.delta * (b.norms ^ 2 / (d b.i *
      ((m.solve Rᵀ fun j => if j.1 = b.i then 1 else 0) ⬝ᵥ (m.solve Rᵀ fun j => d j.1)))) =
      |g i.1| / |c - s i.1| - h i.1 := by
    rw [hw, hbn, hbd, hbi, sq_abs]
    have e1 : |d i.1| = |g i.1| / (h i.1 + S.lam) := by rw [hd, abs_div, abs_neg, abs_of_pos hp]
    rw [e1]
    have := abs_ne_zero.2 hc0
    have := hp.ne'
    field_simp
    ring
  have hdir' : SignType.sign (d b.i) = b.sgn := by rw [hbi, hbs, hdir]
  have hlt : |g i.1| / |c - s i.1| - h i.1 < up := by
    obtain ⟨t0, _⟩ := theta_bounds (K := K)
    have t2 := theta_half (K := K)
    have t3 : (thetaMS : K) ≠ 0 := by unfold thetaMS; positivity
    have h1 : lo < up := by
      by_contra hc
      have := mul_le_mul_of_nonneg_right t2 (sub_nonneg.2 (not_lt.1 hc))
      linarith [hsafe.1, hsafe.2]
    linarith [hsafe.2, mul_pos (lt_of_le_of_ne t0 (Ne.symm t3)) (sub_pos.2 h1)]
  unfold homUpdate
  dsimp only
  rw [hnew]
  simp only [hdir', decide_true, if_true, true_and, ← hlo, ← hup,
    if_neg (fun hc : S.back = false ∧ up ≤ |g i.1| / |c - s i.1| - h i.1 => absurd hlt (not_lt.2 hc.2))]
  rw [if_pos ⟨hsafe.1, hsafe.2⟩]
  exact ⟨rfl, trivial⟩

/-- The parameter lies in its interval. -/
structure Spec.Bracket (S : HomState K n) : Prop where
  low : 0 ≤ S.lower
  le : S.lower ≤ S.lam
  ge : S.lam ≤ S.upper

/-- The parameter has a distance from the ends of its interval. -/
structure Spec.Central (S : HomState K n) : Prop where
  low : 0 ≤ S.lower
  len : S.lower ≤ S.upper
  le : S.lower + thetaMS * (S.upper - S.lower) ≤ S.lam
  ge : S.lam ≤ S.upper - thetaMS * (S.upper - S.lower)

theorem Spec.Central.bracket {S : HomState K n} (h : Central S) : Bracket S := by
  obtain ⟨t0, _⟩ := theta_bounds (K := K)
  have := mul_nonneg t0 (sub_nonneg.2 h.len)
  exact ⟨h.low, by linarith [h.le], by linarith [h.ge]⟩

/-- One round: a failed factorisation (or the hard case), or a step that is not good enough
(`bcdfo_solve_TR_MS_bc.py` L213-L407). -/
inductive Spec.Round (k : BCKer K n) (I : BCIn K n) {fr : Finset (Fin n)} (m : MSKer K fr) (g s : Fin n → K)
    (S : HomState K n) : HomState K n → Prop
  | fail (hc : m.chol (I.H.submatrix Subtype.val Subtype.val + S.lam • (1 : Matrix fr fr K)) ≠ .nan) :
    Round k I m g s S { S with nfact := S.nfact + 1, hard := false, lower := S.lam, lam := (S.lam + S.upper) / 2 }
  | next (R : Matrix fr fr K) (d sd : Fin n → K) (T : HomState K n)
    (hc : m.chol (I.H.submatrix Subtype.val Subtype.val + S.lam • (1 : Matrix fr fr K)) = .ok R)
    (hT : homRound k I m s d sd R { S with nfact := S.nfact + 1 } = .inr T) : Round k I m g s S T

/-- `j` rounds. -/
inductive Spec.Rounds (k : BCKer K n) (I : BCIn K n) {fr : Finset (Fin n)} (m : MSKer K fr) (g s : Fin n → K) :
    ℕ → HomState K n → HomState K n → Prop
  | zero (S : HomState K n) : Rounds k I m g s 0 S S
  | succ {j : ℕ} {S T U : HomState K n} (h : Round k I m g s S T) (h' : Rounds k I m g s j T U) :
    Rounds k I m g s (j + 1) S U

theorem homUpdate_central {k : BCKer K n} {fr : Finset (Fin n)} {m : MSKer K fr} {R : Matrix fr fr K} {d : Fin n → K}
    {b : Pick K n} {inside : Bool} {S : HomState K n} (hk : ∀ a, 0 ≤ a → k.sq a * k.sq a ≤ a) (h : Bracket S) :
    Central (homUpdate k m R d b inside S) ∧ S.lower ≤ (homUpdate k m R d b inside S).lower ∧
      (S.back = true → (homUpdate k m R d b inside S).upper ≤ S.upper) ∧
      (S.back = true → Central S → (homUpdate k m R d b inside S).upper - (homUpdate k m R d b inside S).lower ≤
        (1 - thetaMS) * (S.upper - S.lower)) := by
  obtain ⟨t0, t1⟩ := theta_bounds (K := K)
  have t2 := theta_half (K := K)
  obtain ⟨h1, h2, h3⟩ := h
  unfold homUpdate
  dsimp only
  generalize decide (SignType.sign (d b.i) = b.sgn) = nw
  generalize hu : (if inside = true then S.lam else S.upper) = u
  generalize hl : (if inside = true then S.lower else S.lam) = l
  have l0 : S.lower ≤ l := by rw [← hl]; split_ifs <;> linarith
  have lu : l ≤ u := by rw [← hl, ← hu]; split_ifs <;> linarith
  have u0 : u ≤ S.upper := by rw [← hu]; split_ifs <;> linarith
  generalize (if nw = true then _ else (l + u) / 2) = new
  generalize hu' : (if nw = true ∧ S.back = false ∧ u ≤ new then 2 * new else u) = u'
  have uu : u ≤ u' := by
    rw [← hu']
    split_ifs with hc
    · linarith [hc.2.2]
    · exact le_rfl
  have hbk : S.back = true → u' = u := by
    intro hb
    rw [← hu', if_neg]
    rintro ⟨_, hc, _⟩
    rw [hb] at hc; cases hc
  have lu' : l ≤ u' := lu.trans uu
  have hr : 0 ≤ thetaMS * (u' - l) := mul_nonneg t0 (sub_nonneg.2 lu')
  have hm : thetaMS * (u' - l) ≤ 1 / 2 * (u' - l) := mul_le_mul_of_nonneg_right t2 (sub_nonneg.2 lu')
  have hs : k.sq (l * u') ≤ (l + u') / 2 := by
    have a := hk (l * u') (mul_nonneg (by linarith) (by linarith))
    refine abs_le_of_sq_le_sq' ?_ (by linarith) |>.2
    nlinarith [sq_nonneg (l - u')]
  refine ⟨⟨by dsimp only; linarith, lu', ?_, ?_⟩, l0, fun hb => by rw [hbk hb]; exact u0, fun hb hC => ?_⟩
  · dsimp only
    split_ifs with hc
    · exact hc.1.le
    · exact le_max_right _ _
  · dsimp only
    split_ifs with hc
    · exact hc.2
    · exact max_le (by linarith) (by linarith)
  · rw [hbk hb, ← hu, ← hl]
    have a := hC.le
    have b := hC.ge
    split_ifs <;> linarith

theorem homRound_next {k : BCKer K n} {I : BCIn K n} {fr : Finset (Fin n)} {m : MSKer K fr} {s d sd : Fin n → K}
    {R : Matrix fr fr K} {S T : HomState K n} (h : homRound k I m s d sd R S = .inr T) :
    ∃ (b : Pick K n) (inside : Bool) (U : HomState K n), T = homUpdate k m R d b inside U ∧ U.lower = S.lower ∧
      U.upper = S.upper ∧ U.lam = S.lam ∧ (S.back = true → U.back = true) := by
  unfold homRound at h
  dsimp only at h
  split at h
  · cases h
  · next b hb =>
    cases hi : insideAll I fr sd <;>
      simp only [hi, Bool.false_eq_true, if_false, if_true] at h <;> split_ifs at h <;>
      simp only [Sum.inr.injEq] at h <;>
      exact ⟨b, _, _, h.symm, rfl, rfl, rfl, fun hb => by dsimp only; rw [hb]; rfl⟩

theorem homUpdate_back {k : BCKer K n} {fr : Finset (Fin n)} {m : MSKer K fr} {R : Matrix fr fr K} {d : Fin n → K}
    {b : Pick K n} {inside : Bool} {S : HomState K n} : (homUpdate k m R d b inside S).back = S.back := rfl

theorem round_central {k : BCKer K n} {I : BCIn K n} {fr : Finset (Fin n)} {m : MSKer K fr} {g s : Fin n → K}
    {S T : HomState K n} (hk : ∀ a, 0 ≤ a → k.sq a * k.sq a ≤ a) (hr : Round k I m g s S T) (h : Bracket S) :
    Central T ∧ S.lower ≤ T.lower ∧ (S.back = true → T.back = true ∧ T.upper ≤ S.upper) ∧
      (S.back = true → Central S → T.upper - T.lower ≤ (1 - thetaMS) * (S.upper - S.lower)) := by
  cases hr with
  | fail hc =>
    have t2 := theta_half (K := K)
    have := mul_le_mul_of_nonneg_right t2 (sub_nonneg.2 h.ge)
    refine ⟨⟨h.low.trans h.le, h.ge, ?_, ?_⟩, h.le, fun hb => ⟨hb, le_rfl⟩, fun _ hC => ?_⟩
    · dsimp only; linarith
    · dsimp only; linarith
    · dsimp only; linarith [hC.le]
  | next R d sd _ hc hT =>
    obtain ⟨b, inside, U, rfl, e1, e2, e3, e4⟩ := homRound_next hT
    dsimp only at e1 e2 e3 e4
    have hU : Bracket U := ⟨by rw [e1]; exact h.low, by rw [e1, e3]; exact h.le, by rw [e2, e3]; exact h.ge⟩
    obtain ⟨a1, a2, a3, a4⟩ := homUpdate_central (m := m) (R := R) (d := d) (b := b) (inside := inside) hk hU
    rw [e1] at a2
    rw [e2] at a3
    rw [e1, e2] at a4
    refine ⟨a1, a2, fun hb => ⟨e4 hb, a3 (e4 hb)⟩, fun hb hC => a4 (e4 hb) ⟨?_, ?_, ?_, ?_⟩⟩
    · rw [e1]; exact hC.low
    · rw [e1, e2]; exact hC.len
    · rw [e1, e2, e3]; exact hC.le
    · rw [e1, e2, e3]; exact hC.ge

/-- C126, the interval.  If the parameter lies in its interval, it does so after any number of rounds, and the lower end never
decreases; once a step was within the bounds the intervals are nested, and every round shortens them. -/
theorem C126_interval {k : BCKer K n} {I : BCIn K n} {fr : Finset (Fin n)} {m : MSKer K fr} {g s : Fin n → K}
    (hk : ∀ a, 0 ≤ a → k.sq a * k.sq a ≤ a) {j : ℕ} {S T : HomState K n} (hr : Rounds k I m g s j S T)
    (h : Bracket S) :
    Bracket T ∧ S.lower ≤ T.lower ∧ (0 < j → T.lower + thetaMS * (T.upper - T.lower) ≤ T.lam) ∧
      (S.back = true → T.upper ≤ S.upper) ∧
      (S.back = true → Central S → T.upper - T.lower ≤ (1 - thetaMS) ^ j * (S.upper - S.lower)) := by
  induction hr with
  | zero S =>
    exact ⟨h, le_rfl, fun hj => absurd hj (lt_irrefl _), fun _ => le_rfl, fun _ _ => by rw [pow_zero, one_mul]⟩
  | @succ j S T U h1 h2 ih =>
    obtain ⟨a1, a2, a3, a4⟩ := round_central hk h1 h
    obtain ⟨b1, b2, b3, b4, b5⟩ := ih a1.bracket
    refine ⟨b1, a2.trans b2, fun _ => ?_, fun hb => (b4 (a3 hb).1).trans (a3 hb).2, fun hb hC => ?_⟩
    · rcases Nat.eq_zero_or_pos j with rfl | hj
      · cases h2; exact a1.le
      · exact b3 hj
    · have t1 := (theta_bounds (K := K)).2
      refine (b5 (a3 hb).1 a1).trans ?_
      have := mul_le_mul_of_nonneg_left (a4 hb hC) (pow_nonneg (sub_nonneg.2 t1) j)
      calc _ ≤ _ := this
        _ = _ := by rw [pow_succ]; ring

/-- The parameter with which the loop ends. -/
def HomRes.lam? : HomRes K n → Option K
  | .found _ lam _ => some lam
  | .error4 lam _ => some lam
  | .limit lam _ => some lam
  | .undef => none

/-- C126, the loop is made of such rounds: the parameter at its end is that of a state reached by at most `r` rounds. -/
theorem C126_loop (k : BCKer K n) (I : BCIn K n) {fr : Finset (Fin n)} (m : MSKer K fr) (g s : Fin n → K) :
    ∀ (r : ℕ) (S : HomState K n) (lam : K), (homLoop k I m g s r S).lam? = some lam →
      ∃ j T, j ≤ r ∧ Rounds k I m g s j S T ∧ T.lam = lam := by
  intro r
  induction r with
  | zero =>
    intro S lam h
    simp only [homLoop, HomRes.lam?, Option.some.injEq] at h
    exact ⟨0, S, le_rfl, .zero S, h⟩
  | succ r ih =>
    intro S lam h
    rw [homLoop] at h
    split_ifs at h
    · cases h
    have half : (1 - 1 / 2 : K) * S.lam + 1 / 2 * S.upper = (S.lam + S.upper) / 2 := by ring
    have hfail : m.chol (I.H.submatrix Subtype.val Subtype.val + S.lam • (1 : Matrix fr fr K)) ≠ .nan →
        (homLoop k I m g s r { S with
          nfact := S.nfact + 1
          hard := false
          lower := S.lam
          lam := (1 - 1 / 2) * S.lam + 1 / 2 * S.upper }).lam? = some lam →
        ∃ j T, j ≤ r + 1 ∧ Rounds k I m g s j S T ∧ T.lam = lam := by
      intro hc h
      rw [half] at h
      obtain ⟨j, T, a, b, c⟩ := ih _ lam h
      exact ⟨j + 1, T, by omega, .succ (.fail hc) b, c⟩
    cases hc : m.chol (I.H.submatrix Subtype.val Subtype.val + S.lam • (1 : Matrix fr fr K)) with
    | nan =>
      rw [hc] at h
      simp only [HomRes.lam?, Option.some.injEq] at h
      exact ⟨0, S, by omega, .zero S, h⟩
    | fail => rw [hc] at h; exact hfail (by rw [hc]; exact fun h => by cases h) h
    | ok R =>
      have hc' := hc
      rw [hc] at h
      cases hh : S.hard with
      | true => simp only [hh] at h; exact hfail (by rw [hc]; exact fun h => by cases h) h
      | false =>
        simp only [hh] at h
        generalize hd : extFree fr (m.solve (-R) (m.solve Rᵀ fun i => g i.1)) = d at h
        split at h
        · next o ho =>
          unfold homRound at ho
          dsimp only at ho
          split at ho
          · cases ho; cases h
          · split_ifs at ho
            all_goals (simp only [Sum.inl.injEq] at ho; rw [← ho] at h
                       simp only [HomRes.lam?, Option.some.injEq] at h
                       exact ⟨0, S, by omega, .zero S, h⟩)
        · next T ho =>
          obtain ⟨j, U, a, b, c⟩ := ih T lam h
          rw [← hh] at ho
          exact ⟨j + 1, U, by omega, .succ (.next R _ _ T hc ho) b, c⟩

/-- C126, the result: if the loop starts with a parameter in its interval, the parameter at its end is not smaller than the
lower end of that interval (the parameter of the step without bounds). -/
theorem C126_result (k : BCKer K n) (I : BCIn K n) {fr : Finset (Fin n)} (m : MSKer K fr) (g s : Fin n → K) (r : ℕ)
    (S : HomState K n) (lam : K) (hk : ∀ a, 0 ≤ a → k.sq a * k.sq a ≤ a) (h : Bracket S)
    (hl : (homLoop k I m g s r S).lam? = some lam) : S.lower ≤ lam ∧ (S.back = true → lam ≤ S.upper) := by
  obtain ⟨j, T, _, hr, rfl⟩ := C126_loop k I m g s r S lam hl
  obtain ⟨a, b, _, c, _⟩ := C126_interval hk hr h
  exact ⟨b.trans a.le, fun hb => a.ge.trans (c hb)⟩

theorem minOf_le {f : Fin n → K} {l : List (Fin n)} {v : K} (h : minOf f l = some v) :
    (∀ j ∈ l, v ≤ f j) ∧ ∃ j ∈ l, v = f j := by
  cases l with
  | nil => cases h
  | cons a l =>
    have key : ∀ (l : List (Fin n)) (v : K), l.foldl (fun b i => min b (f i)) v ≤ v ∧
        (∀ j ∈ l, l.foldl (fun b i => min b (f i)) v ≤ f j) ∧
        (l.foldl (fun b i => min b (f i)) v = v ∨ ∃ j ∈ l, l.foldl (fun b i => min b (f i)) v = f j) := by
      intro l
      induction l with
      | nil => intro v; exact ⟨le_rfl, fun j hj => absurd hj List.not_mem_nil, Or.inl rfl⟩
      | cons c l ih =>
        intro v
        rw [List.foldl_cons]
        obtain ⟨p, q, r⟩ := ih (min v (f c))
        refine ⟨p.trans (min_le_left _ _), fun j hj => ?_, ?_⟩
        · rcases List.mem_cons.1 hj with rfl | hj
          · exact p.trans (min_le_right _ _)
          · exact q j hj
        · rcases r with r | ⟨j, hj, r⟩
          · rcases min_choice v (f c) with e | e
            · left; rw [r, e]
            · right; exact ⟨c, List.mem_cons_self, by rw [r, e]⟩
          · right; exact ⟨j, List.mem_cons_of_mem _ hj, r⟩
    simp only [minOf, Option.some.injEq] at h
    obtain ⟨p, q, r⟩ := key l (f a)
    rw [h] at p q r
    refine ⟨fun j hj => ?_, ?_⟩
    · rcases List.mem_cons.1 hj with rfl | hj
      · exact p
      · exact q j hj
    · rcases r with r | ⟨j, hj, r⟩
      · exact ⟨a, List.mem_cons_self, r⟩
      · exact ⟨j, List.mem_cons_of_mem _ hj, r⟩

theorem minOf_none {f : Fin n → K} {l : List (Fin n)} (h : minOf f l = none) : l = [] := by
  cases l with
  | nil => rfl
  | cons a l => cases h

theorem GoodBC.cs {k : BCKer K n} (hk : GoodBC k) (u v : Fin n → K) : -(u ⬝ᵥ v) ≤ k.nrm u * k.nrm v := by
  obtain ⟨a0, a1⟩ := hk.sq _ (ms_dot_self_nonneg u)
  obtain ⟨b0, b1⟩ := hk.sq _ (ms_dot_self_nonneg v)
  have cs := dot_cs u v
  rw [← a1, ← b1] at cs
  refine abs_le_of_sq_le_sq' ?_ (mul_nonneg a0 b0) |>.2
  calc _ = (u ⬝ᵥ v) ^ 2 := by ring
    _ ≤ _ := cs
    _ = _ := by ring

theorem homotopy_ge {k : BCKer K n} (hk : GoodBC k) (I : BCIn K n) (S : BCState K n) (d : S.fr → K) (hard : Bool)
    (hhb : ∀ v, k.nrm (I.H *ᵥ v) ≤ k.hb I.H * k.nrm v) (h0 : 0 ≤ S.lam)
    (hd : (I.H.submatrix Subtype.val Subtype.val + S.lam • (1 : Matrix S.fr S.fr K)) *ᵥ d = fun i => - S.g i.1)
    (hs : ∀ i ∈ S.fr, (S.s i + extFree S.fr d i < I.lb i → I.lb i < S.s i) ∧ (I.ub i < S.s i + extFree S.fr d i → S.s i < I.ub i))
    (hout : ∃ i ∈ S.fr, 0 < excess (I.lb i) (I.ub i) (S.s i + extFree S.fr d i)) (lam : K)
    (hl : (homotopy k I S (S.s + extFree S.fr d) hard).lam? = some lam) : S.lam ≤ lam := by
  unfold homotopy at hl
  dsimp only at hl
  generalize hus : outU I S.fr (S.s + extFree S.fr d) 0 = us at hl
  generalize hls : outL I S.fr (S.s + extFree S.fr d) 0 = ls at hl
  have hU : ∀ {j}, j ∈ us ↔ j ∈ S.fr ∧ I.ub j < S.s j + extFree S.fr d j := by
    intro j; rw [← hus]; unfold outU; rw [mem_freeList, neg_zero, sub_neg]; rfl
  have hL : ∀ {j}, j ∈ ls ↔ j ∈ S.fr ∧ S.s j + extFree S.fr d j < I.lb j := by
    intro j; rw [← hls]; unfold outL; rw [mem_freeList, neg_zero, sub_neg]; rfl
  have pU : ∀ {j}, j ∈ us → 0 < |I.ub j - S.s j| ∧ |I.ub j - S.s j| ≤ |extFree S.fr d j| := by
    intro j hj
    obtain ⟨a, b⟩ := hU.1 hj
    have := (hs j a).2 b
    rw [abs_of_pos (by linarith : 0 < I.ub j - S.s j)]
    exact ⟨by linarith, le_trans (by linarith) (le_abs_self _)⟩
  have pL : ∀ {j}, j ∈ ls → 0 < |I.lb j - S.s j| ∧ |I.lb j - S.s j| ≤ |extFree S.fr d j| := by
    intro j hj
    obtain ⟨a, b⟩ := hL.1 hj
    have := (hs j a).1 b
    rw [abs_of_neg (by linarith : I.lb j - S.s j < 0)]
    exact ⟨by linarith, le_trans (by linarith) (neg_le_abs _)⟩
  have hne : us ≠ [] ∨ ls ≠ [] := by
    obtain ⟨i, hi, he⟩ := hout
    unfold excess at he
    rcases lt_max_iff.1 he with h | h
    · exact Or.inl (List.ne_nil_of_mem (hU.2 ⟨hi, by linarith⟩))
    · exact Or.inr (List.ne_nil_of_mem (hL.2 ⟨hi, by linarith⟩))
  generalize hdb : (match minOf (fun i => |I.ub i - S.s i|) us, minOf (fun i => |I.lb i - S.s i|) ls with
    | some a, some b => min a b
    | some a, none => a
    | none, some b => b
    | none, none => 0) = db at hl
  have key : 0 < db ∧ ∃ i, db ≤ |extFree S.fr d i| := by
    cases hu : minOf (fun i => |I.ub i - S.s i|) us with
    | some a =>
      obtain ⟨_, i, hi, e⟩ := minOf_le hu
      obtain ⟨p, q⟩ := pU hi
      cases hv : minOf (fun i => |I.lb i - S.s i|) ls with
      | some b =>
        obtain ⟨_, j, hj, e'⟩ := minOf_le hv
        obtain ⟨p', q'⟩ := pL hj
        rw [hu, hv] at hdb
        rw [← hdb]
        exact ⟨lt_min (by rw [e]; exact p) (by rw [e']; exact p'), i, (min_le_left _ _).trans (by rw [e]; exact q)⟩
      | none =>
        rw [hu, hv] at hdb
        rw [← hdb]
        exact ⟨by dsimp only; rw [e]; exact p, i, by dsimp only; rw [e]; exact q⟩
    | none =>
      cases hv : minOf (fun i => |I.lb i - S.s i|) ls with
      | some b =>
        obtain ⟨_, j, hj, e'⟩ := minOf_le hv
        obtain ⟨p', q'⟩ := pL hj
        rw [hu, hv] at hdb
        rw [← hdb]
        exact ⟨by dsimp only; rw [e']; exact p', j, by dsimp only; rw [e']; exact q'⟩
      | none =>
        rcases hne with h | h
        · exact absurd (minOf_none hu) h
        · exact absurd (minOf_none hv) h
  obtain ⟨db0, i, hi⟩ := key
  have hup : S.lam ≤ k.nrm S.g / db + k.hb I.H := by
    set e := extFree S.fr d with he
    obtain ⟨n0, n1⟩ := hk.sq _ (ms_dot_self_nonneg e)
    obtain ⟨g0, _⟩ := hk.sq _ (ms_dot_self_nonneg S.g)
    change 0 ≤ k.nrm e at n0
    change k.nrm e * k.nrm e = e ⬝ᵥ e at n1
    change 0 ≤ k.nrm S.g at g0
    have hN : db ≤ k.nrm e := by
      refine hi.trans ?_
      refine abs_le_of_sq_le_sq ?_ n0
      rw [pow_two (k.nrm e), n1, dotProduct, pow_two]
      exact Finset.single_le_sum (f := fun j => e j * e j) (fun j _ => mul_self_nonneg _) (Finset.mem_univ i)
    have c1 := GoodBC.cs hk e S.g
    have c2 := GoodBC.cs hk e (I.H *ᵥ e)
    have eq : S.lam * (e ⬝ᵥ e) = -(e ⬝ᵥ S.g) + -(e ⬝ᵥ (I.H *ᵥ e)) := by
      have h1 := congrArg (fun v => d ⬝ᵥ v) hd
      simp only [add_mulVec, smul_mulVec, one_mulVec, dotProduct_add, dotProduct_smul, smul_eq_mul] at h1
      have ext : ∀ v : Fin n → K, e ⬝ᵥ v = d ⬝ᵥ fun j : S.fr => v j.1 := by
        intro v
        simp only [dotProduct]
        rw [← Finset.sum_subset (Finset.subset_univ S.fr) (fun j _ hj => by rw [he, extFree_not hj, zero_mul]),
          ← Finset.sum_coe_sort S.fr]
        refine Finset.sum_congr rfl fun j _ => ?_
        rw [he, extFree, dif_pos j.2]
      have ed : (fun j : S.fr => e j.1) = d := by
        funext j; rw [he, extFree, dif_pos j.2]
      have eH : (fun j : S.fr => (I.H *ᵥ e) j.1) = I.H.submatrix Subtype.val Subtype.val *ᵥ d := by
        funext j
        change (fun l => I.H j.1 l) ⬝ᵥ e = (fun l : S.fr => I.H j.1 l.1) ⬝ᵥ d
        rw [dotProduct_comm, ext, dotProduct_comm]
      rw [ext e, ed, ext S.g, ext (I.H *ᵥ e), eH]
      have : (d ⬝ᵥ fun j : S.fr => - S.g j.1) = -(d ⬝ᵥ fun j : S.fr => S.g j.1) := dotProduct_neg _ _
      rw [this] at h1
      linarith
    have c3 := mul_le_mul_of_nonneg_left (hhb e) n0
    have hN0 : 0 < k.nrm e := lt_of_lt_of_le db0 hN
    have c4 : k.nrm e * (S.lam * k.nrm e) ≤ k.nrm e * (k.nrm S.g + k.hb I.H * k.nrm e) := by
      calc _ = S.lam * (k.nrm e * k.nrm e) := by ring
        _ = _ := by rw [n1, eq]
        _ ≤ k.nrm e * k.nrm S.g + k.nrm e * (k.hb I.H * k.nrm e) := by linarith
        _ = _ := by ring
    have c5 := le_of_mul_le_mul_left c4 hN0
    have c6 : k.nrm S.g / k.nrm e ≤ k.nrm S.g / db := div_le_div_of_nonneg_left g0 db0 hN
    have c7 : S.lam ≤ k.nrm S.g / k.nrm e + k.hb I.H := by
      rw [← sub_le_iff_le_add, le_div_iff₀ hN0]
      linarith
    linarith
  split_ifs at hl with hfr
  · exact (C126_result k I _ S.g S.s 100 _ lam (fun a ha => (hk.sq a ha).2.le)
      ⟨h0, le_rfl, le_max_of_le_right (by
        cases hu : minOf (fun i => |I.ub i - S.s i|) us <;> cases hv : minOf (fun i => |I.lb i - S.s i|) ls <;>
          (simp only [hu, hv] at hdb ⊢; rw [hdb]; exact hup))⟩ hl).1
  · cases hl

/-- C126, the whole search.  For kernels that meet their specification and a norm bound `hb` of the matrix: if `d` solves
`(H + lambda*I)*d = -g` on the free variables, and `s + d` violates bounds that `s` does not reach, the search that starts from
`d` ends with a parameter that is at least `lambda`. -/
theorem C126_homotopy {k : BCKer K n} (hk : GoodBC k) (I : BCIn K n) (S : BCState K n) (d : S.fr → K) (hard : Bool)
    (hhb : ∀ v, k.nrm (I.H *ᵥ v) ≤ k.hb I.H * k.nrm v) (h0 : 0 ≤ S.lam)
    (hd : (I.H.submatrix Subtype.val Subtype.val + S.lam • (1 : Matrix S.fr S.fr K)) *ᵥ d = fun i => - S.g i.1)
    (hs : ∀ i ∈ S.fr, (S.s i + extFree S.fr d i < I.lb i → I.lb i < S.s i) ∧ (I.ub i < S.s i + extFree S.fr d i → S.s i < I.ub i))
    (hout : ∃ i ∈ S.fr, 0 < excess (I.lb i) (I.ub i) (S.s i + extFree S.fr d i)) :
    ∃ lam, (homotopy k I S (S.s + extFree S.fr d) hard).lam? = some lam ∧ S.lam ≤ lam := by
  have hin : insideAll I S.fr (S.s + extFree S.fr d) = false := by
    by_contra hc
    rw [Bool.not_eq_false] at hc
    obtain ⟨i, hi, he⟩ := hout
    obtain ⟨a, b⟩ := insideAll_iff hc hi
    rw [Pi.add_apply] at a b
    unfold excess at he
    rcases lt_max_iff.1 he with h | h <;> linarith
  have hne : S.fr.Nonempty := by
    obtain ⟨i, hi, _⟩ := hout
    exact ⟨i, hi⟩
  have spec := homotopy_spec k I S (S.s + extFree S.fr d) hard hne hin
  have ge := homotopy_ge hk I S d hard hhb h0 hd hs hout
  cases h : homotopy k I S (S.s + extFree S.fr d) hard with
  | undef => rw [h] at spec; exact spec.elim
  | found s' lam nf => exact ⟨lam, rfl, ge lam (by rw [h]; rfl)⟩
  | error4 lam nf => exact ⟨lam, rfl, ge lam (by rw [h]; rfl)⟩
  | limit lam nf => exact ⟨lam, rfl, ge lam (by rw [h]; rfl)⟩

/-- The passes of a call: the states of the main loop. -/
inductive Spec.BCPasses (k : BCKer K n) (I : BCIn K n) : BCState K n → Prop
  | start : BCPasses k I (bcStart I)
  | next {S T : BCState K n} (hS : BCPasses k I S) (hne : S.fr.Nonempty) (h : bcPass k I S = .next T) : BCPasses k I T

/-- C126, all searches of a call.  For kernels that meet their specification, a norm bound `hb` of the symmetric matrix, and
bounds that allow the zero step: in every pass of a call, if the step of the unconstrained solver is not a hard case and violates
a bound, no bound that it violates was reached before (so that `delta_b > 0`), and the search ends with a parameter that is at least that of this step. -/
theorem C126_search {k : BCKer K n} (hk : GoodBC k) (I : BCIn K n) (hH : ∀ i j, I.H i j = I.H j i)
    (hhb : ∀ v, k.nrm (I.H *ᵥ v) ≤ k.hb I.H * k.nrm v) (hΔ : 0 ≤ I.Δ0) (hε : 0 ≤ I.εD) (hε1 : I.εD ≤ 1)
    (hb : StepIn I.lb I.ub 0) {S T : BCState K n} {after : Fin n → K} (hS : BCPasses k I S) (hne : S.fr.Nonempty)
    (hstep : innerLoop k I n S = .step after false T)
    (hout : ∃ i ∈ T.fr, 0 < excess (I.lb i) (I.ub i) (after i)) :
    (∀ i ∈ T.fr, (after i < I.lb i → I.lb i < T.s i) ∧ (I.ub i < after i → T.s i < I.ub i)) ∧
      ∃ lam, (homotopy k I T after false).lam? = some lam ∧ T.lam ≤ lam := by
  have hlu : ∀ i, I.lb i ≤ I.ub i := fun i => (hb i).1.trans (hb i).2
  have e0 := epsBnd_pos (K := K)
  have inv : StepIn I.lb I.ub S.s ∧ 0 ≤ S.Δ ∧
      (S.s = 0 ∨ ∀ i ∈ S.fr, epsBnd < I.ub i - S.s i ∧ epsBnd < S.s i - I.lb i) := by
    clear hstep hne
    induction hS with
    | start => exact ⟨hb, hΔ, Or.inl rfl⟩
    | @next S T _ hne h ih =>
      have sp := bcPass_spec k I S hne
      rw [h] at sp
      obtain ⟨fr, st⟩ := sp.1.found
      refine ⟨st.step.inside hlu ih.1, sp.1.Δ0, Or.inr fun i hi => ?_⟩
      have := sp.1.frSub hi
      rw [Finset.mem_sdiff, nearBnd, Finset.mem_filter, not_and] at this
      have := this.2 (Finset.mem_univ i)
      rw [not_or, not_le, not_le] at this
      exact this
  obtain ⟨v1, v2, v3⟩ := inv
  have sp := innerLoop_spec k I n S hne (by simpa using Finset.card_le_univ S.fr)
  rw [hstep] at sp
  have hT : BCStepOf k I S n after false T := sp
  have hap : ∀ i ∈ T.fr, (after i < I.lb i → I.lb i < T.s i) ∧ (I.ub i < after i → T.s i < I.ub i) := by
    intro i hi
    rw [hT.s]
    rcases v3 with v3 | v3
    · have hc : i ∉ critBoth I T.fr after := by rw [hT.ncrit]; exact Finset.notMem_empty i
      unfold critBoth uCrit lCrit at hc
      rw [Finset.mem_union, Finset.mem_filter, Finset.mem_filter, not_or] at hc
      have t0 : (0 : K) < tinyBnd := by unfold tinyBnd; positivity
      rw [v3]
      refine ⟨fun ha => ?_, fun ha => ?_⟩
      · by_contra hn
        rw [Pi.zero_apply, not_lt] at hn
        exact hc.2 ⟨hi, by linarith, by linarith⟩
      · by_contra hn
        rw [Pi.zero_apply, not_lt] at hn
        exact hc.1 ⟨hi, by linarith, by linarith⟩
    · have := v3 i (hT.sub hi)
      exact ⟨fun _ => by linarith [this.2], fun _ => by linarith [this.1]⟩
  refine ⟨hap, ?_⟩
  have hreg := C42_step_in_region (hk.ms T.fr hT.ne) (fun i => S.g i.1) (I.H.submatrix Subtype.val Subtype.val) S.Δ I.εD
    (fun i j => hH i.1 j.1) v2 hε
  have hnz : (msCall k I S T.fr hT.ne).s ≠ 0 := by
    intro hz
    obtain ⟨i, hi, he⟩ := hout
    rw [hT.eq, hz] at he
    have : (S.s + extFree T.fr (0 : T.fr → K)) i = S.s i := by
      rw [Pi.add_apply, extFree, dif_pos hi, Pi.zero_apply, add_zero]
    rw [this] at he
    unfold excess at he
    rcases lt_max_iff.1 he with h | h <;> linarith [(v1 i).1, (v1 i).2]
  have hΔg : ¬ (S.Δ = 0 ∨ (fun i : T.fr => S.g i.1) ⬝ᵥ (fun i : T.fr => S.g i.1) < 1 / 10 ^ 12) :=
    fun hc => hnz (hreg.2.1 hc)
  rw [not_or, not_lt] at hΔg
  obtain ⟨_, _, acc⟩ := C61_global_minimiser (hk.ms T.fr hT.ne) (fun i => S.g i.1)
    (I.H.submatrix Subtype.val Subtype.val) S.Δ I.εD (fun i j => hH i.1 j.1) (lt_of_le_of_ne v2 (Ne.symm hΔg.1)) hε hε1
    hΔg.2 hT.hardEq.symm
  have heq : after = T.s + extFree T.fr (msCall k I S T.fr hT.ne).s := by rw [hT.s]; exact hT.eq
  have hlam : T.lam = (msCall k I S T.fr hT.ne).lam := hT.lam
  rw [heq] at hap hout ⊢
  refine C126_homotopy hk I T (msCall k I S T.fr hT.ne).s false hhb (by rw [hlam]; exact acc.lam) ?_ hap hout
  rw [hlam, hT.g]
  exact acc.stat

/-- A state of the search: interval `[0, 15]`, parameter `lam`. -/
def Ex.hom (lam : K) (n : ℕ) : HomState K n :=
  { lower := 0, upper := 15, lam := lam, back := false, hard := false, outs := true, act := false, initU := [], initL := []
    nfact := 0 }

/-- The new interval and parameter after a round. -/
def Ex.after (r : HomRes ℚ n ⊕ HomState ℚ n) : Option (ℚ × ℚ × ℚ) :=
  match r with
  | .inl _ => none
  | .inr T => some (T.lower, T.upper, T.lam)

/-- `C126_worst`, `C126_newton`: for `x^2/2 + y^2/2 - 3*x - 4*y` with `x ≤ 1` and `y ≤ 5/2` the step `(3, 4)` violates the bound of `x` most,
and the next parameter is the one for which `3/(1 + lambda) = 1`; with `y ≤ 1` it is that for which `4/(1 + lambda) = 1`. -/
example :
    Ex.after (homRound Ex.diagBC { Ex.bcA with ub := ![1, 5 / 2] } (Ex.diagBC.ms Finset.univ ⟨0, Finset.mem_univ _⟩) 0 ![3, 4]
      ![3, 4] 1 (Ex.hom 0 2)) = some (0, 15, 2) ∧
    Ex.after (homRound Ex.diagBC { Ex.bcA with ub := ![1, 1] } (Ex.diagBC.ms Finset.univ ⟨0, Finset.mem_univ _⟩) 0 ![3, 4]
      ![3, 4] 1 (Ex.hom 0 2)) = some (0, 15, 3) ∧
    excess (-1 : ℚ) (5 / 2) 4 < excess (-1 : ℚ) 1 3 ∧ excess (-1 : ℚ) 1 3 < excess (-1 : ℚ) 1 4 := by
  decide +kernel

/-- `C126_nearest`: with the parameter 5 the step `(1/2, 2/3)` is within the bounds 1 of both variables; the bound of `y` is closer and gives the
next parameter, and 5 becomes the upper end. -/
example :
    Ex.after (homRound Ex.diagBC { Ex.bcA with ub := ![1, 1] } (Ex.diagBC.ms Finset.univ ⟨0, Finset.mem_univ _⟩) 0 ![1 / 2, 2 / 3]
      ![1 / 2, 2 / 3] (Matrix.diagonal fun _ => 2) { Ex.hom 5 2 with initU := [0, 1] }) = some (0, 5, 11 / 3) := by
  decide +kernel

/-- The conditions of `C126_newton` for `x^2/2 - 3*x` with `x ≤ 1`. -/
example : (homUpdate Ex.diagBC (Ex.diagBC.ms Finset.univ ⟨0, Finset.mem_univ _⟩) 1 (fun _ => 3) ⟨0, 3, 1, 1⟩ false
    (Ex.hom 0 1)).lam = (2 : ℚ) := by
  have e := (C126_newton Ex.diagBC (Ex.diagBC.ms Finset.univ ⟨0, Finset.mem_univ _⟩) 1 (fun _ => 1) (fun _ => -3) (fun _ => 3)
    (fun _ => 0) ⟨(0 : Fin 1), Finset.mem_univ _⟩ 1 ⟨0, 3, 1, 1⟩ false (Ex.hom 0 1) 0 15
    ⟨rfl, by decide +kernel, by decide +kernel, by decide +kernel⟩ (by decide +kernel) (by decide +kernel)
    (by
      intro v
      rw [transpose_one, one_mulVec]
      funext j
      change v j / (1 : Matrix _ _ ℚ) j j = v j
      rw [one_apply_eq, div_one])
    (by decide +kernel) (by decide +kernel) (by decide +kernel) rfl rfl (by decide +kernel)).1
  rw [e]
  decide +kernel

/-- `C126_interval` with a failed factorisation: the interval becomes `[1, 15]` and the parameter 8. -/
example (I : BCIn ℝ 1) (fr : Finset (Fin 1)) (h : fr.Nonempty) :
    ∃ T, Rounds Ex.realBC I (Ex.realBC.ms fr h) 0 0 1 (Ex.hom 1 1) T ∧ Bracket (Ex.hom (1 : ℝ) 1) ∧ T.lower = 1 ∧ T.lam = 8 ∧
      Bracket T := by
  have hb : Bracket (Ex.hom (1 : ℝ) 1) := ⟨le_rfl, by simp [Ex.hom], by simp [Ex.hom]⟩
  have hr : Rounds Ex.realBC I (Ex.realBC.ms fr h) 0 0 1 (Ex.hom 1 1) _ :=
    .succ (.fail (by
      have := h.to_subtype
      exact fun hc => Ex.realKer_good.noNan _ hc)) (.zero _)
  exact ⟨_, hr, hb, rfl, by simp [Ex.hom]; norm_num,
    (C126_interval (fun a ha => (Ex.realBC_good.sq a ha).2.le) hr hb).1⟩

/-- `C126_homotopy`: `x^2/2 - 3*x` with `-1 ≤ x ≤ 1`; with the parameter 1 the step is `3/2`. -/
example : ∃ lam, (homotopy Ex.realBC { g0 := ![-3], H := !![1], lb := ![-1], ub := ![1], Δ0 := 3 / 2, εD := 1 / 10 }
      { s := ![0], g := ![-3], fr := {0}, Δ := 3 / 2, lam := 1, norms := 0, value := 0, gplus := ![-3], nfact := 0, neigd := 0,
        msg := .noFree } (![0] + extFree {0} fun _ => 3 / 2) false).lam? = some lam ∧ (1 : ℝ) ≤ lam := by
  refine C126_homotopy Ex.realBC_good
    { g0 := ![-3], H := !![1], lb := ![-1], ub := ![1], Δ0 := 3 / 2, εD := 1 / 10 }
    { s := ![0], g := ![-3], fr := {0}, Δ := 3 / 2, lam := 1, norms := 0, value := 0, gplus := ![-3], nfact := 0, neigd := 0,
        msg := .noFree } (fun _ => 3 / 2) false ?_ zero_le_one ?_ ?_ ?_
  · intro v
    have e : (!![1] : Matrix (Fin 1) (Fin 1) ℝ) = 1 := by ext i j; fin_cases i; fin_cases j; rfl
    simp [BCKer.nrm, Ex.realBC, e]
  · funext i
    obtain ⟨i, hi⟩ := i
    have : i = 0 := Subsingleton.elim _ _
    subst this
    rw [add_mulVec, smul_mulVec, one_mulVec]
    simp [mulVec, dotProduct]
  · intro i _
    have : i = 0 := Subsingleton.elim _ _
    subst this
    simp
  · refine ⟨0, by simp, ?_⟩
    simp [excess, extFree]
    norm_num

/-- The matrix with entries 1. -/
def Ex.ones {ι : Type} : Matrix ι ι ℝ := Matrix.of fun _ _ => 1

/-- The unconstrained solver for `x^2/2 - 3*x` in a ball of radius 10. -/
theorem Ex.real_three {ι : Type} [Fintype ι] [DecidableEq ι] [Unique ι] :
    (trms (Ex.realKer (ι := ι)) (fun _ => -3) Ex.ones 10 (1 / 1000)).s = (fun _ => 3) ∧
    (trms (Ex.realKer (ι := ι)) (fun _ => -3) Ex.ones 10 (1 / 1000)).hard = false := by
  have hg : Ex.realKer.nrm (fun _ : ι => (-3 : ℝ)) = 3 :=
    GoodKer.nrm_eq Ex.realKer_good _ 3 (by norm_num) (by simp [dotProduct])
  have hb : (Ex.realKer (ι := ι)).hb Ex.ones = 1 := by
    change √(∑ i : ι, ∑ j : ι, (1 : ℝ) ^ 2) = 1
    simp
  have hl : (msStart Ex.realKer (fun _ : ι => (-3 : ℝ)) Ex.ones 10).lam = 0 := by
    unfold msStart
    simp only
    rw [hg, hb, if_pos (by norm_num)]
  obtain ⟨R, hR⟩ := Ex.realKer_chol (ι := ι) (Ex.ones + (0 : ℝ) • (1 : Matrix ι ι ℝ)) (by
      intro i j
      simp [Ex.ones, Matrix.add_apply]) (by
      intro v hv
      have h0 : v default ≠ 0 := by
        intro h
        apply hv
        funext i
        rw [Subsingleton.elim i default]; exact h
      simp only [Ex.ones, Matrix.of_apply, zero_smul, add_zero, dotProduct, mulVec, Finset.univ_unique, Finset.sum_singleton]
      nlinarith [mul_self_pos.2 h0])
  have hst := msSolve_stat Ex.realKer_good (fun _ : ι => (-3 : ℝ)) _ R (by
      intro i j
      simp [Ex.ones, Matrix.add_apply]) hR
  have hs : Ex.realKer.solve (-R) (Ex.realKer.solve Rᵀ (fun _ : ι => (-3 : ℝ))) = fun _ => 3 := by
    funext i
    have := congrFun hst.1 i
    rw [Subsingleton.elim i default] at this ⊢
    simp only [Ex.ones, Matrix.of_apply, zero_smul, add_zero, dotProduct, mulVec, Finset.univ_unique, Finset.sum_singleton,
      Pi.neg_apply] at this
    linarith
  have hn : Ex.realKer.nrm (fun _ : ι => (3 : ℝ)) = 3 :=
    GoodKer.nrm_eq Ex.realKer_good _ 3 (by norm_num) (by simp [dotProduct])
  unfold trms
  rw [if_neg (by norm_num), hg, if_neg (by unfold epsMS; norm_num)]
  rw [msLoop_accept 299 (by rw [hl]; exact hR) (by
    simp only [msSolve, hs, hn, hl]
    exact ⟨by unfold epsMS; positivity, by norm_num⟩)]
  simp only [msAccept, msSolve, hs]
  exact ⟨trivial, trivial⟩

/-- `x^2/2 - 3*x` with `-1 ≤ x ≤ 1`. -/
noncomputable def Ex.bcOne : BCIn ℝ 1 where
  g0 := fun _ => -3
  H := Ex.ones
  lb := fun _ => -1
  ub := fun _ => 1
  Δ0 := 10
  εD := 1 / 1000

/-- The conditions of `C126_search` for `x^2/2 - 3*x` with `-1 ≤ x ≤ 1`: the first step is 3. -/
example : ∃ T after, innerLoop Ex.realBC Ex.bcOne 1 (bcStart Ex.bcOne) = .step after false T ∧ after 0 = 3 ∧
    ∃ lam, (homotopy Ex.realBC Ex.bcOne T after false).lam? = some lam ∧ T.lam ≤ lam := by
  have hfr : (bcStart Ex.bcOne).fr = {0} := by
    change Finset.univ \ gCrit Ex.bcOne Finset.univ Ex.bcOne.g0 = {0}
    ext i
    have : i = 0 := Subsingleton.elim _ _
    subst this
    refine ⟨fun _ => Finset.mem_singleton_self 0, fun _ => Finset.mem_sdiff.2 ⟨Finset.mem_univ 0, fun h => ?_⟩⟩
    rw [gCrit, Finset.mem_filter] at h
    obtain ⟨_, h | h⟩ := h
    · have := h.1; norm_num [Ex.bcOne] at this
    · have := h.2; norm_num [Ex.bcOne, tinyBnd] at this
  have hne : (bcStart Ex.bcOne).fr.Nonempty := by rw [hfr]; exact ⟨0, Finset.mem_singleton_self 0⟩
  have hH : ∀ v, Ex.realBC.nrm (Ex.bcOne.H *ᵥ v) ≤ Ex.realBC.hb Ex.bcOne.H * Ex.realBC.nrm v := by
    intro v
    have e : Ex.bcOne.H *ᵥ v = v := by
      funext i
      have : i = 0 := Subsingleton.elim _ _
      subst this
      simp [mulVec, dotProduct, Ex.bcOne, Ex.ones]
    rw [e]
    simp [Ex.realBC, Ex.bcOne, Ex.ones]
  have hb : StepIn Ex.bcOne.lb Ex.bcOne.ub 0 := fun i => by simp [Ex.bcOne]
  have sp := innerLoop_spec Ex.realBC Ex.bcOne 1 (bcStart Ex.bcOne) hne (by rw [hfr]; simp)
  cases hX : innerLoop Ex.realBC Ex.bcOne 1 (bcStart Ex.bcOne) with
  | more => rw [hX] at sp; exact sp.elim
  | ret o =>
    rw [hX] at sp
    have := sp.2.2.2.2.2.2 0 (by rw [hfr]; exact Finset.mem_singleton_self 0)
    unfold OwnBound Ex.bcOne at this
    rcases this with h | h <;> norm_num at h
  | step after hard T =>
    rw [hX] at sp
    have hT : BCStepOf Ex.realBC Ex.bcOne (bcStart Ex.bcOne) 1 after hard T := sp
    have hTfr : T.fr = {0} := by
      obtain ⟨i, hi⟩ := hT.ne
      have : i = 0 := Subsingleton.elim _ _
      subst this
      exact Finset.Subset.antisymm (hfr ▸ hT.sub) (Finset.singleton_subset_iff.2 hi)
    have h0 : (0 : Fin 1) ∈ T.fr := by rw [hTfr]; exact Finset.mem_singleton_self 0
    let _ : Unique T.fr := ⟨⟨⟨0, h0⟩⟩, fun x => Subsingleton.elim _ _⟩
    obtain ⟨a, b⟩ := Ex.real_three (ι := T.fr)
    have hms : msCall Ex.realBC Ex.bcOne (bcStart Ex.bcOne) T.fr hT.ne =
      trms (Ex.realKer (ι := T.fr)) (fun _ => -3) Ex.ones 10 (1 / 1000) := rfl
    have hhard : hard = false := by rw [hT.hardEq, hms, b]
    have haft : after 0 = 3 := by
      rw [hT.eq, hms, a, Pi.add_apply, extFree, dif_pos h0]
      change (0 : ℝ) + 3 = 3
      norm_num
    subst hhard
    refine ⟨T, after, rfl, haft, (C126_search Ex.realBC_good Ex.bcOne (fun _ _ => rfl) hH ?_ ?_ ?_ hb .start hne hX
      ⟨0, h0, ?_⟩).2⟩
    · norm_num [Ex.bcOne]
    · norm_num [Ex.bcOne]
    · norm_num [Ex.bcOne]
    · rw [haft]
      norm_num [excess, Ex.bcOne]

#print axioms C126_worst
#print axioms C126_nearest
#print axioms C126_violated
#print axioms C126_newton
#print axioms C126_interval
#print axioms C126_loop
#print axioms C126_result
#print axioms C126_homotopy
#print axioms C126_search

end Sqpdfo
