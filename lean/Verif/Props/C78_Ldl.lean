import Verif.Model.Ldl
import Mathlib.LinearAlgebra.Matrix.Block
import Mathlib.Tactic.Ring
import Mathlib.Tactic.FieldSimp
import Mathlib.Tactic.Linarith
import Mathlib.Tactic.Positivity
import Mathlib.Tactic.FinCases

/-! # C78: updates of `L D Lᵀ` factorisations -/

set_option linter.unusedSectionVars false

namespace Sqpdfo
open Matrix Finset
variable {K : Type} [Field K] [LinearOrder K] [IsStrictOrderedRing K] {ι : Type} [Fintype ι] [LinearOrder ι]

/-- Unit lower triangular. -/
structure Spec.UnitLower (L : ι → ι → K) : Prop where
  diag : ∀ i, L i i = 1
  upper : ∀ i j, i < j → L i j = 0

/-- The product `L diag(d) Lᵀ`. -/
def Spec.ldlt (L : ι → ι → K) (d : ι → K) : ι → ι → K := fun a b => ∑ m, L a m * d m * L b m

/-- The quadratic form. -/
def Spec.qform (A : ι → ι → K) (p : ι → K) : K := ∑ a, ∑ b, p a * A a b * p b

/-- No fill-in at indices where `u` vanishes. -/
def Spec.Closed (L : ι → ι → K) (u : ι → K) : Prop := ∀ k i, k < i → u k ≠ 0 → u i = 0 → L i k = 0

/-- The contract of `numpy.linalg.solve`. -/
def Spec.SolvesAll (slv : Solver K) : Prop := ∀ (κ : Type) [Fintype κ] [LinearOrder κ] (A : κ → κ → K) (b : κ → K),
  IsUnit (Matrix.of A).det → ∀ i, ∑ k, A i k * slv.run κ A b k = b i

open Spec

theorem UnitLower.det {L : ι → ι → K} (h : UnitLower L) : (Matrix.of L).det = 1 := by
  rw [det_of_lowerTriangular (Matrix.of L) fun i j hij => h.upper i j hij]
  exact prod_eq_one fun i _ => h.diag i

theorem UnitLower.det_tr {L : ι → ι → K} (h : UnitLower L) : IsUnit (Matrix.of fun a b => L b a).det := by
  have e : (Matrix.of fun a b => L b a) = (Matrix.of L)ᵀ := rfl
  rw [e, det_transpose, UnitLower.det h]
  exact isUnit_one

theorem UnitLower.sub {L : ι → ι → K} (h : UnitLower L) (P : ι → Prop) [DecidablePred P] :
    UnitLower (fun a b : {i // P i} => L a.1 b.1) :=
  ⟨fun i => h.diag i.1, fun i j hij => h.upper i.1 j.1 hij⟩

theorem qform_ldlt (L : ι → ι → K) (d p : ι → K) : qform (ldlt L d) p = ∑ m, d m * (∑ a, L a m * p a) ^ 2 := by
  unfold qform ldlt
  have : ∀ m, d m * (∑ a, L a m * p a) ^ 2 = ∑ a, ∑ b, p a * (L a m * d m * L b m) * p b := by
    intro m
    rw [pow_two, sum_mul_sum, mul_sum]
    refine sum_congr rfl fun a _ => ?_
    rw [mul_sum]
    exact sum_congr rfl fun b _ => by ring
  simp only [this]
  conv_rhs => rw [sum_comm]
  refine sum_congr rfl fun a _ => ?_
  conv_rhs => rw [sum_comm]
  refine sum_congr rfl fun b _ => ?_
  rw [mul_sum, sum_mul]

theorem qform_add_rank1 (A : ι → ι → K) (alpha : K) (u p : ι → K) :
    qform (fun a b => A a b + alpha * u a * u b) p = qform A p + alpha * (∑ a, u a * p a) ^ 2 := by
  unfold qform
  rw [pow_two, sum_mul_sum, mul_sum, ← sum_add_distrib]
  refine sum_congr rfl fun a _ => ?_
  rw [mul_sum, ← sum_add_distrib]
  exact sum_congr rfl fun b _ => by ring

/-- The direction solves `Lᵀ p = e_k` and ends at `k`. -/
theorem negDir_spec {slv : Solver K} (hslv : SolvesAll slv) {L : ι → ι → K} (hL : UnitLower L) (k : ι) :
    (∀ i, k < i → negDir slv L k i = 0) ∧ (∀ m, ∑ a, L a m * negDir slv L k a = if m = k then 1 else 0) ∧ negDir slv L k k = 1 := by
  have h1 : ∀ i, k < i → negDir slv L k i = 0 := fun i hi => by unfold negDir; rw [dif_neg (not_le.2 hi)]
  have hdet := UnitLower.det_tr (UnitLower.sub hL fun a => a ≤ k)
  have hs := hslv {a // a ≤ k} _ (fun a => if a.1 = k then 1 else 0) hdet
  have h2 : ∀ m, ∑ a, L a m * negDir slv L k a = if m = k then 1 else 0 := by
    intro m
    by_cases hm : m ≤ k
    · have := hs ⟨m, hm⟩
      rw [← Fintype.sum_subtype_add_sum_subtype (fun a => a ≤ k),
        sum_eq_zero (s := univ) (f := fun a : {a // ¬ a ≤ k} => L a.1 m * negDir slv L k a.1)
          (fun a _ => by rw [h1 a.1 (not_le.1 a.2), mul_zero]), add_zero]
      rw [← this]
      refine sum_congr rfl fun a _ => ?_
      unfold negDir
      rw [dif_pos a.2]
    · rw [if_neg (fun h => hm h.le)]
      refine sum_eq_zero fun a _ => ?_
      rcases le_or_gt a k with h | h
      · rw [hL.upper a m (lt_of_le_of_lt h (not_le.1 hm)), zero_mul]
      · rw [h1 a h, mul_zero]
  refine ⟨h1, h2, ?_⟩
  have := h2 k
  rw [if_pos rfl, sum_eq_single k, hL.diag, one_mul] at this
  · exact this
  · intro a _ ha
    rcases lt_or_gt_of_ne ha with h | h
    · rw [hL.upper a k h, zero_mul]
    · rw [h1 a h, mul_zero]
  · simp

/-- The loop. -/
theorem rk1Loop_spec {neps : K} (hn : 0 < neps) {slv : Solver K} (hslv : SolvesAll slv) {L0 : ι → ι → K} {d0 : ι → K} {A : ι → ι → K} :
    ∀ (ks : List ι) (L : ι → ι → K) (d : ι → K) (alpha : K) (u : ι → K), ks.Pairwise (· < ·) → UnitLower L → (∀ i, 0 < d i) →
      alpha ≠ 0 → (∀ i, i ∉ ks → u i = 0) → (∀ k ∈ ks, ∀ i, i ∉ ks → k < i → L i k = 0) →
      (∀ a b, ldlt L d a b + alpha * u a * u b = A a b) →
      let F := rk1Loop neps slv L0 d0 ks L d alpha u
      (F.p = none → UnitLower F.L ∧ (∀ i, 0 < F.d i) ∧ ldlt F.L F.d = A) ∧
      (∀ p, F.p = some p → alpha < 0 ∧ F.L = L0 ∧ F.d = d0 ∧ p ≠ 0 ∧ qform A p ≤ neps)
  | [], L, d, alpha, u, _, hL, hd, _, hu, _, hA => by
    refine ⟨fun _ => ⟨hL, hd, ?_⟩, fun p hp => by cases hp⟩
    funext a b
    rw [← hA a b, hu a (by simp), mul_zero, zero_mul, add_zero]
    rfl
  | k :: ks, L, d, alpha, u, hs, hL, hd, ha, hu, hc, hA => by
    have hk : ∀ i ∈ ks, k < i := (List.pairwise_cons.1 hs).1
    have hlow : ∀ i, i < k → u i = 0 := by
      intro i hi
      refine hu i fun hm => ?_
      rcases List.mem_cons.1 hm with h | h
      · exact absurd hi (h ▸ lt_irrefl _)
      · exact lt_asymm hi (hk i h)
    unfold rk1Loop
    simp only
    by_cases hf : alpha < 0 ∧ d k + alpha * u k ^ 2 ≤ neps
    · rw [if_pos hf]
      refine ⟨fun h => (by cases h), fun p hp => ?_⟩
      obtain ⟨n1, n2, n3⟩ := negDir_spec hslv hL k
      injection hp with hp
      subst hp
      refine ⟨hf.1, rfl, rfl, fun h0 => ?_, ?_⟩
      · rw [h0] at n3
        exact zero_ne_one n3
      · have hA' : A = fun a b => ldlt L d a b + alpha * u a * u b := by funext a b; exact (hA a b).symm
        rw [hA', qform_add_rank1, qform_ldlt]
        have e1 : ∑ m, d m * (∑ a, L a m * negDir slv L k a) ^ 2 = d k := by
          rw [sum_eq_single k]
          · rw [n2, if_pos rfl]; ring
          · intro m _ hm
            rw [n2, if_neg hm]; ring
          · simp
        have e2 : ∑ a, u a * negDir slv L k a = u k := by
          rw [sum_eq_single k]
          · rw [n3, mul_one]
          · intro a _ ha'
            rcases lt_or_gt_of_ne ha' with h | h
            · rw [hlow a h, zero_mul]
            · rw [n1 a h, mul_zero]
          · simp
        rw [e1, e2]
        exact hf.2
    · rw [if_neg hf]
      have hδ : 0 < d k + alpha * u k ^ 2 := by
        rcases lt_or_gt_of_ne ha with h | h
        · exact lt_trans hn (not_le.1 fun h' => hf ⟨h, h'⟩)
        · exact add_pos_of_pos_of_nonneg (hd k) (mul_nonneg h.le (sq_nonneg _))
      generalize hδe : d k + alpha * u k ^ 2 = δ at *
      have hq : alpha * (d k / δ) ≠ 0 := mul_ne_zero ha (div_pos (hd k) hδ).ne'
      rw [if_neg hq]
      have hδ0 := hδ.ne'
      have ih := rk1Loop_spec hn hslv (L0 := L0) (d0 := d0) (A := A) ks
        (fun i j => if k ≤ i ∧ j = k then L i k * (d k / δ) + alpha * u k / δ * u i else L i j) (Function.update d k δ)
        (alpha * (d k / δ)) (fun i => if k ≤ i then u i - L i k * u k else u i) (List.pairwise_cons.1 hs).2 ⟨?_, ?_⟩ ?_ hq ?_ ?_ ?_
      · refine ⟨ih.1, fun p hp => ?_⟩
        obtain ⟨h1, h2⟩ := ih.2 p hp
        refine ⟨?_, h2⟩
        by_contra hcon
        exact absurd h1 (not_lt.2 (mul_nonneg (not_lt.1 hcon) (div_pos (hd k) hδ).le))
      · intro i
        by_cases hi : i = k
        · subst hi
          rw [if_pos ⟨le_rfl, rfl⟩, hL.diag]
          field_simp
          rw [← hδe]
        · rw [if_neg fun h => hi h.2]
          exact hL.diag i
      · intro i j hij
        by_cases h : k ≤ i ∧ j = k
        · exact absurd hij (by rw [h.2]; exact not_lt.2 h.1)
        · rw [if_neg h]
          exact hL.upper i j hij
      · intro i
        by_cases hi : i = k
        · subst hi
          rw [Function.update_self]; exact hδ
        · rw [Function.update_of_ne hi]; exact hd i
      · intro i hi
        by_cases hik : i = k
        · subst hik
          rw [if_pos le_rfl, hL.diag]; ring
        · have hni : i ∉ k :: ks := fun h => (List.mem_cons.1 h).elim hik hi
          rcases le_or_gt k i with h | h
          · rw [if_pos h, hu i hni, hc k List.mem_cons_self i hni (lt_of_le_of_ne h (Ne.symm hik))]; ring
          · rw [if_neg (not_le.2 h), hu i hni]
      · intro k' hk' i hi hlt
        have hne : k' ≠ k := (hk k' hk').ne'
        rw [if_neg fun h => hne h.2]
        refine hc k' (List.mem_cons_of_mem _ hk') i (fun h => ?_) hlt
        rcases List.mem_cons.1 h with h | h
        · exact lt_asymm hlt (h ▸ hk k' hk')
        · exact hi h
      · intro a b
        rw [← hA a b]
        unfold ldlt
        rw [← add_sum_erase _ _ (mem_univ k), ← add_sum_erase _ (fun m => L a m * d m * L b m) (mem_univ k)]
        have e : ∑ m ∈ univ.erase k, ((if k ≤ a ∧ m = k then L a k * (d k / δ) + alpha * u k / δ * u a else L a m) * Function.update d k δ m *
            (if k ≤ b ∧ m = k then L b k * (d k / δ) + alpha * u k / δ * u b else L b m)) = ∑ m ∈ univ.erase k, L a m * d m * L b m := by
          refine sum_congr rfl fun m hm => ?_
          have hm' : m ≠ k := (mem_erase.1 hm).1
          rw [if_neg fun h => hm' h.2, if_neg fun h => hm' h.2, Function.update_of_ne hm']
        rw [e, Function.update_self]
        simp only [and_true]
        have hda : d k = δ - alpha * u k ^ 2 := by rw [← hδe]; ring
        rcases le_or_gt k a with h | h
        · rcases le_or_gt k b with h' | h'
          · simp only [if_pos h, if_pos h', hda]
            field_simp
            ring
          · simp only [if_pos h, if_neg (not_le.2 h'), hlow b h', hL.upper b k h']
            ring
        · simp only [if_neg (not_le.2 h), hlow a h, hL.upper a k h]
          ring

/-- **C78 (rank-one updates).** Full claim: *`ldlrk1` returns unit triangular and positive diagonal factors of `L D Lᵀ + alpha u uᵀ`, or the old
factors and a nonzero direction in which the new matrix has curvature at most `neps`*.  It holds if no fill-in occurs at indices where `u` vanishes;
in general it is false, see `C78_rank_one_false`. -/
theorem C78_rank_one_partial {neps : K} (hn : 0 < neps) {slv : Solver K} (hslv : SolvesAll slv) {L : ι → ι → K} {d : ι → K}
    (hL : UnitLower L) (hd : ∀ i, 0 < d i) {alpha : K} (ha : alpha ≠ 0) {u : ι → K} (hc : Closed L u) :
    ∃ F, ldlrk1 neps slv L d alpha u = some F ∧
      (F.p = none → UnitLower F.L ∧ (∀ i, 0 < F.d i) ∧ ∀ a b, ldlt F.L F.d a b = ldlt L d a b + alpha * u a * u b) ∧
      (∀ p, F.p = some p → alpha < 0 ∧ F.L = L ∧ F.d = d ∧ p ≠ 0 ∧ qform (fun a b => ldlt L d a b + alpha * u a * u b) p ≤ neps) := by
  refine ⟨_, by unfold ldlrk1; rw [if_neg ha], ?_⟩
  have hmem : ∀ i, i ∈ (univ.filter fun k => u k ≠ 0).sort (· ≤ ·) ↔ u i ≠ 0 := fun i => by rw [mem_sort, mem_filter]; simp
  have h := rk1Loop_spec hn hslv (L0 := L) (d0 := d) (A := fun a b => ldlt L d a b + alpha * u a * u b)
    ((univ.filter fun k => u k ≠ 0).sort (· ≤ ·)) L d alpha u (sortedLT_sort _).pairwise hL hd ha
    (fun i hi => not_not.1 fun h => hi ((hmem i).2 h))
    (fun k hk i hi hlt => hc k i hlt ((hmem k).1 hk) (not_not.1 fun h => hi ((hmem i).2 h))) (fun a b => rfl)
  exact ⟨fun hp => ⟨(h.1 hp).1, (h.1 hp).2.1, fun a b => by rw [(h.1 hp).2.2]⟩, h.2⟩

/-! ## Blocks -/

theorem sum3 (j : ι) (f : ι → K) : ∑ k, f k = ∑ k : {i // i < j}, f k.1 + f j + ∑ k : {i // j < i}, f k.1 := by
  rw [← Fintype.sum_subtype_add_sum_subtype (fun a => a < j), add_assoc]
  congr 1
  have h1 : ∑ k : {i // ¬ i < j}, f k.1 = ∑ k ∈ univ.filter (fun i => ¬ i < j), f k :=
    (sum_subtype (univ.filter fun i => ¬ i < j) (fun x => by simp) f).symm
  have h2 : ∑ k : {i // j < i}, f k.1 = ∑ k ∈ univ.filter (fun i => j < i), f k :=
    (sum_subtype (univ.filter fun i => j < i) (fun x => by simp) f).symm
  rw [h1, h2, ← add_sum_erase (univ.filter fun i => ¬ i < j) f (a := j) (by simp)]
  congr 1
  refine sum_congr ?_ fun _ _ => rfl
  ext x
  simp only [mem_erase, mem_filter, mem_univ, true_and, not_lt]
  exact ⟨fun h => lt_of_le_of_ne h.2 (Ne.symm h.1), fun h => ⟨h.ne', h.le⟩⟩

/-- `L` with new row and column `j` and a new last block. -/
def upL (L : ι → ι → K) (j : ι) (v : {i // i < j} → K) (w : {i // j < i} → K) (M : {i // j < i} → {i // j < i} → K) : ι → ι → K :=
  fun a b => if h : j < a then (if h' : j < b then M ⟨a, h⟩ ⟨b, h'⟩ else if b = j then w ⟨a, h⟩ else L a b)
    else if a = j then (if h' : b < j then v ⟨b, h'⟩ else if b = j then 1 else L a b) else L a b

/-- `d` with a new entry `j` and a new last part. -/
def upd (d : ι → K) (j : ι) (delta : K) (e : {i // j < i} → K) : ι → K :=
  fun a => if h : j < a then e ⟨a, h⟩ else if a = j then delta else d a

section blocks
variable {L : ι → ι → K} (hL : UnitLower L) {d : ι → K} {j : ι} {v : {i // i < j} → K} {w : {i // j < i} → K}
  {M : {i // j < i} → {i // j < i} → K} {delta : K} {e : {i // j < i} → K}

theorem upL_lt (a b : ι) (h : a < j) : upL L j v w M a b = L a b := by
  unfold upL
  rw [dif_neg (not_lt.2 h.le), if_neg h.ne]

theorem upL_jlt (b : {i // i < j}) : upL L j v w M j b = v b := by
  unfold upL
  rw [dif_neg (lt_irrefl _), if_pos rfl, dif_pos b.2]

theorem upL_jj : upL L j v w M j j = 1 := by
  unfold upL
  rw [dif_neg (lt_irrefl _), if_pos rfl, dif_neg (lt_irrefl _), if_pos rfl]

theorem upL_jgt (hL : UnitLower L) (b : {i // j < i}) : upL L j v w M j b = 0 := by
  unfold upL
  rw [dif_neg (lt_irrefl _), if_pos rfl, dif_neg (not_lt.2 b.2.le), if_neg b.2.ne']
  exact hL.upper _ _ b.2

theorem upL_gtlt (a : {i // j < i}) (b : {i // i < j}) : upL L j v w M a b = L a b := by
  unfold upL
  rw [dif_pos a.2, dif_neg (not_lt.2 b.2.le), if_neg b.2.ne]

theorem upL_gtj (a : {i // j < i}) : upL L j v w M a j = w a := by
  unfold upL
  rw [dif_pos a.2, dif_neg (lt_irrefl _), if_pos rfl]

theorem upL_gtgt (a b : {i // j < i}) : upL L j v w M a b = M a b := by
  unfold upL
  rw [dif_pos a.2, dif_pos b.2]

theorem upL_unit (hL : UnitLower L) (hM : UnitLower M) : UnitLower (upL L j v w M) := by
  constructor
  · intro i
    rcases lt_trichotomy i j with h | h | h
    · rw [upL_lt _ _ h]; exact hL.diag i
    · rw [h]; exact upL_jj
    · exact (upL_gtgt ⟨i, h⟩ ⟨i, h⟩).trans (hM.diag _)
  · intro i k hik
    rcases lt_trichotomy i j with h | h | h
    · rw [upL_lt _ _ h]; exact hL.upper i k hik
    · rw [h] at hik ⊢
      exact upL_jgt hL ⟨k, hik⟩
    · exact (upL_gtgt ⟨i, h⟩ ⟨k, h.trans hik⟩).trans (hM.upper _ _ hik)

theorem upd_lt (a : {i // i < j}) : upd d j delta e a = d a := by
  unfold upd
  rw [dif_neg (not_lt.2 a.2.le), if_neg a.2.ne]

theorem upd_j : upd d j delta e j = delta := by
  unfold upd
  rw [dif_neg (lt_irrefl _), if_pos rfl]

theorem upd_gt (a : {i // j < i}) : upd d j delta e a = e a := by
  unfold upd
  rw [dif_pos a.2]

theorem upd_pos (hd : ∀ i, 0 < d i) (hδ : 0 < delta) (he : ∀ i, 0 < e i) (i : ι) : 0 < upd d j delta e i := by
  unfold upd
  split_ifs
  · exact he _
  · exact hδ
  · exact hd i

/-- The quadratic form of the new factors. -/
theorem qform_up (hL : UnitLower L) (p : ι → K) :
    qform (ldlt (upL L j v w M) (upd d j delta e)) p =
      ∑ m : {i // i < j}, d m * (∑ a : {i // i < j}, L a m * p a + v m * p j + ∑ a : {i // j < i}, L a m * p a) ^ 2 +
      delta * (p j + ∑ a : {i // j < i}, w a * p a) ^ 2 + qform (ldlt M e) (fun a => p a) := by
  rw [qform_ldlt, qform_ldlt, sum3 j]
  congr 1
  · congr 1
    · refine sum_congr rfl fun m _ => ?_
      rw [upd_lt, sum3 j, upL_jlt]
      simp only [upL_gtlt]
      congr 4
      exact sum_congr rfl fun a _ => by rw [upL_lt _ _ a.2]
    · rw [upd_j, sum3 j, upL_jj, one_mul]
      simp only [upL_gtj]
      rw [sum_eq_zero (s := univ) (f := fun a : {i // i < j} => upL L j v w M a j * p a), zero_add]
      intro a _
      rw [upL_lt _ _ a.2, hL.upper _ _ a.2, zero_mul]
  · refine sum_congr rfl fun m _ => ?_
    rw [upd_gt, sum3 j, upL_jgt hL, zero_mul, add_zero]
    simp only [upL_gtgt]
    rw [sum_eq_zero (s := univ) (f := fun a : {i // i < j} => upL L j v w M a m * p a), zero_add]
    intro a _
    rw [upL_lt _ _ a.2, hL.upper _ _ (a.2.trans m.2), zero_mul]

/-- The blocks of the product of the new factors. -/
theorem ldlt_sum3 (X : ι → ι → K) (y : ι → K) (j a b : ι) : ldlt X y a b =
    ∑ m : {i // i < j}, X a m * y m * X b m + X a j * y j * X b j + ∑ m : {i // j < i}, X a m * y m * X b m := sum3 j _

theorem ldlt_comm (X : ι → ι → K) (y : ι → K) (a b : ι) : ldlt X y a b = ldlt X y b a :=
  sum_congr rfl fun m _ => by ring

theorem ldlt_up_lt (hL : UnitLower L) (a b : ι) (ha : a < j) (hb : b ≠ j) :
    ldlt (upL L j v w M) (upd d j delta e) a b = ldlt L d a b := by
  rw [ldlt_sum3 _ _ j, ldlt_sum3 _ _ j]
  have z : ∀ m, j ≤ m → L a m = 0 := fun m hm => hL.upper a m (lt_of_lt_of_le ha hm)
  congr 1
  · congr 1
    · refine sum_congr rfl fun m _ => ?_
      rw [upd_lt, upL_lt _ _ ha]
      congr 1
      rcases lt_or_gt_of_ne hb with h | h
      · exact upL_lt _ _ h
      · exact upL_gtlt ⟨b, h⟩ m
    · rw [upL_lt _ _ ha, z j le_rfl, zero_mul, zero_mul, zero_mul, zero_mul]
  · refine sum_congr rfl fun m _ => ?_
    rw [upL_lt _ _ ha, z m m.2.le, zero_mul, zero_mul, zero_mul, zero_mul]

theorem ldlt_up_ltj (hL : UnitLower L) (a : {i // i < j}) :
    ldlt (upL L j v w M) (upd d j delta e) a j = ∑ m : {i // i < j}, L a m * (d m * v m) := by
  rw [ldlt_sum3 _ _ j]
  have z : ∀ m, j ≤ m → L a m = 0 := fun m hm => hL.upper a m (lt_of_lt_of_le a.2 hm)
  rw [upL_lt _ _ a.2, z j le_rfl, zero_mul, zero_mul, add_zero]
  rw [sum_eq_zero (s := univ) (f := fun m : {i // j < i} => upL L j v w M a m * upd d j delta e m * upL L j v w M j m)
    (fun m _ => by rw [upL_jgt hL, mul_zero]), add_zero]
  refine sum_congr rfl fun m _ => ?_
  rw [upL_lt _ _ a.2, upd_lt, upL_jlt, mul_assoc]

theorem ldlt_up_jj (hL : UnitLower L) : ldlt (upL L j v w M) (upd d j delta e) j j = ∑ m, d m.1 * v m * v m + delta := by
  rw [ldlt_sum3 _ _ j]
  rw [sum_eq_zero (s := univ) (f := fun m : {i // j < i} => upL L j v w M j m * upd d j delta e m * upL L j v w M j m)
    (fun m _ => by rw [upL_jgt hL, mul_zero]), add_zero, upL_jj, upd_j]
  congr 1
  · refine sum_congr rfl fun m _ => ?_
    rw [upL_jlt, upd_lt]; ring
  · ring

theorem ldlt_up_jgt (hL : UnitLower L) (b : {i // j < i}) : ldlt (upL L j v w M) (upd d j delta e) j b =
    ∑ m : {i // i < j}, L b m * (d m * v m) + delta * w b := by
  rw [ldlt_sum3 _ _ j]
  rw [sum_eq_zero (s := univ) (f := fun m : {i // j < i} => upL L j v w M j m * upd d j delta e m * upL L j v w M b m)
    (fun m _ => by rw [upL_jgt hL, zero_mul, zero_mul]), add_zero, upL_jj, upd_j, upL_gtj]
  congr 1
  · refine sum_congr rfl fun m _ => ?_
    rw [upL_jlt, upd_lt, upL_gtlt]; ring
  · ring

theorem ldlt_up_gtgt (a b : {i // j < i}) : ldlt (upL L j v w M) (upd d j delta e) a b =
    ∑ m : {i // i < j}, L a m * d m * L b m + delta * w a * w b + ldlt M e a b := by
  rw [ldlt_sum3 _ _ j, upL_gtj, upL_gtj, upd_j]
  congr 1
  · congr 1
    · exact sum_congr rfl fun m _ => by rw [upL_gtlt, upL_gtlt, upd_lt]
    · ring
  · exact sum_congr rfl fun m _ => by rw [upL_gtgt, upL_gtgt, upd_gt]

end blocks

/-- **C78 (downdate).** Full claim: *after `ldldown(L, d, j)` the factors are those of the matrix with row and column `j` replaced by those of the
identity*.  It holds without fill-in (see `C78_rank_one_partial`); in general it is false, see `C78_down_false`. -/
theorem C78_down_partial {neps : K} (hn : 0 < neps) {slv : Solver K} (hslv : SolvesAll slv) {L : ι → ι → K} {d : ι → K}
    (hL : UnitLower L) (hd : ∀ i, 0 < d i) (j : ι) (hc : ∀ k i, j < k → k < i → L k j ≠ 0 → L i j = 0 → L i k = 0) :
    ∃ L' d', ldldown neps slv L d j = some (L', d') ∧ UnitLower L' ∧ (∀ i, 0 < d' i) ∧
      ∀ a b, ldlt L' d' a b = if a = j ∨ b = j then (if a = b then 1 else 0) else ldlt L d a b := by
  obtain ⟨F, hF, h1, h2⟩ := C78_rank_one_partial (ι := {i // j < i}) hn hslv (UnitLower.sub hL fun i => j < i) (d := fun a => d a.1)
    (fun i => hd i.1) (hd j).ne' (u := fun a => L a.1 j) (fun k i hki h h' => hc k.1 i.1 k.2 hki h h')
  have hp : F.p = none := by
    cases hp : F.p with
    | none => rfl
    | some p => exact absurd (h2 p hp).1 (not_lt.2 (hd j).le)
  obtain ⟨e1, e2, e3⟩ := h1 hp
  have hX : ldldown neps slv L d j = some (upL L j 0 0 F.L, upd d j 1 F.d) := by
    unfold ldldown
    rw [hF, Option.map_some]
    congr 2
    funext a b
    unfold upL
    split_ifs with c1 c2 c3 c4 c5 c6 c7 <;> try rfl
    · exact absurd c5 c6.ne
    · subst c4
      exact (hL.upper _ _ (lt_of_le_of_ne (not_lt.1 c7) (Ne.symm c5))).symm
  refine ⟨_, _, hX, upL_unit hL e1, upd_pos hd one_pos e2, fun a b => ?_⟩
  have hjj : ∀ b, ldlt (upL L j 0 0 F.L) (upd d j 1 F.d) j b = if j = b then 1 else 0 := by
    intro b
    rcases lt_trichotomy b j with h | h | h
    · rw [if_neg h.ne', ldlt_comm, ldlt_up_ltj hL ⟨b, h⟩]
      simp
    · subst h
      rw [if_pos rfl, ldlt_up_jj hL]
      simp
    · rw [if_neg h.ne, ldlt_up_jgt hL ⟨b, h⟩]
      simp
  by_cases ha : a = j
  · rw [if_pos (.inl ha), ha, hjj]
  by_cases hb : b = j
  · rw [if_pos (.inr hb), hb, ldlt_comm, hjj]
    simp only [eq_comm]
  rw [if_neg (not_or.2 ⟨ha, hb⟩)]
  rcases lt_or_gt_of_ne ha with h | h
  · exact ldlt_up_lt hL a b h hb
  rcases lt_or_gt_of_ne hb with h' | h'
  · rw [ldlt_comm, ldlt_up_lt hL b a h' ha, ldlt_comm]
  · rw [ldlt_up_gtgt ⟨a, h⟩ ⟨b, h'⟩, e3, ldlt_sum3 L d j]
    show _ + (1 : K) * 0 * 0 + (∑ m : {i // j < i}, L a m * d m * L b m + d j * L a j * L b j) = _
    ring

/-- The matrix with row and column `j` replaced by `g`. -/
def Spec.replaced (A : ι → ι → K) (j : ι) (g : ι → K) : ι → ι → K := fun a b => if a = j then g b else if b = j then g a else A a b

theorem qform_congr {A B : ι → ι → K} {p : ι → K} (h : ∀ a b, p a ≠ 0 → p b ≠ 0 → A a b = B a b) : qform A p = qform B p := by
  refine sum_congr rfl fun a _ => sum_congr rfl fun b _ => ?_
  by_cases ha : p a = 0
  · rw [ha]; ring
  by_cases hb : p b = 0
  · rw [hb]; ring
  rw [h a b ha hb]

/-- The product of the new factors is the replaced matrix, up to the last block. -/
theorem up_agree {L : ι → ι → K} (hL : UnitLower L) {d : ι → K} (hd : ∀ i, 0 < d i) {j : ι} {g : ι → K} {u v : {i // i < j} → K}
    (hu : ∀ a : {i // i < j}, ∑ b : {i // i < j}, L a b * u b = g a) (hv : ∀ a, v a = u a / d a.1) {delta : K}
    (hδ : delta = g j - ∑ a, u a * v a) {w : {i // j < i} → K} {M : {i // j < i} → {i // j < i} → K} {e : {i // j < i} → K} (a b : ι)
    (hw : ∀ c : {i // j < i}, c.1 = a ∨ c.1 = b → delta * w c = g c - ∑ m : {i // i < j}, L c m * u m)
    (hab : a ≤ j ∨ b ≤ j) :
    ldlt (upL L j v w M) (upd d j delta e) a b = replaced (ldlt L d) j g a b := by
  have hdv : ∀ m : {i // i < j}, d m * v m = u m := fun m => by rw [hv, mul_div_cancel₀ _ (hd m.1).ne']
  have hj : ∀ b, (∀ c : {i // j < i}, c.1 = b → delta * w c = g c - ∑ m : {i // i < j}, L c m * u m) →
      ldlt (upL L j v w M) (upd d j delta e) j b = g b := by
    intro b hw
    rcases lt_trichotomy b j with h | h | h
    · rw [ldlt_comm, ldlt_up_ltj hL ⟨b, h⟩]
      simp only [hdv]
      exact hu ⟨b, h⟩
    · subst h
      rw [ldlt_up_jj hL]
      simp only [hdv]
      rw [hδ]; ring
    · rw [ldlt_up_jgt hL ⟨b, h⟩, hw ⟨b, h⟩ rfl]
      simp only [hdv]
      ring
  unfold replaced
  by_cases ha : a = j
  · rw [if_pos ha, ha]
    exact hj b fun c hc => hw c (.inr hc)
  rw [if_neg ha]
  by_cases hb : b = j
  · rw [if_pos hb, hb, ldlt_comm]
    exact hj a fun c hc => hw c (.inl hc)
  rw [if_neg hb]
  rcases hab with h | h
  · exact ldlt_up_lt hL a b (lt_of_le_of_ne h ha) hb
  · rw [ldlt_comm, ldlt_up_lt hL b a (lt_of_le_of_ne h hb) ha, ldlt_comm]

/-- **C78 (update).** Full claim: *after `ldlup(L, d, j, g)` for a matrix with unit row and column `j` the factors are those of the matrix with row and
column `j` replaced by `g`, or the old factors are returned with a nonzero direction in which that matrix has curvature at most `neps`*.  It holds
if no fill-in occurs and, for the first index, if `g` vanishes elsewhere.  In general it is false, see `C78_first_index_false` and
`C78_rank_one_false`. -/
theorem C78_up_partial {neps : K} (hn : 0 < neps) {slv : Solver K} (hslv : SolvesAll slv) {L : ι → ι → K} {d : ι → K}
    (hL : UnitLower L) (hd : ∀ i, 0 < d i) (j : ι) (g : ι → K) (hcol : ∀ a, j < a → L a j = 0)
    (hfirst : (∃ i, i < j) ∨ ∀ i, i ≠ j → g i = 0)
    (hc : ∀ u : {i // i < j} → K, (∀ a : {i // i < j}, ∑ b : {i // i < j}, L a b * u b = g a) → ∀ k i, j < k → k < i →
      g k - ∑ b : {i // i < j}, L k b * u b ≠ 0 → g i - ∑ b : {i // i < j}, L i b * u b = 0 → L i k = 0) :
    ∃ F, ldlup neps slv L d j g = some F ∧
      (F.p = none → UnitLower F.L ∧ (∀ i, 0 < F.d i) ∧ ldlt F.L F.d = replaced (ldlt L d) j g) ∧
      (∀ p, F.p = some p → F.L = L ∧ F.d = d ∧ p ≠ 0 ∧ qform (replaced (ldlt L d) j g) p ≤ neps) := by
  unfold ldlup
  by_cases hj : ∀ i, j ≤ i
  · rw [if_pos hj]
    have hg : ∀ i, i ≠ j → g i = 0 := by
      rcases hfirst with ⟨i, hi⟩ | h
      · exact absurd hi (not_lt.2 (hj i))
      · exact h
    by_cases hle : g j ≤ neps
    · rw [if_pos hle]
      refine ⟨_, rfl, fun h => (by cases h), fun p hp => ?_⟩
      injection hp with hp
      subst hp
      refine ⟨rfl, rfl, fun h => ?_, ?_⟩
      · have := congrFun h j
        rw [Pi.single_eq_same] at this
        exact one_ne_zero this
      · unfold qform
        rw [sum_eq_single j, sum_eq_single j]
        · rw [Pi.single_eq_same]
          unfold replaced
          rw [if_pos rfl]
          linarith
        · intro b _ hb
          rw [Pi.single_eq_of_ne hb, mul_zero]
        · simp
        · intro a _ ha
          refine sum_eq_zero fun b _ => ?_
          rw [Pi.single_eq_of_ne ha, zero_mul, zero_mul]
        · simp
    · rw [if_neg hle]
      refine ⟨_, rfl, fun _ => ⟨hL, fun i => ?_, ?_⟩, fun p hp => (by cases hp)⟩
      · dsimp only
        by_cases hi : i = j
        · rw [hi, Function.update_self]
          exact hn.trans (not_le.1 hle)
        · rw [Function.update_of_ne hi]
          exact hd i
      · have hLj : ∀ a, L a j = if a = j then 1 else 0 := by
          intro a
          by_cases ha : a = j
          · rw [ha, if_pos rfl, hL.diag]
          · rw [if_neg ha]
            exact hcol a (lt_of_le_of_ne (hj a) (Ne.symm ha))
        have key : ∀ a b, ldlt L (Function.update d j (g j)) a b = (if a = j then 1 else 0) * g j * (if b = j then 1 else 0) +
            ∑ m ∈ univ.erase j, L a m * d m * L b m := by
          intro a b
          unfold ldlt
          rw [← add_sum_erase _ _ (mem_univ j), Function.update_self, hLj, hLj]
          congr 1
          refine sum_congr rfl fun m hm => ?_
          rw [Function.update_of_ne (mem_erase.1 hm).1]
        have hrow : ∀ m ∈ univ.erase j, L j m = 0 := fun m hm => hL.upper j m (lt_of_le_of_ne (hj m) (Ne.symm (mem_erase.1 hm).1))
        funext a b
        rw [key]
        unfold replaced
        by_cases ha : a = j
        · rw [if_pos ha, if_pos ha, ha, sum_eq_zero fun m hm => by rw [hrow m hm, zero_mul, zero_mul]]
          by_cases hb : b = j
          · rw [if_pos hb, hb]; ring
          · rw [if_neg hb, hg b hb]; ring
        · rw [if_neg ha, if_neg ha]
          by_cases hb : b = j
          · rw [if_pos hb, if_pos hb, hb, hg a ha, sum_eq_zero fun m hm => by rw [hrow m hm, mul_zero]]; ring
          · rw [if_neg hb, if_neg hb]
            unfold ldlt
            rw [← add_sum_erase _ (fun m => L a m * d m * L b m) (mem_univ j), hLj a, if_neg ha]
            ring
  · rw [if_neg hj]
    simp only
    have hu : ∀ a : {i // i < j}, ∑ b : {i // i < j}, L a b *
        slv.run {i // i < j} (fun a b => L a.1 b.1) (fun a => g a.1) b = g a := by
      intro a
      refine hslv {i // i < j} (fun a b => L a.1 b.1) (fun a => g a.1) ?_ a
      rw [UnitLower.det (UnitLower.sub hL fun i => i < j)]
      exact isUnit_one
    have hT : ∀ b : {i // i < j} → K, ∀ m : {i // i < j}, ∑ a : {i // i < j}, L a m *
        slv.run {i // i < j} (fun a b => L b.1 a.1) b a = b m := by
      intro b m
      exact hslv {i // i < j} (fun a b => L b.1 a.1) b (UnitLower.det_tr (UnitLower.sub hL fun i => i < j)) m
    generalize slv.run {i // i < j} (fun a b => L a.1 b.1) (fun a => g a.1) = u at hu ⊢
    obtain ⟨v, hv⟩ : ∃ v : {i // i < j} → K, v = fun a => u a / d a.1 := ⟨_, rfl⟩
    have hv' : ∀ a, v a = u a / d a.1 := fun a => congrFun hv a
    obtain ⟨delta, hδ⟩ : ∃ delta, delta = g j - ∑ a, u a * v a := ⟨_, rfl⟩
    have hE : upMid neps slv L d j g u (fun a => u a / d a.1) (g j - ∑ a, u a * (u a / d a.1)) = upMid neps slv L d j g u v delta := by
      rw [hδ, hv]
    rw [hE]
    unfold upMid
    by_cases hle : delta ≤ neps
    · rw [if_pos hle]
      refine ⟨_, rfl, fun h => (by cases h), fun p hp => ?_⟩
      injection hp with hp
      have hpj : p j = -1 := by rw [← hp]; dsimp only; rw [dif_neg (lt_irrefl _), if_pos rfl]
      have hpI : ∀ a : {i // i < j}, p a = slv.run {i // i < j} (fun a b => L b.1 a.1) v a := by
        intro a
        rw [← hp]; dsimp only; rw [dif_pos a.2]
      have hpK : ∀ a : {i // j < i}, p a = 0 := by
        intro a
        rw [← hp]; dsimp only; rw [dif_neg (not_lt.2 a.2.le), if_neg a.2.ne']
      refine ⟨rfl, rfl, fun h => ?_, ?_⟩
      · rw [h] at hpj
        exact absurd hpj (by simp)
      · have hle' : ∀ a, p a ≠ 0 → a ≤ j := fun a ha => not_lt.1 fun h => ha (hpK ⟨a, h⟩)
        rw [← qform_congr (A := ldlt (upL L j v 0 (fun a b => L a.1 b.1)) (upd d j delta fun a => d a.1)) fun a b ha hb =>
          up_agree hL hd hu hv' hδ a b (fun c hcc => by
            rcases hcc with h | h
            · exact absurd (h ▸ c.2) (not_lt.2 (hle' a ha))
            · exact absurd (h ▸ c.2) (not_lt.2 (hle' b hb))) (.inl (hle' a ha))]
        rw [qform_up hL, hpj]
        simp only [hpK, hpI, hT, mul_zero, sum_const_zero, add_zero, Pi.zero_apply]
        have z : qform (ldlt (fun a b => L a.1 b.1) fun a => d a.1) (fun _ : {i // j < i} => 0) = 0 := by
          unfold qform
          simp
        rw [z]
        have z2 : ∑ m : {i // i < j}, d m * (v m + v m * -1) ^ 2 = 0 := sum_eq_zero fun m _ => by ring
        rw [z2]
        linarith
    · rw [if_neg hle]
      have hδp : 0 < delta := hn.trans (not_le.1 hle)
      obtain ⟨w, hw⟩ : ∃ w : {i // j < i} → K, w = fun a => (g a.1 - ∑ b : {i // i < j}, L a.1 b.1 * u b) / delta := ⟨_, rfl⟩
      rw [← hw]
      unfold upLast
      have hw' : ∀ c : {i // j < i}, delta * w c = g c - ∑ m : {i // i < j}, L c m * u m := by
        intro c
        rw [hw, mul_div_cancel₀ _ hδp.ne']
      have hw0 : ∀ c : {i // j < i}, w c = 0 ↔ g c - ∑ m : {i // i < j}, L c m * u m = 0 := by
        intro c
        rw [← hw' c, mul_eq_zero, or_iff_right hδp.ne']
      obtain ⟨F, hF, h1, h2⟩ := C78_rank_one_partial (ι := {i // j < i}) hn hslv (UnitLower.sub hL fun i => j < i) (d := fun a => d a.1)
        (fun i => hd i.1) (neg_ne_zero.2 hδp.ne') (u := w)
        (fun k i hki h h' => hc u hu k.1 i.1 k.2 hki (fun h0 => h ((hw0 k).2 h0)) ((hw0 i).1 h'))
      rw [hF, Option.map_some]
      refine ⟨_, rfl, ?_⟩
      have hKK : ∀ a b : {i // j < i}, ldlt L d a b = ∑ m : {i // i < j}, L a m * d m * L b m +
          ldlt (fun a b : {i // j < i} => L a.1 b.1) (fun a => d a.1) a b := by
        intro a b
        rw [ldlt_sum3 L d j, hcol a a.2, zero_mul, zero_mul, add_zero]
        rfl
      cases hFp : F.p with
      | none =>
        obtain ⟨e1, e2, e3⟩ := h1 hFp
        refine ⟨fun _ => ⟨upL_unit hL e1, upd_pos hd hδp e2, ?_⟩, fun p hp => (by cases hp)⟩
        show ldlt (upL L j v w F.L) (upd d j delta F.d) = _
        funext a b
        by_cases hab : a ≤ j ∨ b ≤ j
        · exact up_agree hL hd hu hv' hδ a b (fun c _ => hw' c) hab
        · rw [not_or, not_le, not_le] at hab
          rw [ldlt_up_gtgt ⟨a, hab.1⟩ ⟨b, hab.2⟩, e3]
          unfold replaced
          rw [if_neg hab.1.ne', if_neg hab.2.ne', hKK ⟨a, hab.1⟩ ⟨b, hab.2⟩]
          ring
      | some q =>
        obtain ⟨_, e1, e2, e3, e4⟩ := h2 q hFp
        refine ⟨fun h => (by cases h), fun p hp => ?_⟩
        injection hp with hp
        have hpj : p j = -∑ a, w a * q a := by rw [← hp]; dsimp only; rw [dif_neg (lt_irrefl _), dif_neg (lt_irrefl _)]
        have hpI : ∀ a : {i // i < j}, p a = slv.run {i // i < j} (fun a b => L b.1 a.1)
            (fun b => (∑ a, w a * q a) * v b - ∑ a : {i // j < i}, L a.1 b.1 * q a) a := by
          intro a
          rw [← hp]; dsimp only; rw [dif_pos a.2]
        have hpK : ∀ a : {i // j < i}, p a = q a := by
          intro a
          rw [← hp]; dsimp only; rw [dif_neg (not_lt.2 a.2.le), dif_pos a.2]
        refine ⟨?_, ?_, fun h => e3 ?_, ?_⟩
        · funext a b
          dsimp only
          split_ifs with h
          · rw [e1]
          · rfl
        · funext a
          dsimp only
          split_ifs with h
          · rw [e2]
          · rfl
        · funext a
          rw [← hpK, h]
          rfl
        · have hA : replaced (ldlt L d) j g = fun a b => ldlt (upL L j v w (fun a b => L a.1 b.1)) (upd d j delta fun a => d a.1) a b +
              -delta * (fun a => if h : j < a then w ⟨a, h⟩ else 0) a * (fun a => if h : j < a then w ⟨a, h⟩ else 0) b := by
            funext a b
            by_cases hab : a ≤ j ∨ b ≤ j
            · rw [up_agree hL hd hu hv' hδ a b (fun c _ => hw' c) hab]
              rcases hab with h | h
              · simp only [dif_neg (not_lt.2 h)]; ring
              · simp only [dif_neg (not_lt.2 h)]; ring
            · rw [not_or, not_le, not_le] at hab
              rw [ldlt_up_gtgt ⟨a, hab.1⟩ ⟨b, hab.2⟩]
              simp only [dif_pos hab.1, dif_pos hab.2]
              unfold replaced
              rw [if_neg hab.1.ne', if_neg hab.2.ne', hKK ⟨a, hab.1⟩ ⟨b, hab.2⟩]
              ring
          rw [hA, qform_add_rank1, qform_up hL]
          have hwp : ∑ a, (fun a => if h : j < a then w ⟨a, h⟩ else 0) a * p a = ∑ a, w a * q a := by
            rw [sum3 j, sum_eq_zero (s := univ) (f := fun a : {i // i < j} => (fun a => if h : j < a then w ⟨a, h⟩ else 0) a.1 * p a.1)
              (fun a _ => by simp only [dif_neg (not_lt.2 a.2.le), zero_mul])]
            simp only [dif_neg (lt_irrefl j), zero_mul, zero_add]
            exact sum_congr rfl fun a _ => by rw [dif_pos a.2, hpK]
          rw [hwp, hpj]
          simp only [hpK, hpI, hT]
          have z1 : ∑ m : {i // i < j}, d m * ((∑ a, w a * q a) * v m - ∑ a : {i // j < i}, L a.1 m.1 * q a + v m * -∑ a, w a * q a +
              ∑ a : {i // j < i}, L a m * q a) ^ 2 = 0 := sum_eq_zero fun m _ => by ring
          rw [z1]
          have e5 := e4
          rw [qform_add_rank1] at e5
          linarith

/-- **C78 (rank-one updates): refuted.** The loop visits the indices where `u` is nonzero at the start (L246); entries that become nonzero are
skipped.  One entry below the diagonal, `u = e_0`: the last diagonal entry of the product is wrong, and no direction is reported. -/
theorem C78_rank_one_false (slv : Solver ℚ) : ∃ (L : Fin 2 → Fin 2 → ℚ) (d u : Fin 2 → ℚ) (F : Ldl ℚ (Fin 2)), UnitLower L ∧ (∀ i, 0 < d i) ∧
    ldlrk1 (1 / 10 ^ 14) slv L d 1 u = some F ∧ F.p = none ∧ ldlt L d 1 1 + 1 * u 1 * u 1 = 2 ∧ ldlt F.L F.d 1 1 = 3 / 2 := by
  have hs : (univ.filter fun k : Fin 2 => (![1, 0] : Fin 2 → ℚ) k ≠ 0).sort (· ≤ ·) = [0] := by decide +kernel
  refine ⟨![![1, 0], ![1, 1]], ![1, 1], ![1, 0], _, ⟨by decide +kernel, by decide +kernel⟩, by decide +kernel,
    by unfold ldlrk1; rw [if_neg one_ne_zero, hs], ?_⟩
  unfold rk1Loop rk1Loop
  norm_num [ldlt, Fin.sum_univ_two]

/-- **C78 (downdate): refuted.** The same fill-in: `ldldown` of the first index of a `3 × 3` factorisation. -/
theorem C78_down_false (slv : Solver ℚ) : ∃ (L : Fin 3 → Fin 3 → ℚ) (d : Fin 3 → ℚ) (L' : Fin 3 → Fin 3 → ℚ) (d' : Fin 3 → ℚ), UnitLower L ∧
    (∀ i, 0 < d i) ∧ ldldown (1 / 10 ^ 14) slv L d 0 = some (L', d') ∧ ldlt L d 2 2 = 2 ∧ ldlt L' d' 2 2 = 3 / 2 := by
  have hs : (univ.filter fun k : {i : Fin 3 // 0 < i} => (![![1, 0, 0], ![1, 1, 0], ![0, 1, 1]] : Fin 3 → Fin 3 → ℚ) k.1 0 ≠ 0).sort (· ≤ ·) =
    [⟨1, by decide⟩] := by decide +kernel
  have hE : ∀ (L : {i : Fin 3 // 0 < i} → {i : Fin 3 // 0 < i} → ℚ) (d u : {i : Fin 3 // 0 < i} → ℚ) (k : {i : Fin 3 // 0 < i}), d k = 1 → u k = 1 →
      rk1Loop (1 / 10 ^ 14) slv L d [k] L d 1 u = ⟨fun i j => if k ≤ i ∧ j = k then L i k * (1 / 2) + 1 / 2 * u i else L i j,
        Function.update d k 2, none⟩ := by
    intro L d u k hd hu
    unfold rk1Loop rk1Loop
    rw [hd, hu]
    norm_num
    congr
  refine ⟨![![1, 0, 0], ![1, 1, 0], ![0, 1, 1]], ![1, 1, 1], _, _, ⟨by decide +kernel, by decide +kernel⟩, by decide +kernel,
    by unfold ldldown ldlrk1; rw [if_neg (by decide +kernel), hs, Option.map_some], by decide +kernel, ?_⟩
  have e := hE (fun a b => (![![1, 0, 0], ![1, 1, 0], ![0, 1, 1]] : Fin 3 → Fin 3 → ℚ) a.1 b.1) (fun a => (![1, 1, 1] : Fin 3 → ℚ) a.1)
    (fun a => (![![1, 0, 0], ![1, 1, 0], ![0, 1, 1]] : Fin 3 → Fin 3 → ℚ) a.1 0) ⟨1, by decide⟩ (by decide +kernel) (by decide +kernel)
  have e' : (![1, 1, 1] : Fin 3 → ℚ) 0 = 1 := rfl
  rw [e', e]
  decide +kernel

/-- **C78 (update of the first index): refuted.** The entries of `g` after the first are ignored (L293-L300): the matrix `[[2,1],[1,1]]` is asked for,
`diag(2,1)` is returned.  For `g = (1,2)` the matrix `[[1,2],[2,1]]` is indefinite and no direction is reported. -/
theorem C78_first_index_false (slv : Solver ℚ) : ∃ (L : Fin 2 → Fin 2 → ℚ) (d g : Fin 2 → ℚ) (F : Ldl ℚ (Fin 2)), UnitLower L ∧ (∀ i, 0 < d i) ∧
    (∀ a, 0 < a → L a 0 = 0) ∧ ldlup (1 / 10 ^ 14) slv L d 0 g = some F ∧ F.p = none ∧ replaced (ldlt L d) 0 g 0 1 = 2 ∧ ldlt F.L F.d 0 1 = 0 ∧
    qform (replaced (ldlt L d) 0 g) ![1, -1] = -2 := by
  refine ⟨![![1, 0], ![0, 1]], ![1, 1], ![1, 2], _, ⟨by decide +kernel, by decide +kernel⟩, by decide +kernel, by decide +kernel,
    by unfold ldlup; rw [if_pos (by decide), if_neg (by norm_num)], rfl, ?_⟩
  norm_num [ldlt, qform, replaced, Fin.sum_univ_two]

/-- Whatever the fill-in, triangular form and positivity are kept. -/
theorem rk1Loop_shape {neps : K} (hn : 0 < neps) {slv : Solver K} {L0 : ι → ι → K} {d0 : ι → K} (hL0 : UnitLower L0) (hd0 : ∀ i, 0 < d0 i) :
    ∀ (ks : List ι) (L : ι → ι → K) (d : ι → K) (alpha : K) (u : ι → K), UnitLower L → (∀ i, 0 < d i) →
      UnitLower (rk1Loop neps slv L0 d0 ks L d alpha u).L ∧ ∀ i, 0 < (rk1Loop neps slv L0 d0 ks L d alpha u).d i
  | [], L, d, alpha, u, hL, hd => ⟨hL, hd⟩
  | k :: ks, L, d, alpha, u, hL, hd => by
    unfold rk1Loop
    simp only
    by_cases h : alpha < 0 ∧ d k + alpha * u k ^ 2 ≤ neps
    · rw [if_pos h]
      exact ⟨hL0, hd0⟩
    · rw [if_neg h]
      have hδ : 0 < d k + alpha * u k ^ 2 := by
        rcases lt_or_ge alpha 0 with ha | ha
        · exact hn.trans (not_le.1 fun h' => h ⟨ha, h'⟩)
        · have := mul_nonneg ha (sq_nonneg (u k))
          have := hd k
          linarith
      have hL' : UnitLower (fun i j => if k ≤ i ∧ j = k then
          L i k * (d k / (d k + alpha * u k ^ 2)) + alpha * u k / (d k + alpha * u k ^ 2) * u i else L i j) := by
        refine ⟨fun i => ?_, fun i j hij => ?_⟩
        · by_cases hi : k ≤ i ∧ i = k
          · rw [if_pos hi, hi.2, hL.diag]
            have := hδ.ne'
            field_simp
          · rw [if_neg hi, hL.diag]
        · rw [if_neg fun hc => absurd (hc.2 ▸ hij) (not_lt.2 hc.1), hL.upper i j hij]
      have hd' : ∀ i, 0 < Function.update d k (d k + alpha * u k ^ 2) i := by
        intro i
        by_cases hi : i = k
        · rw [hi, Function.update_self]; exact hδ
        · rw [Function.update_of_ne hi]; exact hd i
      by_cases hq : alpha * (d k / (d k + alpha * u k ^ 2)) = 0
      · rw [if_pos hq]
        exact ⟨hL', hd'⟩
      · rw [if_neg hq]
        exact rk1Loop_shape hn hL0 hd0 ks _ _ _ _ hL' hd'

/-- **C78 (shape).** Whatever the fill-in, rank-one updates return a unit triangular matrix and a positive diagonal. -/
theorem C78_shape {neps : K} (hn : 0 < neps) (slv : Solver K) {L : ι → ι → K} {d : ι → K} (hL : UnitLower L) (hd : ∀ i, 0 < d i)
    (alpha : K) (u : ι → K) {F : Ldl K ι} (hF : ldlrk1 neps slv L d alpha u = some F) : UnitLower F.L ∧ ∀ i, 0 < F.d i := by
  unfold ldlrk1 at hF
  split_ifs at hF with h
  injection hF with hF
  rw [← hF]
  exact rk1Loop_shape hn hL hd _ _ _ _ _ hL hd

/-- The contract can be met: Cramer's rule. -/
theorem SolvesAll.exists : ∃ slv : Solver K, SolvesAll slv := by
  classical
  refine ⟨⟨fun κ _ _ A b => (Matrix.of A)⁻¹ *ᵥ b⟩, fun κ _ _ A b hA i => ?_⟩
  have : Matrix.of A *ᵥ ((Matrix.of A)⁻¹ *ᵥ b) = b := by rw [mulVec_mulVec, mul_nonsing_inv _ hA, one_mulVec]
  exact congrFun this i

/-- A dense positive definite case: no fill-in, all entries change. -/
example : ∃ slv : Solver ℚ, SolvesAll slv ∧ ∃ F, ldlrk1 (1 / 10 ^ 14) slv (![![1, 0], ![1, 1]] : Fin 2 → Fin 2 → ℚ) ![1, 1] 1 ![1, 2] = some F ∧
    (F.p = none → UnitLower F.L ∧ (∀ i, 0 < F.d i) ∧ ∀ a b, ldlt F.L F.d a b =
      ldlt (![![1, 0], ![1, 1]] : Fin 2 → Fin 2 → ℚ) ![1, 1] a b + 1 * (![1, 2] : Fin 2 → ℚ) a * (![1, 2] : Fin 2 → ℚ) b) := by
  obtain ⟨slv, h⟩ := SolvesAll.exists (K := ℚ)
  obtain ⟨F, h1, h2, -⟩ := C78_rank_one_partial (neps := (1 / 10 ^ 14 : ℚ)) (by norm_num) h
    (L := (![![1, 0], ![1, 1]] : Fin 2 → Fin 2 → ℚ)) (d := ![1, 1]) ⟨by decide +kernel, by decide +kernel⟩ (by decide +kernel)
    (one_ne_zero (α := ℚ)) (u := ![1, 2]) (fun k i _ _ hi => by revert hi; revert k i; decide +kernel)
  exact ⟨slv, h, F, h1, h2⟩

/-- `I - 2 e_0 e_0ᵀ` is indefinite: a direction is reported. -/
example : ∃ slv : Solver ℚ, SolvesAll slv ∧ ∃ F p, ldlrk1 (1 / 10 ^ 14) slv (![![1, 0], ![0, 1]] : Fin 2 → Fin 2 → ℚ) ![1, 1] (-2) ![1, 0] = some F ∧
    F.p = some p ∧ p ≠ 0 ∧ qform (fun a b => ldlt (![![1, 0], ![0, 1]] : Fin 2 → Fin 2 → ℚ) ![1, 1] a b + -2 * (![1, 0] : Fin 2 → ℚ) a *
      (![1, 0] : Fin 2 → ℚ) b) p ≤ 1 / 10 ^ 14 := by
  obtain ⟨slv, h⟩ := SolvesAll.exists (K := ℚ)
  obtain ⟨F, h1, -, h3⟩ := C78_rank_one_partial (neps := (1 / 10 ^ 14 : ℚ)) (by norm_num) h
    (L := (![![1, 0], ![0, 1]] : Fin 2 → Fin 2 → ℚ)) (d := ![1, 1]) ⟨by decide +kernel, by decide +kernel⟩ (by decide +kernel)
    (show (-2 : ℚ) ≠ 0 by norm_num) (u := ![1, 0]) (fun k i _ _ hi => by revert hi; revert k i; decide +kernel)
  have hs : (univ.filter fun k : Fin 2 => (![1, 0] : Fin 2 → ℚ) k ≠ 0).sort (· ≤ ·) = [0] := by decide +kernel
  have hp : F.p = some (negDir slv ![![1, 0], ![0, 1]] 0) := by
    unfold ldlrk1 at h1
    rw [if_neg (by norm_num), hs] at h1
    injection h1 with h1
    rw [← h1]
    unfold rk1Loop
    rw [if_pos (by norm_num)]
  exact ⟨slv, h, F, _, h1, hp, (h3 _ hp).2.2.2.1, (h3 _ hp).2.2.2.2⟩

/-- Replacing the middle row and column of a `3 × 3` matrix. -/
example : ∃ slv : Solver ℚ, SolvesAll slv ∧ ∃ L' d', ldldown (1 / 10 ^ 14) slv (![![1, 0, 0], ![2, 1, 0], ![3, 4, 1]] : Fin 3 → Fin 3 → ℚ) ![1, 2, 3] 1 =
    some (L', d') ∧ UnitLower L' ∧ (∀ i, 0 < d' i) ∧ ldlt L' d' 2 2 = 44 ∧ ldlt L' d' 1 1 = 1 ∧ ldlt L' d' 1 2 = 0 := by
  obtain ⟨slv, h⟩ := SolvesAll.exists (K := ℚ)
  obtain ⟨L', d', h1, h2, h3, h4⟩ := C78_down_partial (neps := (1 / 10 ^ 14 : ℚ)) (by norm_num) h
    (L := (![![1, 0, 0], ![2, 1, 0], ![3, 4, 1]] : Fin 3 → Fin 3 → ℚ)) (d := ![1, 2, 3]) ⟨by decide +kernel, by decide +kernel⟩ (by decide +kernel)
    1 (by decide +kernel)
  refine ⟨slv, h, L', d', h1, h2, h3, ?_, ?_, ?_⟩
  · rw [h4]; decide +kernel
  · rw [h4]; decide +kernel
  · rw [h4]; decide +kernel

/-- The last row and column of a `2 × 2` matrix. -/
example : ∃ slv : Solver ℚ, SolvesAll slv ∧ ∃ F, ldlup (1 / 10 ^ 14) slv (![![1, 0], ![0, 1]] : Fin 2 → Fin 2 → ℚ) ![2, 1] 1 ![2, 5] = some F ∧
    (F.p = none → UnitLower F.L ∧ (∀ i, 0 < F.d i) ∧ ldlt F.L F.d = replaced (ldlt ![![1, 0], ![0, 1]] ![2, 1]) 1 ![2, 5]) := by
  obtain ⟨slv, h⟩ := SolvesAll.exists (K := ℚ)
  obtain ⟨F, h1, h2, -⟩ := C78_up_partial (neps := (1 / 10 ^ 14 : ℚ)) (by norm_num) h
    (L := (![![1, 0], ![0, 1]] : Fin 2 → Fin 2 → ℚ)) (d := ![2, 1]) ⟨by decide +kernel, by decide +kernel⟩ (by decide +kernel)
    1 ![2, 5] (by decide +kernel) (.inl ⟨0, by decide⟩) (fun u _ k i hk hki => by omega)
  exact ⟨slv, h, F, h1, h2⟩

#print axioms C78_rank_one_partial
#print axioms C78_down_partial
#print axioms C78_up_partial
#print axioms C78_rank_one_false
#print axioms C78_down_false
#print axioms C78_first_index_false
#print axioms C78_shape

end Sqpdfo
