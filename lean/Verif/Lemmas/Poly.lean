import Verif.Model.Poly
import Mathlib.Tactic.Ring
import Mathlib.Tactic.Linarith
import Mathlib.Tactic.FieldSimp
import Mathlib.Algebra.BigOperators.Fin
import Mathlib.Algebra.BigOperators.Intervals
import Mathlib.Algebra.CharZero.Defs

/-! # Lemmas on the polynomial functions -/

set_option linter.unusedSectionVars false

namespace Sqpdfo
open Finset
variable {K : Type} [Field K]

theorem dotFrom_append (P : ℕ → K) (a b : List K) (off : ℕ) :
    dotFrom P off (a ++ b) = dotFrom P off a + dotFrom P (off + a.length) b := by
  induction a generalizing off with
  | nil => simp [dotFrom]
  | cons z zs ih =>
    simp only [List.cons_append, dotFrom, ih, List.length_cons]
    rw [show off + (zs.length + 1) = off + 1 + zs.length by omega]
    ring

theorem dotFrom_map_range (P : ℕ → K) (f : ℕ → K) (off m : ℕ) :
    dotFrom P off ((List.range m).map f) = ∑ j ∈ range m, P (off + j) * f j := by
  induction m with
  | zero => simp [dotFrom]
  | succ m ih =>
    rw [List.range_succ, List.map_append, dotFrom_append, ih, sum_range_succ]
    simp [dotFrom]

/-- Sums over an array changed by `addSlice`. -/
theorem sum_addSlice (g v d : ℕ → K) (a m n : ℕ) (h : a + m ≤ n) :
    ∑ r ∈ range n, addSlice g a m v r * d r =
      ∑ r ∈ range n, g r * d r + ∑ j ∈ range m, v j * d (a + j) := by
  have h1 : ∀ r, addSlice g a m v r * d r =
      g r * d r + if a ≤ r ∧ r < a + m then v (r - a) * d r else 0 := by
    intro r
    unfold addSlice
    split_ifs <;> ring
  simp only [h1]
  rw [sum_add_distrib]
  congr 1
  rw [← sum_filter]
  have h2 : (range n).filter (fun r => a ≤ r ∧ r < a + m) = Ico a (a + m) := by
    ext r
    simp only [mem_filter, mem_range, mem_Ico]
    omega
  rw [h2, sum_Ico_eq_sum_range]
  simp

/-- The quadratic form of the leading `n × n` part. -/
def quadF (n : ℕ) (H : ℕ → ℕ → K) (d : ℕ → K) : K :=
  ∑ r ∈ range n, ∑ s ∈ range n, d r * H r s * d s

theorem quadF_setEntry {n a b : ℕ} (ha : a < n) (hb : b < n) (H : ℕ → ℕ → K) (v : K)
    (d : ℕ → K) :
    quadF n (setEntry H a b v) d = quadF n H d + (v - H a b) * d a * d b := by
  have h1 : ∀ r s, d r * setEntry H a b v r s * d s = d r * H r s * d s +
      if r = a then (if s = b then (v - H a b) * d a * d b else 0) else 0 := by
    intro r s
    unfold setEntry
    by_cases hr : r = a
    · by_cases hs : s = b
      · subst hr; subst hs; simp; ring
      · simp [hs]
    · simp [hr]
  unfold quadF
  simp only [h1]
  rw [← sub_eq_iff_eq_add', ← sum_sub_distrib]
  simp only [← sum_sub_distrib, add_sub_cancel_left]
  rw [sum_eq_single a]
  · rw [sum_eq_single b]
    · simp
    · intro s _ hs; simp [hs]
    · intro hn; exact absurd (mem_range.2 hb) hn
  · intro r _ hr; simp [hr]
  · intro hn; exact absurd (mem_range.2 ha) hn

theorem hRow_apply (P : ℕ → K) (i k : ℕ) (H : ℕ → ℕ → K) (nsd r s : ℕ) :
    hRow P i k nsd H r s = if s < nsd ∧ r = i + s + 1 then P (k + s)
      else if r < nsd ∧ s = i + r + 1 then P (k + r) else H r s := by
  induction nsd with
  | zero => simp [hRow]
  | succ m ih =>
    have : hRow P i k (m + 1) H = setEntry (setEntry (hRow P i k m H) (i + m + 1) m (P (k + m)))
        m (i + m + 1) (P (k + m)) := by
      unfold hRow
      rw [List.range_succ, List.foldl_append]
      rfl
    rw [this]
    unfold setEntry
    rw [ih]
    by_cases h1 : r = m ∧ s = i + m + 1
    · obtain ⟨rfl, rfl⟩ := h1
      rw [if_pos ⟨rfl, rfl⟩, if_neg (by omega), if_pos (by omega)]
    · rw [if_neg h1]
      by_cases h2 : r = i + m + 1 ∧ s = m
      · obtain ⟨rfl, rfl⟩ := h2
        rw [if_pos ⟨rfl, rfl⟩, if_pos (by omega)]
      · rw [if_neg h2]
        by_cases h3 : s < m ∧ r = i + s + 1
        · rw [if_pos h3, if_pos (by omega)]
        · rw [if_neg h3]
          by_cases h4 : r < m ∧ s = i + r + 1
          · rw [if_pos h4, if_neg (by omega), if_pos (by omega)]
          · rw [if_neg h4, if_neg (by omega), if_neg (by omega)]

theorem quadF_hRow {n : ℕ} (P : ℕ → K) (i k : ℕ) (H : ℕ → ℕ → K) (d : ℕ → K)
    (hH : ∀ r s, r > s + i ∨ s > r + i → H r s = 0) (nsd : ℕ) (hn : i + nsd < n ∨ nsd = 0) :
    quadF n (hRow P i k nsd H) d =
      quadF n H d + 2 * ∑ j ∈ range nsd, P (k + j) * (d j * d (i + j + 1)) := by
  induction nsd with
  | zero => simp [hRow]
  | succ m ih =>
    have hn' : i + m + 1 < n := by omega
    have h1 : hRow P i k (m + 1) H = setEntry (setEntry (hRow P i k m H) (i + m + 1) m (P (k + m)))
        m (i + m + 1) (P (k + m)) := by
      unfold hRow
      rw [List.range_succ, List.foldl_append]
      rfl
    rw [h1, quadF_setEntry (by omega) hn', quadF_setEntry hn' (by omega), ih (by omega),
      sum_range_succ]
    have h2 : hRow P i k m H (i + m + 1) m = 0 := by
      rw [hRow_apply, if_neg (by omega), if_neg (by omega)]
      exact hH _ _ (by omega)
    have h3 : setEntry (hRow P i k m H) (i + m + 1) m (P (k + m)) m (i + m + 1) = 0 := by
      unfold setEntry
      rw [if_neg (by omega), hRow_apply, if_neg (by omega), if_neg (by omega)]
      exact hH _ _ (by omega)
    rw [h2, h3]
    ring

/-- Taylor identity of the subdiagonal part. -/
theorem sub_identity {n : ℕ} (P x d : ℕ → K) :
    ∀ (c i k m : ℕ) (g : ℕ → K) (H : ℕ → ℕ → K), (i + c + 1 ≤ n ∨ c = 0) →
    (∀ r s, r > s + i ∨ s > r + i → H r s = 0) → (2 : K) ≠ 0 →
    dotFrom P k (zSub n (fun r => x r + d r) c (i + 1) m) =
      dotFrom P k (zSub n x c (i + 1) m) +
      (∑ r ∈ range n, gSub n P x c i k m g r * d r - ∑ r ∈ range n, g r * d r) +
      1 / 2 * (quadF n (hSub n P c i k m H) d - quadF n H d) := by
  intro c
  induction c with
  | zero => intro i k m g H _ _ _; simp [zSub, gSub, hSub]
  | succ c ih =>
    intro i k m g H hi hH h2
    have hnsd : n - (i + 1) = n - i - 1 := by omega
    simp only [zSub, gSub, hSub, hnsd]
    set nsd := min (n - i - 1) m with hns
    have hle : i + nsd + 1 ≤ n := by omega
    have hle' : i + 1 + nsd ≤ n := by omega
    have key : ∑ j ∈ range nsd, P (k + j) * ((x (i + 1 + j) + d (i + 1 + j)) * (x j + d j)) =
        ∑ j ∈ range nsd, P (k + j) * (x (i + 1 + j) * x j) +
        (∑ j ∈ range nsd, P (k + j) * x j * d (i + 1 + j) +
         ∑ j ∈ range nsd, P (k + j) * x (i + 1 + j) * d (0 + j)) +
        ∑ j ∈ range nsd, P (k + j) * (d j * d (i + j + 1)) := by
      rw [← sum_add_distrib, ← sum_add_distrib, ← sum_add_distrib]
      apply sum_congr rfl
      intro j _
      rw [zero_add, show i + j + 1 = i + 1 + j by omega]
      ring
    have hg : ∑ r ∈ range n, addSlice (addSlice g (i + 1) nsd (fun j => P (k + j) * x j)) 0 nsd
          (fun j => P (k + j) * x (i + 1 + j)) r * d r =
        ∑ r ∈ range n, g r * d r + (∑ j ∈ range nsd, P (k + j) * x j * d (i + 1 + j) +
         ∑ j ∈ range nsd, P (k + j) * x (i + 1 + j) * d (0 + j)) := by
      rw [sum_addSlice _ _ _ _ _ _ (by omega), sum_addSlice _ _ _ _ _ _ hle', add_assoc]
    have hq := quadF_hRow (n := n) P i k H d hH nsd (by omega)
    by_cases hz : nsd > 0
    · simp only [if_pos hz]
      by_cases hm : m - nsd = 0
      · simp only [if_pos hm]
        rw [dotFrom_map_range, dotFrom_map_range, key, hg, hq]
        field_simp
        ring
      · simp only [if_neg hm]
        rw [dotFrom_append, dotFrom_append, dotFrom_map_range, dotFrom_map_range, List.length_map,
          List.length_range, List.length_map, List.length_range]
        have hH' : ∀ r s, r > s + (i + 1) ∨ s > r + (i + 1) → hRow P i k nsd H r s = 0 := by
          intro r s hrs
          rw [hRow_apply, if_neg (by omega), if_neg (by omega)]
          exact hH _ _ (by omega)
        rw [ih (i + 1) (k + nsd) (m - nsd)
          (addSlice (addSlice g (i + 1) nsd (fun j => P (k + j) * x j)) 0 nsd
          (fun j => P (k + j) * x (i + 1 + j))) (hRow P i k nsd H) (by omega) hH' h2, key, hg, hq]
        field_simp
        ring
    · have hm : m = 0 := by omega
      simp [hm, dotFrom, hns]

/-- Taylor identity for unshifted arrays. -/
theorem raw_identity {n q : ℕ} (hq : 1 ≤ q) (P x d : ℕ → K) (h2 : (2 : K) ≠ 0) :
    dotFrom P 0 (evalZ n (fun r => x r + d r) q) =
      dotFrom P 0 (evalZ n x q) + ∑ r ∈ range n, gradRaw n q P x r * d r +
      1 / 2 * quadF n (hessRaw n q P) d := by
  have hlin : ∀ m, m ≤ n → ∑ r ∈ range n, (if r < m then P (1 + r) else 0) * d r =
      ∑ j ∈ range m, P (1 + j) * d j := by
    intro m hm
    have := sum_addSlice (fun _ => 0) (fun r => P (1 + r)) d 0 m n (by omega)
    simp only [zero_mul, sum_const_zero, zero_add] at this
    rw [← this]
    apply sum_congr rfl
    intro r _
    unfold addSlice
    simp
  have hq0 : quadF n (fun _ _ => (0 : K)) d = 0 := by simp [quadF]
  by_cases h1 : q = 1
  · subst h1
    simp [evalZ, gradRaw, hessRaw, hq0]
  · by_cases hle : q ≤ n + 1
    · have hz : ¬ (q - n - 1 > 0) := by omega
      simp only [evalZ, if_neg h1, if_pos hle, gradRaw, hessRaw, if_neg hz, hq0]
      simp only [dotFrom, dotFrom_map_range]
      rw [hlin _ (by omega), show min (n + 1) q - 1 = min n (q - 1) by omega]
      simp only [mul_add, sum_add_distrib, zero_add]
      ring
    · have hpos : q - n - 1 > 0 := by omega
      have hsplit : q - min (n + 1) q = q - n - 1 := by omega
      simp only [evalZ, if_neg h1, if_neg hle, gradRaw, hessRaw, if_pos hpos, hsplit]
      rw [min_comm (q - n - 1) n]
      set nd := min n (q - n - 1) with hnd
      have hng : min n (q - 1) = n := by omega
      rw [hng]
      -- diagonal part
      have hgd : ∑ r ∈ range n, addSlice (fun r => if r < n then P (1 + r) else 0) 0 nd
          (fun j => P (n + 1 + j) * x j) r * d r =
          ∑ j ∈ range n, P (1 + j) * d j + ∑ j ∈ range nd, P (n + 1 + j) * x j * d (0 + j) := by
        rw [sum_addSlice _ _ _ _ _ _ (by omega), hlin n (le_refl _)]
      have hqd : quadF n (fun r s => if r = s ∧ r < nd then P (n + 1 + r) else 0) d =
          ∑ j ∈ range nd, P (n + 1 + j) * d j ^ 2 := by
        unfold quadF
        have h3 : ∀ r ∈ range n, ∑ s ∈ range n, d r * (if r = s ∧ r < nd then P (n + 1 + r) else 0) *
            d s = if r < nd then P (n + 1 + r) * d r ^ 2 else 0 := by
          intro r hr
          rw [sum_eq_single r]
          · by_cases h4 : r < nd
            · simp [h4]; ring
            · simp [h4]
          · intro s _ hs; simp [Ne.symm hs]
          · intro hn; exact absurd hr hn
        rw [sum_congr rfl h3, ← sum_filter]
        congr 1
        ext r
        simp only [mem_filter, mem_range]
        omega
      have hzd : ∀ y : ℕ → K, dotFrom P 0 (1 :: (List.range n).map y ++
          (List.range nd).map (fun j => 1 / 2 * y j ^ 2)) =
          P 0 + ∑ j ∈ range n, P (1 + j) * y j + ∑ j ∈ range nd, P (n + 1 + j) * (1 / 2 * y j ^ 2) := by
        intro y
        rw [dotFrom_append]
        simp only [dotFrom, dotFrom_map_range, List.length_cons, List.length_map, List.length_range]
        simp [add_assoc]
      have hbase : P 0 + ∑ j ∈ range n, P (1 + j) * (x j + d j) +
          ∑ j ∈ range nd, P (n + 1 + j) * (1 / 2 * (x j + d j) ^ 2) =
          (P 0 + ∑ j ∈ range n, P (1 + j) * x j + ∑ j ∈ range nd, P (n + 1 + j) * (1 / 2 * x j ^ 2)) +
          (∑ j ∈ range n, P (1 + j) * d j + ∑ j ∈ range nd, P (n + 1 + j) * x j * d (0 + j)) +
          1 / 2 * ∑ j ∈ range nd, P (n + 1 + j) * d j ^ 2 := by
        have e1 : ∑ j ∈ range n, P (1 + j) * (x j + d j) =
            ∑ j ∈ range n, P (1 + j) * x j + ∑ j ∈ range n, P (1 + j) * d j := by
          rw [← sum_add_distrib]; exact sum_congr rfl fun j _ => by ring
        have e2 : ∑ j ∈ range nd, P (n + 1 + j) * (1 / 2 * (x j + d j) ^ 2) =
            ∑ j ∈ range nd, P (n + 1 + j) * (1 / 2 * x j ^ 2) +
            ∑ j ∈ range nd, P (n + 1 + j) * x j * d (0 + j) +
            1 / 2 * ∑ j ∈ range nd, P (n + 1 + j) * d j ^ 2 := by
          rw [mul_sum, ← sum_add_distrib, ← sum_add_distrib]
          refine sum_congr rfl fun j _ => ?_
          rw [zero_add]
          field_simp
          ring
        rw [e1, e2]; ring
      by_cases hsub : q - n - 1 - nd > 0
      · simp only [if_pos hsub]
        rw [dotFrom_append P _ (zSub n (fun r => x r + d r) _ _ _),
          dotFrom_append P _ (zSub n x _ _ _), hzd, hzd]
        have hlen : ∀ y : ℕ → K, (0 + (1 :: (List.range n).map y ++
          (List.range nd).map (fun j => 1 / 2 * y j ^ 2)).length) = 2 * n + 1 := by
          intro y; simp; omega
        rw [hlen, hlen, sub_identity P x d (n - 1) 0 (2 * n + 1) (q - n - 1 - nd)
          (addSlice (fun r => if r < n then P (1 + r) else 0) 0 nd (fun j => P (n + 1 + j) * x j))
          (fun r s => if r = s ∧ r < nd then P (n + 1 + r) else 0) (by omega)
          (by intro r s hrs; rw [if_neg (by omega)]) h2, hbase, hgd, hqd]
        ring
      · simp only [if_neg hsub]
        rw [hzd, hzd, hbase, hgd, hqd]

end Sqpdfo
