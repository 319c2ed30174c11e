import Verif.Lemmas.Poly
import Verif.Model.Interp
import Mathlib.Tactic.NormNum
import Mathlib.LinearAlgebra.Matrix.Notation
import Mathlib.Tactic.FinCases

/-! # C34, C35, C53: polynomials, their derivatives, shift and scaling -/

set_option linter.unusedSectionVars false

namespace Sqpdfo
open Matrix Finset
variable {K : Type} [Field K] {n q : ℕ}

theorem ext_add (x d : Fin n → K) : ext (x + d) = fun i => ext x i + ext d i := by
  funext i
  unfold ext
  split_ifs <;> simp

theorem zSub_smul (σ : K) (x : ℕ → K) : ∀ c k m, zSub n (fun i => x i * σ) c k m =
    (zSub n x c k m).map (fun z => z * σ ^ 2) := by
  intro c
  induction c with
  | zero => intro k m; simp [zSub]
  | succ c ih =>
    intro k m
    simp only [zSub, ih]
    by_cases h : min (n - k) m > 0
    · simp only [if_pos h]
      split_ifs
      · simp only [List.map_map, Function.comp_def]; congr 1; funext a; ring
      · simp only [List.map_map, List.map_append, Function.comp_def]; congr 2; funext a; ring
    · simp only [if_neg h]
      split_ifs <;> simp

theorem dotFrom_congr (P P' : ℕ → K) (τ : K) : ∀ (l : List K) (off : ℕ),
    (∀ i, off ≤ i → i < off + l.length → P' i = P i * τ) →
    dotFrom P off (l.map (fun z => z * τ)) = dotFrom P' off l := by
  intro l
  induction l with
  | nil => intro off _; rfl
  | cons z zs ih =>
    intro off h
    simp only [List.map_cons, dotFrom]
    rw [ih (off + 1) (fun i h1 h2 => h i (by omega) (by simp; omega)),
      h off (le_refl _) (by simp)]
    ring

/-- The scaling vectors produced by the library: `1`, `n` times `σ`, then `σ²`. -/
def ScaleOf (n : ℕ) (σ : K) (scale : Fin q → K) : Prop :=
  ∀ r : Fin q, scale r = if (r : ℕ) = 0 then 1 else if (r : ℕ) ≤ n then σ else σ ^ 2

/-- Length of the subdiagonal part. -/
theorem zSub_length (x : ℕ → K) : ∀ c k m, c + k = n →
    (zSub n x c k m).length = min m (c * (c + 1) / 2) := by
  intro c
  induction c with
  | zero => intro k m _; simp [zSub]
  | succ c ih =>
    intro k m hk
    have hnk : n - k = c + 1 := by omega
    have htri : (c + 1) * (c + 1 + 1) / 2 = (c + 1) + c * (c + 1) / 2 := by
      rw [show (c + 1) * (c + 1 + 1) = c * (c + 1) + (c + 1) * 2 by ring,
        Nat.add_mul_div_right _ _ (by norm_num)]
      omega
    simp only [zSub, hnk]
    have hpart : (if min (c + 1) m > 0 then (List.range (min (c + 1) m)).map
        (fun j => x (k + j) * x j) else []).length = min (c + 1) m := by
      split_ifs <;> simp; omega
    by_cases h1 : m - min (c + 1) m = 0
    · rw [if_pos h1, hpart]; omega
    · rw [if_neg h1, List.length_append, hpart, ih (k + 1) _ (by omega)]; omega

/-- Size of the full quadratic basis. -/
theorem quad_size (n : ℕ) : (n + 1) * (n + 2) / 2 = 1 + n + n + (n - 1) * (n - 1 + 1) / 2 := by
  rcases n with _ | n
  · rfl
  · rw [show (n + 1 + 1) * (n + 1 + 2) = n * (n + 1) + (2 * n + 3) * 2 by ring,
      Nat.add_mul_div_right _ _ (by norm_num)]
    simp; omega

theorem evalZ_length (x : ℕ → K) (h1 : 1 ≤ q) (h2 : q ≤ (n + 1) * (n + 2) / 2) :
    (evalZ n x q).length = q := by
  rw [quad_size] at h2
  unfold evalZ
  by_cases hq1 : q = 1
  · simp [hq1]
  · by_cases hle : q ≤ n + 1
    · simp only [if_neg hq1, if_pos hle]; simp; omega
    · simp only [if_neg hq1, if_neg hle]
      by_cases hs : q - min (n + 1) q - min n (q - min (n + 1) q) > 0
      · simp only [if_pos hs]
        have hn : 1 ≤ n := by
          by_contra h0
          have : n = 0 := by omega
          subst this; simp at h2; omega
        rw [List.length_append, zSub_length _ _ _ _ (by omega)]
        simp; omega
      · simp only [if_neg hs]; simp; omega

theorem evalZ_smul (σ : K) (P scale : Fin q → K) (x : ℕ → K) (hs : ScaleOf n σ scale)
    (h1 : 1 ≤ q) (h2 : q ≤ (n + 1) * (n + 2) / 2) :
    dotFrom (ext P) 0 (evalZ n (fun i => x i * σ) q) =
      dotFrom (fun i => ext P i * ext scale i) 0 (evalZ n x q) := by
  have hsc : ∀ i, i < q → ext scale i = if i = 0 then 1 else if i ≤ n then σ else σ ^ 2 := by
    intro i hi
    unfold ext
    rw [dif_pos hi, hs]
  have hlen := evalZ_length (n := n) x h1 h2
  have h0 : ext scale 0 = 1 := by rw [hsc 0 (by omega)]; simp
  unfold evalZ at hlen ⊢
  by_cases hq1 : q = 1
  · simp [hq1, dotFrom, h0]
  · by_cases hle : q ≤ n + 1
    · simp only [if_neg hq1, if_pos hle]
      simp only [dotFrom, h0, mul_one]
      congr 1
      rw [dotFrom_map_range, dotFrom_map_range]
      apply sum_congr rfl
      intro j hj
      have hj' := mem_range.1 hj
      rw [hsc _ (by omega), if_neg (by omega), if_pos (by omega)]
      ring
    · simp only [if_neg hq1, if_neg hle] at hlen ⊢
      have hz : ∀ y : ℕ → K, (1 :: (List.range n).map y ++ (List.range (min n (q - min (n + 1) q))).map
          (fun j => 1 / 2 * y j ^ 2)).length = 1 + n + min n (q - min (n + 1) q) := by
        intro y; simp; omega
      have hbase : dotFrom (ext P) 0 (1 :: (List.range n).map (fun i => x i * σ) ++
          (List.range (min n (q - min (n + 1) q))).map (fun j => 1 / 2 * (x j * σ) ^ 2)) =
          dotFrom (fun i => ext P i * ext scale i) 0 (1 :: (List.range n).map x ++
          (List.range (min n (q - min (n + 1) q))).map (fun j => 1 / 2 * x j ^ 2)) := by
        rw [dotFrom_append, dotFrom_append]
        simp only [dotFrom, dotFrom_map_range, List.length_cons, List.length_map,
          List.length_range, h0, mul_one]
        congr 1
        · congr 1
          apply sum_congr rfl
          intro j hj
          have hj' := mem_range.1 hj
          rw [hsc _ (by omega), if_neg (by omega), if_pos (by omega)]
          ring
        · apply sum_congr rfl
          intro j hj
          have hj' := mem_range.1 hj
          rw [hsc _ (by omega), if_neg (by omega), if_neg (by omega)]
          ring
      by_cases hsub : q - min (n + 1) q - min n (q - min (n + 1) q) > 0
      · simp only [if_pos hsub] at hlen ⊢
        rw [dotFrom_append (ext P), dotFrom_append (fun i => ext P i * ext scale i), hbase, hz, hz,
          zSub_smul]
        congr 1
        rw [List.length_append, hz] at hlen
        apply dotFrom_congr
        intro i hi1 hi2
        rw [hsc _ (by omega), if_neg (by omega), if_neg (by omega)]
      · simp only [if_neg hsub]; exact hbase

/-- The change of the polynomial with the shift written out. -/
theorem evalP_shift (σ : K) (P scale : Fin q → K) (x xbase : Fin n → K)
    (hs : ScaleOf n σ scale) (h1 : 2 ≤ q) (hn : 1 ≤ n) (h2 : q ≤ (n + 1) * (n + 2) / 2) :
    evalP P x xbase scale true =
      dotFrom (fun i => ext P i * ext scale i) 0 (evalZ n (fun i => ext x i - ext xbase i) q) := by
  have hσ : ext scale 1 = σ := by
    unfold ext
    rw [dif_pos (by omega), hs]
    simp; omega
  unfold evalP
  rw [if_pos rfl, hσ, evalZ_smul σ P scale _ hs (by omega) h2]

theorem quadF_ext (H : ℕ → ℕ → K) (d : Fin n → K) :
    quadF n H (ext d) = d ⬝ᵥ (Matrix.of fun r s : Fin n => H r s) *ᵥ d := by
  unfold quadF
  rw [Finset.sum_range]
  simp only [dotProduct, mulVec]
  apply sum_congr rfl
  intro r _
  rw [Finset.sum_range, mul_sum]
  apply sum_congr rfl
  intro s _
  simp [ext]; ring

theorem sum_ext (g : ℕ → K) (d : Fin n → K) :
    ∑ r ∈ range n, g r * ext d r = (fun r : Fin n => g r) ⬝ᵥ d := by
  rw [Finset.sum_range]
  simp [dotProduct, ext]

/-- C34: value, gradient and Hessian computed by the library satisfy the exact Taylor identity,
for every number `q` of coefficients up to the full quadratic size (so also for partly filled
subdiagonals), with and without shift.  With the shift the scaling vector must be the one the
library builds (`1`, `n` times `σ`, then `σ²`) and have at least two entries. -/
theorem C34_taylor [CharZero K] (P scale : Fin q → K) (x d xbase : Fin n → K) (shift : Bool)
    (σ : K) (h1 : 1 ≤ q) (h2 : q ≤ (n + 1) * (n + 2) / 2)
    (hs : shift = true → ScaleOf n σ scale ∧ 2 ≤ q ∧ 1 ≤ n) :
    evalP P (x + d) xbase scale shift =
      evalP P x xbase scale shift + gradP P x xbase scale shift ⬝ᵥ d +
      1 / 2 * (d ⬝ᵥ hessP n P scale shift *ᵥ d) := by
  have h20 : (2 : K) ≠ 0 := two_ne_zero
  cases shift with
  | false =>
    unfold evalP gradP hessP
    simp only [Bool.false_eq_true, if_false]
    rw [ext_add, raw_identity h1 _ _ _ h20, sum_ext, quadF_ext]
    rfl
  | true =>
    obtain ⟨hsc, hq2, hn⟩ := hs rfl
    rw [evalP_shift σ P scale _ _ hsc hq2 hn h2, evalP_shift σ P scale _ _ hsc hq2 hn h2]
    unfold gradP hessP
    simp only [if_true]
    have := raw_identity (n := n) h1 (fun i => ext P i * ext scale i)
      (fun i => ext x i - ext xbase i) (ext d) h20
    rw [sum_ext, quadF_ext] at this
    rw [← show dotFrom (fun i => ext P i * ext scale i) 0
      (evalZ n (fun r => ext x r - ext xbase r + ext d r) q) =
      dotFrom (fun i => ext P i * ext scale i) 0
      (evalZ n (fun r => ext (x + d) r - ext xbase r) q) by
        rw [ext_add]; congr 2; funext r; ring]
    rw [this]
    rfl

theorem hSub_apply_far (P : ℕ → K) : ∀ (c i k m : ℕ) (H : ℕ → ℕ → K) (r s : ℕ),
    (∀ r s, H r s = H s r) → hSub n P c i k m H r s = hSub n P c i k m H s r := by
  intro c
  induction c with
  | zero => intro i k m H r s h; exact h r s
  | succ c ih =>
    intro i k m H r s h
    simp only [hSub]
    have hsym : ∀ r s, (if min (n - i - 1) m > 0 then hRow P i k (min (n - i - 1) m) H else H) r s =
        (if min (n - i - 1) m > 0 then hRow P i k (min (n - i - 1) m) H else H) s r := by
      intro r s
      split_ifs
      · rw [hRow_apply, hRow_apply, h r s]
        split_ifs <;> first | rfl | (exfalso; omega)
      · exact h r s
    split_ifs with h1 h2 h2
    · simp only [if_pos h1] at hsym; exact hsym r s
    · simp only [if_pos h1] at hsym; exact ih _ _ _ _ r s hsym
    · exact h r s
    · exact ih _ _ _ _ r s h

theorem hessRaw_symm (P : ℕ → K) (q r s : ℕ) : hessRaw n q P r s = hessRaw n q P s r := by
  simp only [hessRaw]
  by_cases h : q - n - 1 > 0
  · simp only [if_pos h]
    have hd : ∀ r s, (fun r s => if r = s ∧ r < min (q - n - 1) n then P (n + 1 + r) else 0) r s =
        (fun r s => if r = s ∧ r < min (q - n - 1) n then P (n + 1 + r) else (0 : K)) s r := by
      intro r s
      simp only
      by_cases hrs : r = s
      · subst hrs; rfl
      · rw [if_neg (by omega), if_neg (by omega)]
    split_ifs with h2
    · exact hSub_apply_far P _ _ _ _ _ r s hd
    · exact hd r s
  · simp only [if_neg h]

/-- C35: the monomial vector has exactly the requested length; the Hessian is symmetric, zero for
linear polynomials and diagonal as long as there are at most `2n+1` coefficients. -/
theorem C35_shapes (P scale : Fin q → K) (shift : Bool) (x : Fin n → K) :
    (1 ≤ q → q ≤ (n + 1) * (n + 2) / 2 → (evalZ n (ext x) q).length = q) ∧
    (∀ i j, hessP n P scale shift i j = hessP n P scale shift j i) ∧
    (q ≤ n + 1 → hessP n P scale shift = 0) ∧
    (q ≤ 2 * n + 1 → ∀ i j, i ≠ j → hessP n P scale shift i j = 0) := by
  refine ⟨fun h1 h2 => evalZ_length _ h1 h2, ?_, ?_, ?_⟩
  · intro i j
    unfold hessP
    cases shift
    · exact hessRaw_symm _ _ _ _
    · exact hessRaw_symm _ _ _ _
  · intro hle
    have : ¬ (q - n - 1 > 0) := by omega
    ext i j
    unfold hessP
    cases shift <;> simp [hessRaw, this]
  · intro hle i j hij
    have hne : ¬ ((i : ℕ) = j) := fun h => hij (Fin.ext h)
    have : ∀ P' : ℕ → K, hessRaw n q P' i j = 0 := by
      intro P'
      simp only [hessRaw]
      by_cases h : q - n - 1 > 0
      · simp only [if_pos h, if_neg (show ¬ (q - n - 1 - min (q - n - 1) n > 0) by omega)]
        rw [if_neg (by omega)]
      · simp only [if_neg h]
    unfold hessP
    cases shift <;> simp [this]

/-- Instance: `1 + 2x + 3y + 4·x²/2 + 5·y²/2 + 6xy` at `(1, 1)`. -/
example : evalP (![1, 2, 3, 4, 5, 6] : Fin 6 → ℚ) ![1, 1] ![0, 0] (fun _ => 1) false = 33 / 2 ∧
    gradP (![1, 2, 3, 4, 5, 6] : Fin 6 → ℚ) ![1, 1] ![0, 0] (fun _ => 1) false = ![12, 14] ∧
    hessP 2 (![1, 2, 3, 4, 5, 6] : Fin 6 → ℚ) (fun _ => 1) false = !![4, 6; 6, 5] := by
  refine ⟨by decide +kernel, ?_, ?_⟩
  · funext i; fin_cases i <;> decide +kernel
  · ext i j; fin_cases i <;> fin_cases j <;> decide +kernel

/-- With `n = 3` and 8 coefficients the first subdiagonal is only partly filled. -/
example : hessP 3 (![1, 0, 0, 0, 1, 1, 1, 7] : Fin 8 → ℚ) (fun _ => 1) false =
    !![1, 7, 0; 7, 1, 0; 0, 0, 1] := by
  ext i j; fin_cases i <;> fin_cases j <;> decide +kernel

/-! ## C53 -/

theorem addSlice_scale (σ : K) (g g' v v' : ℕ → K) (a m : ℕ) (hg : ∀ r, g' r = σ * g r)
    (hv : ∀ j, j < m → v' j = σ * v j) (r : ℕ) :
    addSlice g' a m v' r = σ * addSlice g a m v r := by
  unfold addSlice
  split_ifs with h
  · rw [hg, hv _ (by omega)]; ring
  · exact hg r

theorem gSub_scale (σ : K) (P P' x : ℕ → K) (q : ℕ) (hP : ∀ i, n < i → i < q → P' i = P i * σ ^ 2) :
    ∀ (c i k m : ℕ) (g g' : ℕ → K), n < k → k + m ≤ q → (∀ r, g' r = σ * g r) → ∀ r,
    gSub n P' x c i k m g' r = σ * gSub n P (fun i => x i * σ) c i k m g r := by
  intro c
  induction c with
  | zero => intro i k m g g' _ _ h r; exact h r
  | succ c ih =>
    intro i k m g g' hk hq hg r
    simp only [gSub]
    by_cases h1 : min (n - i - 1) m > 0
    · simp only [if_pos h1]
      have hstep : ∀ r, addSlice (addSlice g' (i + 1) (min (n - i - 1) m) (fun j => P' (k + j) * x j))
          0 (min (n - i - 1) m) (fun j => P' (k + j) * x (i + 1 + j)) r =
          σ * addSlice (addSlice g (i + 1) (min (n - i - 1) m) (fun j => P (k + j) * (x j * σ)))
          0 (min (n - i - 1) m) (fun j => P (k + j) * (x (i + 1 + j) * σ)) r := by
        apply addSlice_scale
        · apply addSlice_scale _ _ _ _ _ _ _ hg
          intro j hj
          rw [hP _ (by omega) (by omega)]; ring
        · intro j hj
          rw [hP _ (by omega) (by omega)]; ring
      split_ifs
      · exact hstep r
      · exact ih _ _ _ _ _ (by omega) (by omega) hstep r
    · simp only [if_neg h1]
      split_ifs
      · exact hg r
      · exact ih _ _ _ _ _ hk hq hg r

theorem hRow_scale (τ : K) (P P' : ℕ → K) (i k nsd : ℕ) (H H' : ℕ → ℕ → K)
    (hP : ∀ j, j < nsd → P' (k + j) = τ * P (k + j)) (hH : ∀ r s, H' r s = τ * H r s) (r s : ℕ) :
    hRow P' i k nsd H' r s = τ * hRow P i k nsd H r s := by
  rw [hRow_apply, hRow_apply]
  split_ifs with h1 h2
  · exact hP _ h1.1
  · exact hP _ h2.1
  · exact hH r s

theorem hSub_scale (σ : K) (P P' : ℕ → K) (q : ℕ) (hP : ∀ i, n < i → i < q → P' i = P i * σ ^ 2) :
    ∀ (c i k m : ℕ) (H H' : ℕ → ℕ → K), n < k → k + m ≤ q → (∀ r s, H' r s = σ ^ 2 * H r s) →
    ∀ r s, hSub n P' c i k m H' r s = σ ^ 2 * hSub n P c i k m H r s := by
  intro c
  induction c with
  | zero => intro i k m H H' _ _ h r s; exact h r s
  | succ c ih =>
    intro i k m H H' hk hq hH r s
    simp only [hSub]
    by_cases h1 : min (n - i - 1) m > 0
    · simp only [if_pos h1]
      have hstep := hRow_scale (σ ^ 2) P P' i k (min (n - i - 1) m) H H'
        (fun j hj => by rw [hP _ (by omega) (by omega)]; ring) hH
      split_ifs
      · exact hstep r s
      · exact ih _ _ _ _ _ (by omega) (by omega) hstep r s
    · simp only [if_neg h1]
      split_ifs
      · exact hH r s
      · exact ih _ _ _ _ _ hk hq hH r s

theorem gradRaw_scale (σ : K) (P P' x : ℕ → K) (q : ℕ) (h1 : ∀ i, 1 ≤ i → i ≤ n → i < q → P' i = P i * σ)
    (h2 : ∀ i, n < i → i < q → P' i = P i * σ ^ 2) (r : ℕ) :
    gradRaw n q P' x r = σ * gradRaw n q P (fun i => x i * σ) r := by
  have hlin : ∀ r, (if r < min n (q - 1) then P' (1 + r) else 0) =
      σ * (if r < min n (q - 1) then P (1 + r) else 0) := by
    intro r
    by_cases h : r < min n (q - 1)
    · rw [if_pos h, if_pos h, h1 _ (by omega) (by omega) (by omega)]; ring
    · rw [if_neg h, if_neg h]; simp
  simp only [gradRaw]
  by_cases hq : q - n - 1 > 0
  · simp only [if_pos hq]
    have hd := addSlice_scale σ (fun r => if r < min n (q - 1) then P (1 + r) else 0)
      (fun r => if r < min n (q - 1) then P' (1 + r) else 0)
      (fun j => P (n + 1 + j) * (x j * σ)) (fun j => P' (n + 1 + j) * x j) 0 (min (q - n - 1) n) hlin
      (fun j hj => by rw [h2 _ (by omega) (by omega)]; ring)
    by_cases hs : q - n - 1 - min (q - n - 1) n > 0
    · simp only [if_pos hs]
      exact gSub_scale σ P P' x q h2 _ _ _ _ _ _ (by omega) (by omega) hd r
    · simp only [if_neg hs]; exact hd r
  · simp only [if_neg hq]; exact hlin r

theorem hessRaw_scale (σ : K) (P P' : ℕ → K) (q : ℕ)
    (h2 : ∀ i, n < i → i < q → P' i = P i * σ ^ 2) (r s : ℕ) :
    hessRaw n q P' r s = σ ^ 2 * hessRaw n q P r s := by
  simp only [hessRaw]
  by_cases hq : q - n - 1 > 0
  · simp only [if_pos hq]
    have hd : ∀ r s, (if r = s ∧ r < min (q - n - 1) n then P' (n + 1 + r) else 0) =
        σ ^ 2 * (if r = s ∧ r < min (q - n - 1) n then P (n + 1 + r) else 0) := by
      intro r s
      by_cases h : r = s ∧ r < min (q - n - 1) n
      · rw [if_pos h, if_pos h, h2 _ (by omega) (by omega)]; ring
      · rw [if_neg h, if_neg h]; simp
    by_cases hs : q - n - 1 - min (q - n - 1) n > 0
    · simp only [if_pos hs]
      exact hSub_scale σ P P' q h2 _ _ _ _ _ _ (by omega) (by omega) hd r s
    · simp only [if_neg hs]; exact hd r s
  · simp only [if_neg hq]; simp

/-- C53, chain rule: with the scaling vector of the library, value, gradient and Hessian with
shift are those of the unshifted polynomial at `σ (x - xbase)`, multiplied by `1`, `σ`, `σ²`. -/
theorem C53_chain_rule (P scale : Fin q → K) (x xbase : Fin n → K) (σ : K)
    (hs : ScaleOf n σ scale) (hq : 2 ≤ q) (hn : 1 ≤ n) :
    evalP P x xbase scale true = evalP P (fun i => (x i - xbase i) * σ) 0 scale false ∧
    (∀ i, gradP P x xbase scale true i =
      σ * gradP P (fun i => (x i - xbase i) * σ) 0 scale false i) ∧
    ∀ i j, hessP n P scale true i j = σ ^ 2 * hessP n P scale false i j := by
  have hσ : ext scale 1 = σ := by
    unfold ext
    rw [dif_pos (by omega), hs]
    simp; omega
  have hx : ∀ r, r < n → ext (fun i => (x i - xbase i) * σ) r = (ext x r - ext xbase r) * σ := by
    intro r hr
    simp [ext, hr]
  have hx' : ext (fun i => (x i - xbase i) * σ) = fun r => (ext x r - ext xbase r) * σ := by
    funext r
    by_cases hr : r < n
    · exact hx r hr
    · simp [ext, hr]
  have hsc : ∀ i, i < q → ext scale i = if i = 0 then 1 else if i ≤ n then σ else σ ^ 2 := by
    intro i hi
    unfold ext
    rw [dif_pos hi, hs]
  refine ⟨?_, ?_, ?_⟩
  · unfold evalP
    rw [if_pos rfl, if_neg (by simp), hσ, hx']
  · intro i
    unfold gradP
    rw [if_pos rfl, if_neg (by simp), hx']
    apply gradRaw_scale
    · intro i h1 h2 h3
      rw [hsc i h3, if_neg (by omega), if_pos h2]
    · intro i h1 h2
      rw [hsc i h2, if_neg (by omega), if_neg (by omega)]
  · intro i j
    unfold hessP
    rw [if_pos rfl, if_neg (by simp)]
    apply hessRaw_scale
    intro i h1 h2
    rw [hsc i h2, if_neg (by omega), if_neg (by omega)]

/-! The frame built by the library -/

theorem foldl_max_spec {ι : Type} (f : ι → ℝ) : ∀ (l : List ι) (a : ℝ),
    a ≤ l.foldl (fun s i => max s (f i)) a ∧ (∀ i ∈ l, f i ≤ l.foldl (fun s i => max s (f i)) a) ∧
    (l.foldl (fun s i => max s (f i)) a = a ∨ ∃ i ∈ l, l.foldl (fun s i => max s (f i)) a = f i) := by
  intro l
  induction l with
  | nil => intro a; simp
  | cons b l ih =>
    intro a
    obtain ⟨h1, h2, h3⟩ := ih (max a (f b))
    refine ⟨le_trans (le_max_left _ _) h1, ?_, ?_⟩
    · intro i hi
      rcases List.mem_cons.1 hi with rfl | hi
      · exact le_trans (le_max_right _ _) h1
      · exact h2 i hi
    · rcases h3 with h3 | ⟨i, hi, h3⟩
      · rw [List.foldl_cons, h3]
        rcases max_choice a (f b) with h | h
        · exact Or.inl h
        · exact Or.inr ⟨b, by simp, h⟩
      · exact Or.inr ⟨i, by simp [hi], h3⟩

theorem enorm2_nonneg (v : Fin n → ℝ) : 0 ≤ enorm2 v := Real.sqrt_nonneg _

theorem enorm2_smul (c : ℝ) (hc : 0 ≤ c) (v : Fin n → ℝ) : enorm2 (c • v) = c * enorm2 v := by
  unfold enorm2
  rw [smul_dotProduct, dotProduct_smul, smul_smul, smul_eq_mul, Real.sqrt_mul (mul_self_nonneg c),
    Real.sqrt_mul_self hc]

theorem enorm2_eq_zero {v : Fin n → ℝ} (h : enorm2 v = 0) : v = 0 := by
  unfold enorm2 at h
  have h0 : 0 ≤ v ⬝ᵥ v := Finset.sum_nonneg (fun i _ => mul_self_nonneg (v i))
  have h1 := (Real.sqrt_eq_zero h0).1 h
  funext i
  have := (Finset.sum_eq_zero_iff_of_nonneg (fun i _ => mul_self_nonneg (v i))).1 h1 i (mem_univ i)
  exact mul_self_eq_zero.1 this

variable {p : ℕ}

theorem scaleY_spec (Y : Fin (p + 1) → Fin n → ℝ) (hd : ∃ j, Y j ≠ Y 0) :
    0 < scaleY Y ∧ (∀ j, enorm2 (Y j - Y 0) ≤ scaleY Y) ∧ ∃ j, enorm2 (Y j - Y 0) = scaleY Y := by
  obtain ⟨h1, h2, h3⟩ := foldl_max_spec (fun i => enorm2 (Y i - Y 0)) (List.finRange (p + 1)) 0
  obtain ⟨j, hj⟩ := hd
  have hpos : 0 < enorm2 (Y j - Y 0) := by
    refine lt_of_le_of_ne (enorm2_nonneg _) (fun h => hj ?_)
    exact sub_eq_zero.1 (enorm2_eq_zero h.symm)
  have hj2 := h2 j (List.mem_finRange j)
  have hsp : 0 < scaleY Y := lt_of_lt_of_le hpos hj2
  refine ⟨hsp, fun j => h2 j (List.mem_finRange j), ?_⟩
  rcases h3 with h3 | ⟨i, _, h3⟩
  · exact absurd h3 (ne_of_gt hsp)
  · exact ⟨i, h3.symm⟩

/-- C53, shift: for at least two distinct points the base point is mapped to the origin, all
points into the closed unit ball, one of them onto the sphere; the transformation is the one
used by the evaluation (`(x - xbase) * scale[1]`), the scaling vector has the form assumed in the
chain rule, and the interpolation points are recovered from the transformed ones. -/
theorem C53_shift (Y : Fin (p + 1) → Fin n → ℝ) (hd : ∃ j, Y j ≠ Y 0) (hq : n + 1 ≤ q) (hn : 1 ≤ n) :
    let F := buildFrame q Y true
    F.pts 0 = 0 ∧ (∀ j, enorm2 (F.pts j) ≤ 1) ∧ (∃ j, enorm2 (F.pts j) = 1) ∧
    (∃ σ, 0 < σ ∧ ScaleOf n σ F.scale ∧ ∀ j i, F.pts j i = (Y j i - F.xbase i) * σ) ∧
    F.xbase = Y 0 := by
  obtain ⟨hs, hle, heq⟩ := scaleY_spec Y hd
  have hp : p + 1 > 1 := by
    obtain ⟨j, hj⟩ := hd
    by_contra h
    apply hj
    have : j = 0 := Fin.ext (by have := j.2; simp; omega)
    rw [this]
  have hF : buildFrame q Y true = { xbase := Y 0, scale := scaleVec n q (scaleY Y)
                                    pts := fun j i => (Y j i - Y 0 i) / scaleY Y } := by
    unfold buildFrame; rw [if_pos ⟨rfl, hp⟩]
  have hpt : ∀ j, (fun i => (Y j i - Y 0 i) / scaleY Y) = (scaleY Y)⁻¹ • (Y j - Y 0) := by
    intro j; funext i; simp [div_eq_inv_mul]
  simp only [hF]
  refine ⟨?_, ?_, ?_, ⟨(scaleY Y)⁻¹, inv_pos.2 hs, ?_, ?_⟩, trivial⟩
  · rw [hpt]; simp
  · intro j
    rw [hpt, enorm2_smul _ (inv_pos.2 hs).le, inv_mul_le_iff₀ hs, mul_one]
    exact hle j
  · obtain ⟨j, hj⟩ := heq
    refine ⟨j, ?_⟩
    rw [hpt, enorm2_smul _ (inv_pos.2 hs).le, hj, inv_mul_cancel₀ hs.ne']
  · intro r
    unfold scaleVec
    have : min n (q - 1) = n := by omega
    rw [this]
    split_ifs <;> simp
  · intro j i
    rw [div_eq_mul_inv]

/-- Instance: two points on the line. -/
example : ∃ j, (![![1], ![3]] : Fin 2 → Fin 1 → ℝ) j ≠ ![![1], ![3]] 0 := by
  refine ⟨1, fun h => ?_⟩
  have := congrFun h 0
  norm_num at this

#print axioms C34_taylor
#print axioms C35_shapes
#print axioms C53_chain_rule
#print axioms C53_shift

end Sqpdfo
