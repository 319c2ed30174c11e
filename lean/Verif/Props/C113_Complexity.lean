import Verif.Props.C82_C84_StepDetail
import Verif.Props.C111_Successful
import Verif.Props.C112_Cauchy

/-! # C113: how many passes an unconstrained run can make -/

set_option linter.unusedSectionVars false

namespace Sqpdfo
open Spec Matrix
variable {K F : Type} [Field K] [LinearOrder K] [IsStrictOrderedRing K]

/-- A pass from `s` to `t` with a model that is good enough: no improvement of the set, the radius is above `1e-5`, the predicted decrease is at
least `ε`, the step is at most 5/2 times as long as the radius. -/
structure Spec.Descends (e : Env K F) (ε : K) (o : Orc K F) (s t : MSt K F) : Prop where
  noImprove : ¬ Improves e o s
  radius : 1 / 10 ^ 5 < s.delta
  pred : ε ≤ t.pred
  length : 2 * e.nrm (List.zipWith (· - ·) o.xnew s.x) ≤ 5 * s.delta

/-- All passes of a run are like that. -/
def Spec.DescendsAll (e : Env K F) (ε : K) (os : List (Orc K F)) (s0 : MSt K F) : Prop :=
  ∀ pre o post s t, os = pre ++ o :: post → mainLoop e pre s0 = .running s → pass e o s = .cont t → Descends e ε o s t

/-- One pass: a step that is taken multiplies the radius by at most 5, any other one halves it at least. -/
theorem descend_radius {e : Env K F} {x0 : List K} {fuel : ℕ} {Δ : K} {sl : List K} {s0 : MSt K F}
    (H : Starts e x0 fuel Δ sl s0) (hns : e.ns = 0) {os : List (Orc K F)} {s : MSt K F} (h : mainLoop e os s0 = .running s)
    {o : Orc K F} {t : MSt K F} (ht : pass e o s = .cont t) {ε : K} (hε : 0 < ε) (hD : Descends e ε o s t) :
    (Taken t → t.delta ≤ 5 * s.delta) ∧ (¬ Taken t → t.delta ≤ 1 / 2 * s.delta) := by
  have hI : Inv e [] t := by
    have := pass_sat e H.ok o s (H.memory os s h).inv; rw [ht] at this; exact this.1
  have hd0 : 0 < s.delta := lt_trans (by positivity) hD.radius
  obtain ⟨d, norms, f, x, sl', hn, -, -, hnorm, hout, hin, htak⟩ := C83_radius H os s h o t ht
    (fun h1 => by have := hD.pred; rw [h1] at this; linarith)
  obtain ⟨rfl, rfl, -⟩ := hn hD.noImprove
  rw [if_neg (by omega)] at hnorm
  have hT : Taken t ↔ t.ixbest = t.m := by
    unfold Taken
    rw [hI.Xlen]; omega
  refine ⟨fun h1 => ?_, fun h1 => ?_⟩
  · have := (htak (hT.1 h1)).1
    rw [max_eq_left (by rw [hnorm]; exact hD.length)] at this
    exact this
  · rw [hT] at h1
    by_cases hm : t.m ∈ t.set.ind
    · rw [(hin hm h1).1 hD.radius]
    · obtain ⟨k, hk, hk1, hk2⟩ := hout hm
      have hk0 : 0 ≤ k ∧ k ≤ 1 / 2 := by
        have h100 : (0 : K) ≤ 1 / 100 ∧ (1 : K) / 100 ≤ 1 / 2 := ⟨by norm_num, by norm_num⟩
        by_cases hu : ∃! g, Interpolates t.fx f o.gTs t.pred g
        · obtain ⟨g, hg, hgu⟩ := hu
          rw [hk1 g fun g' => ⟨fun h2 => hgu g' h2, fun h2 => by rw [h2]; exact hg⟩]
          exact ⟨le_trans h100.1 (le_max_left _ _), max_le h100.2 (min_le_right _ _)⟩
        · obtain ⟨a, b⟩ := hk2 hu
          rcases le_or_gt o.gTs 0 with hg | hg
          · rw [a hg]; exact ⟨by norm_num, le_refl _⟩
          · rw [b hg]; exact h100
      rw [hk]
      calc k * min s.delta norms ≤ k * s.delta := mul_le_mul_of_nonneg_left (min_le_left _ _) hk0.1
        _ ≤ 1 / 2 * s.delta := mul_le_mul_of_nonneg_right hk0.2 hd0.le

theorem gains_snoc (e : Env K F) {os : List (Orc K F)} {s0 s t : MSt K F} {o : Orc K F} (h : mainLoop e os s0 = .running s)
    (ht : pass e o s = .cont t) : (gains Taken e (os ++ [o]) s0).length = (gains Taken e os s0).length + if Taken t then 1 else 0 := by
  rw [gains_append _ _ _ _ _ _ _ h ht, List.length_append]
  split_ifs <;> rfl

theorem running_snoc {e : Env K F} {os : List (Orc K F)} {o : Orc K F} {s0 t : MSt K F} (h : mainLoop e (os ++ [o]) s0 = .running t) :
    ∃ s, mainLoop e os s0 = .running s ∧ pass e o s = .cont t := by
  induction os generalizing s0 with
  | nil =>
    refine ⟨s0, rfl, ?_⟩
    simp only [List.nil_append, mainLoop] at h
    cases hp : pass e o s0 with
    | ret r => rw [hp] at h; cases h
    | crash c => rw [hp] at h; cases h
    | cont r => rw [hp] at h; simpa using h
  | cons a os ih =>
    simp only [List.cons_append, mainLoop] at h ⊢
    cases hp : pass e a s0 with
    | ret r => rw [hp] at h; cases h
    | crash c => rw [hp] at h; cases h
    | cont r => rw [hp] at h; exact ih h

theorem descendsAll_init {e : Env K F} {ε : K} {os : List (Orc K F)} {o : Orc K F} {s0 : MSt K F} (h : DescendsAll e ε (os ++ [o]) s0) :
    DescendsAll e ε os s0 := fun pre o' post s t h1 h2 h3 => h pre o' (post ++ [o]) s t (by rw [h1]; simp) h2 h3

/-- The radius after `N` passes with `S` steps taken. -/
theorem descend_power {e : Env K F} {x0 : List K} {fuel : ℕ} {Δ : K} {sl : List K} {s0 : MSt K F}
    (H : Starts e x0 fuel Δ sl s0) (hns : e.ns = 0) {ε : K} (hε : 0 < ε) (os : List (Orc K F)) : ∀ {t : MSt K F},
    mainLoop e os s0 = .running t → DescendsAll e ε os s0 →
    t.delta * 2 ^ os.length ≤ s0.delta * 2 ^ (4 * (gains Taken e os s0).length) := by
  induction os using List.reverseRecOn with
  | nil =>
    intro t h _
    simp only [mainLoop, MainRes.running.injEq] at h
    subst h
    simp [gains]
  | append_singleton os o ih =>
    intro t h hD
    obtain ⟨s, h1, h2⟩ := running_snoc h
    have hi := ih h1 (descendsAll_init hD)
    have hd := hD os o [] s t rfl h1 h2
    have hs : 0 < s.delta := lt_trans (by positivity) hd.radius
    obtain ⟨r1, r2⟩ := descend_radius H hns h1 h2 hε hd
    rw [gains_snoc e h1 h2, List.length_append, List.length_singleton, pow_succ]
    have hp : (0 : K) < 2 ^ os.length := by positivity
    by_cases hT : Taken t
    · rw [if_pos hT, show 4 * ((gains Taken e os s0).length + 1) = 4 * (gains Taken e os s0).length + 4 by ring, pow_add]
      have h3 : t.delta * 2 ^ os.length ≤ 5 * (s.delta * 2 ^ os.length) := by
        have := mul_le_mul_of_nonneg_right (r1 hT) hp.le
        linarith
      have h4 : 0 < s.delta * 2 ^ os.length := mul_pos hs hp
      nlinarith
    · rw [if_neg hT, Nat.add_zero]
      have := mul_le_mul_of_nonneg_right (r2 hT) hp.le
      linarith

/-- **C113** (passes and steps).  With `10^5 Delta ≤ 2^L` such a run makes at most `4 S + L` passes, `S` the number of steps taken. -/
theorem C113_passes {e : Env K F} {x0 : List K} {fuel : ℕ} {Δ : K} {sl : List K} {s0 : MSt K F}
    (H : Starts e x0 fuel Δ sl s0) (hns : e.ns = 0) {ε : K} (hε : 0 < ε) (os : List (Orc K F)) (t : MSt K F)
    (h : mainLoop e os s0 = .running t) (hD : DescendsAll e ε os s0) (L : ℕ) (hL : s0.delta * 10 ^ 5 ≤ 2 ^ L) :
    os.length ≤ 4 * (gains Taken e os s0).length + L := by
  rcases List.eq_nil_or_concat os with rfl | ⟨os', o, rfl⟩
  · simp
  rw [List.concat_eq_append] at *
  obtain ⟨s, h1, h2⟩ := running_snoc h
  have hp := descend_power H hns hε os' h1 (descendsAll_init hD)
  have hr := (hD os' o [] s t rfl h1 h2).radius
  have hlt : os'.length < 4 * (gains Taken e os' s0).length + L := by
    by_contra hcon
    have hle : 4 * (gains Taken e os' s0).length + L ≤ os'.length := not_lt.1 hcon
    have h3 : (2 : K) ^ (4 * (gains Taken e os' s0).length + L) ≤ 2 ^ os'.length := pow_le_pow_right₀ (by norm_num) hle
    rw [pow_add] at h3
    have hS : (0 : K) < 2 ^ (4 * (gains Taken e os' s0).length) := by positivity
    have hN : (0 : K) < 2 ^ os'.length := by positivity
    have h4 : 2 ^ (4 * (gains Taken e os' s0).length) * (s0.delta * 10 ^ 5) ≤ 2 ^ (4 * (gains Taken e os' s0).length) * 2 ^ L :=
      mul_le_mul_of_nonneg_left hL hS.le
    have h5 : 1 / 10 ^ 5 * 2 ^ os'.length < s.delta * 2 ^ os'.length := mul_lt_mul_of_pos_right hr hN
    have h6 : (2 : K) ^ os'.length < s.delta * 2 ^ os'.length * 10 ^ 5 := by
      have : (1 : K) / 10 ^ 5 * 2 ^ os'.length * 10 ^ 5 = 2 ^ os'.length := by ring
      linarith [mul_lt_mul_of_pos_right h5 (show (0 : K) < 10 ^ 5 by positivity)]
    nlinarith [mul_le_mul_of_nonneg_right hp (show (0 : K) ≤ 10 ^ 5 by positivity)]
  rw [gains_snoc e h1 h2, List.length_append, List.length_singleton]
  split_ifs <;> omega

theorem length_le_sum (l : List K) {ε : K} (h : ∀ p ∈ l, ε ≤ p) : (l.length : K) * ε ≤ l.sum := by
  induction l with
  | nil => simp
  | cons a l ih =>
    rw [List.length_cons, List.sum_cons]
    push_cast
    linarith [h a List.mem_cons_self, ih fun p hp => h p (List.mem_cons_of_mem _ hp)]

theorem gains_ge {e : Env K F} {ε : K} : ∀ (os : List (Orc K F)) (s0 : MSt K F), DescendsAll e ε os s0 →
    ∀ p ∈ gains Taken e os s0, ε ≤ p := by
  intro os
  induction os with
  | nil => intro s0 _ p hp; cases hp
  | cons o os ih =>
    intro s0 hD p hp
    simp only [gains] at hp
    cases hq : pass e o s0 with
    | ret r => rw [hq] at hp; cases hp
    | crash c => rw [hq] at hp; cases hp
    | cont t =>
      rw [hq] at hp
      have hi := ih t fun pre o' post s u h1 h2 h3 => hD (o :: pre) o' post s u (by rw [h1]; rfl) (by simp only [mainLoop, hq]; exact h2) h3
      dsimp only at hp
      split_ifs at hp
      · rcases List.mem_cons.1 hp with rfl | hp
        · exact (hD [] o os s0 t rfl rfl hq).pred
        · exact hi p hp
      · exact hi p hp

/-- **C113.**  Without constraints: if all passes have predicted decreases of at least `ε`, radii above `1e-5` and models good enough, trial
points can enter the set and no recorded value is below `low`, the number of passes is at most
`4·10^4 (f(x0) - low) / ε + L`, where `10^5 Delta ≤ 2^L`. -/
theorem C113_complexity {e : Env K F} {x0 : List K} {fuel : ℕ} {Δ : K} {sl : List K} {s0 : MSt K F}
    (H : Starts e x0 fuel Δ sl s0) (hme : e.me = 0) (hns : e.ns = 0) {ε : K} (hε : 0 < ε) (os : List (Orc K F)) (t : MSt K F)
    (h : mainLoop e os s0 = .running t) (hD : DescendsAll e ε os s0)
    (hE : ∀ pre o post u, os = pre ++ o :: post → mainLoop e pre s0 = .running u → ∀ v, beforeStep e o u = .cont v → Enters e o v)
    (L : ℕ) (hL : s0.delta * 10 ^ 5 ≤ 2 ^ L) (low : K) (hlow : ∀ q, .fin q ∈ t.ev.fX → low ≤ q) :
    ∃ b, t.ev.X[0]? = some x0 ∧ t.ev.fX[0]? = some (.fin b) ∧ (os.length : K) * ε ≤ 4 * 10 ^ 4 * (b - low) + L * ε := by
  obtain ⟨b, q, h1, h2, -, h4, h5, -⟩ := C111_all H hme hns os hE t (Or.inl h)
  refine ⟨b, h1, h2, ?_⟩
  have h6 := C113_passes H hns hε os t h hD L hL
  have h7 := length_le_sum _ (gains_ge os s0 hD)
  have hq := hlow q (List.mem_of_getElem? h4)
  have h8 : (os.length : K) ≤ 4 * ((gains Taken e os s0).length : K) + L := by exact_mod_cast h6
  have h9 := mul_le_mul_of_nonneg_right h8 hε.le
  linarith

/-- **C113, with the decrease of C112.**  If each step has at least the Cauchy decrease for a gradient of length at least `tol`, the radius
`(1 - 1e-7) δ` and the curvature bound `B`, the number of passes is at most `4·10^4 (f(x0) - low) / ε + L` with the constant
`ε = tol/2 · min((1 - 1e-7)·1e-5, tol/B)`. -/
theorem C113_gradient {e : Env K F} {x0 : List K} {fuel : ℕ} {Δ : K} {sl : List K} {s0 : MSt K F}
    (H : Starts e x0 fuel Δ sl s0) (hme : e.me = 0) (hns : e.ns = 0) (os : List (Orc K F)) (t : MSt K F)
    (h : mainLoop e os s0 = .running t) (tol B : K) (htol : 0 < tol) (hB : 0 < B)
    (hD : ∀ pre o post s u, os = pre ++ o :: post → mainLoop e pre s0 = .running s → pass e o s = .cont u →
      ¬ Improves e o s ∧ 1 / 10 ^ 5 < s.delta ∧ 2 * e.nrm (List.zipWith (· - ·) o.xnew s.x) ≤ 5 * s.delta ∧ o.rpred = 0 ∧
      ∃ a, tol ≤ a ∧ o.qcost ≤ - cauchyDec a ((1 - 1 / 10 ^ 7) * s.delta) B)
    (hE : ∀ pre o post u, os = pre ++ o :: post → mainLoop e pre s0 = .running u → ∀ v, beforeStep e o u = .cont v → Enters e o v)
    (L : ℕ) (hL : s0.delta * 10 ^ 5 ≤ 2 ^ L) (low : K) (hlow : ∀ q, .fin q ∈ t.ev.fX → low ≤ q) :
    ∃ b, t.ev.X[0]? = some x0 ∧ t.ev.fX[0]? = some (.fin b) ∧
      (os.length : K) * (tol / 2 * min ((1 - 1 / 10 ^ 7) / 10 ^ 5) (tol / B)) ≤
        4 * 10 ^ 4 * (b - low) + L * (tol / 2 * min ((1 - 1 / 10 ^ 7) / 10 ^ 5) (tol / B)) := by
  have hc : (0 : K) < 1 - 1 / 10 ^ 7 := by norm_num
  have hε : 0 < tol / 2 * min ((1 - 1 / 10 ^ 7) / 10 ^ 5) (tol / B) :=
    mul_pos (by linarith) (lt_min (by positivity) (div_pos htol hB))
  refine C113_complexity H hme hns hε os t h (fun pre o post s u h1 h2 h3 => ?_) hE L hL low hlow
  obtain ⟨c1, c2, c3, c4, a, c5, c6⟩ := hD pre o post s u h1 h2 h3
  refine ⟨c1, c2, ?_, c3⟩
  have hI := (H.memory pre s h2).inv
  obtain ⟨v, w, x, -, -, -, -, -, -, -, -, -, -, B', -, -, hd⟩ := pass_before e H.ok o s u hI h3
  obtain ⟨fr, -⟩ := decideStep_outcome e o _ w u B'.inv hd
  have hpred : u.pred = newPred o w.sigma := fr.pred
  have hle : tol / 2 * min ((1 - 1 / 10 ^ 7) / 10 ^ 5) (tol / B) ≤ - o.qcost := by
    have h4 : tol / 2 * min ((1 - 1 / 10 ^ 7) / 10 ^ 5) (tol / B) = cauchyDec tol ((1 - 1 / 10 ^ 7) / 10 ^ 5) B := by
      unfold cauchyDec; ring
    have h5 : (1 - 1 / 10 ^ 7) / 10 ^ 5 ≤ (1 - 1 / 10 ^ 7) * s.delta := by
      rw [div_eq_mul_one_div]
      exact mul_le_mul_of_nonneg_left c2.le hc.le
    have := cauchyDec_mono htol.le c5 (by positivity) h5 hB
    rw [h4]; linarith
  have hq : newPred o w.sigma = - o.qcost := by
    unfold newPred
    simp only [c4, mul_zero, add_zero, lt_self_iff_false, if_false]
    rw [if_neg (by linarith), if_neg (by linarith)]
  rw [hpred, hq]; exact hle

/-! ### With the step solver of the code -/

/-- The results of a pass without constraints come from the step solver: at the iterate, with the bounds of the problem, a gradient of length at least
`tol`, a symmetric model matrix whose curvature along the gradient is at most `β`, the radius in use and kernels that meet their
specification; the bounds are further away than the radius, the hard case does not occur, and the predicted change is the value of that model
(`sqpdfo_main.py` L703-L733, `sqpdfo_solve_TR_bc.py` L67-L87). -/
structure Spec.BySolver (e : Env K F) (tol β : K) (o : Orc K F) (s : MSt K F) : Prop where
  rpred : o.rpred = 0
  solver : ∃ (n : ℕ) (k : BCKer K n) (x lb ub g y : Fin n → K) (M : Matrix (Fin n) (Fin n) K) (act : Bool), 0 < n ∧ GoodBC k ∧
    s.x = List.ofFn x ∧ e.lb = List.ofFn lb ∧ e.ub = List.ofFn ub ∧ o.xnew = List.ofFn y ∧
    (∀ i j, M i j = M j i) ∧ tol * tol ≤ g ⬝ᵥ g ∧ g ⬝ᵥ M *ᵥ g ≤ β * (g ⬝ᵥ g) ∧
    (∀ i, (1 + 1 / 10 ^ 7) * s.delta + 1 / 10 ^ 5 < ub i - x i ∧ lb i - x i < - ((1 + 1 / 10 ^ 7) * s.delta + 1 / 10 ^ 5)) ∧
    (∀ h : (Finset.univ : Finset (Fin n)).Nonempty, (trms (k.ms Finset.univ h) (fun i => g i.1)
      (M.submatrix Subtype.val Subtype.val) s.delta (1 / 10 ^ 7)).hard = false) ∧
    solveTR0 k x lb ub g M s.delta = some (y, act) ∧ o.qcost = quadVal g M (y - x)

/-- The length of the step of the solver. -/
theorem solveTR0_length {n : ℕ} {k : BCKer K n} (hk : GoodBC k) {x lb ub g y : Fin n → K} {M : Matrix (Fin n) (Fin n) K} {δ : K} {act : Bool}
    (hM : ∀ i j, M i j = M j i) (hn : 0 < n) (hδ : 0 < δ)
    (hfar : ∀ i, (1 + 1 / 10 ^ 7) * δ + 1 / 10 ^ 5 < ub i - x i ∧ lb i - x i < - ((1 + 1 / 10 ^ 7) * δ + 1 / 10 ^ 5))
    (h : solveTR0 k x lb ub g M δ = some (y, act)) : (y - x) ⬝ᵥ (y - x) ≤ (δ + max (1 / 10 ^ 7 * δ) (1 / 10 ^ 5)) ^ 2 := by
  have hε : (0 : K) ≤ 1 / 10 ^ 7 := by positivity
  obtain ⟨o, ho, hmsg, -⟩ := C90_distant hk ⟨g, M, fun i => lb i - x i, fun i => ub i - x i, δ, 1 / 10 ^ 7⟩ hM hn hδ.le hε hfar
  obtain ⟨o', ho', hr⟩ := C66_radius_partial hk ⟨g, M, fun i => lb i - x i, fun i => ub i - x i, δ, 1 / 10 ^ 7⟩ hM hδ.le hε
  rw [ho, Option.some.injEq] at ho'
  subst ho'
  unfold solveTR0 at h
  rw [ho] at h
  simp only [Option.some.injEq, Prod.mk.injEq] at h
  rw [← h.1, add_sub_cancel_left]
  have h1 := hr (by rw [hmsg]; simp)
  obtain ⟨a, b⟩ := hk.sq _ (ms_dot_self_nonneg o.s)
  rw [← b, ← sq]
  exact pow_le_pow_left₀ a h1 2

/-- **C113, with the step solver of the code.**  Runs without constraints whose steps come from the solver (`BySolver`), `1e-6 ≤ tol`, Euclidean
norm: as long as no improvement is needed and the radius is above `1e-5`, the number of passes is at most
`4·10^4 (f(x0) - low) / ε + L` with `ε = tol/2 · min((1 - 1e-7)·1e-5, tol/(β + 1e-12))`. -/
theorem C113_solver {e : Env K F} {x0 : List K} {fuel : ℕ} {Δ : K} {sl : List K} {s0 : MSt K F}
    (H : Starts e x0 fuel Δ sl s0) (hme : e.me = 0) (hns : e.ns = 0)
    (hnrm : ∀ {n : ℕ} (v : Fin n → K), 0 ≤ e.nrm (List.ofFn v) ∧ e.nrm (List.ofFn v) * e.nrm (List.ofFn v) = v ⬝ᵥ v)
    (hsq : ∀ a : K, 0 ≤ a → ∃ b, 0 ≤ b ∧ b * b = a) (os : List (Orc K F)) (t : MSt K F)
    (h : mainLoop e os s0 = .running t) (tol β : K) (htol : 1 / 10 ^ 6 ≤ tol) (hβ : 0 ≤ β)
    (hD : ∀ pre o post s u, os = pre ++ o :: post → mainLoop e pre s0 = .running s → pass e o s = .cont u →
      ¬ Improves e o s ∧ 1 / 10 ^ 5 < s.delta ∧ BySolver e tol β o s)
    (hE : ∀ pre o post u, os = pre ++ o :: post → mainLoop e pre s0 = .running u → ∀ v, beforeStep e o u = .cont v → Enters e o v)
    (L : ℕ) (hL : s0.delta * 10 ^ 5 ≤ 2 ^ L) (low : K) (hlow : ∀ q, .fin q ∈ t.ev.fX → low ≤ q) :
    ∃ b, t.ev.X[0]? = some x0 ∧ t.ev.fX[0]? = some (.fin b) ∧
      (os.length : K) * (tol / 2 * min ((1 - 1 / 10 ^ 7) / 10 ^ 5) (tol / (β + 1 / 10 ^ 12))) ≤
        4 * 10 ^ 4 * (b - low) + L * (tol / 2 * min ((1 - 1 / 10 ^ 7) / 10 ^ 5) (tol / (β + 1 / 10 ^ 12))) := by
  have hp12 : (0 : K) < 1 / 10 ^ 12 := by positivity
  have htol0 : 0 < tol := lt_of_lt_of_le (by positivity) htol
  refine C113_gradient H hme hns os t h tol (β + 1 / 10 ^ 12) htol0 (by linarith)
    (fun pre o post s u h1 h2 h3 => ?_) hE L hL low hlow
  obtain ⟨c1, c2, c3, n, k, x, lb, ub, g, y, M, act, hn, hk, hx, -, -, hy, hM, hg, hcurv, hfar, hard, hsol, hq⟩ := hD pre o post s u h1 h2 h3
  have hd0 : 0 < s.delta := lt_trans (by positivity) c2
  have hg12 : 1 / 10 ^ 12 ≤ g ⬝ᵥ g := by
    refine le_trans ?_ hg
    have h6 : (0 : K) ≤ 1 / 10 ^ 6 := by positivity
    calc (1 : K) / 10 ^ 12 = 1 / 10 ^ 6 * (1 / 10 ^ 6) := by norm_num
      _ ≤ tol * tol := mul_le_mul htol htol h6 htol0.le
  refine ⟨c1, c2, ?_, c3, ?_⟩
  · have hl := solveTR0_length hk hM hn hd0 hfar hsol
    have hz : List.zipWith (· - ·) o.xnew s.x = List.ofFn (y - x) := by
      rw [hx, hy]
      apply List.ext_getElem
      · simp
      · intro i a b; simp
    rw [hz]
    obtain ⟨n1, n2⟩ := hnrm (y - x)
    have hm : max (1 / 10 ^ 7 * s.delta) (1 / 10 ^ 5) ≤ s.delta := by
      refine max_le ?_ c2.le
      have : (1 : K) / 10 ^ 7 ≤ 1 := by norm_num
      nlinarith
    have hm0 : 0 ≤ max (1 / 10 ^ 7 * s.delta) ((1 : K) / 10 ^ 5) := le_max_of_le_right (by positivity)
    have hle : e.nrm (List.ofFn (y - x)) ≤ s.delta + max (1 / 10 ^ 7 * s.delta) (1 / 10 ^ 5) := by
      rw [← n2, ← sq] at hl
      exact (pow_le_pow_iff_left₀ n1 (by linarith) two_ne_zero).1 hl
    linarith
  · obtain ⟨a, a0, a1⟩ := hsq _ (ms_dot_self_nonneg g)
    refine ⟨a, ?_, ?_⟩
    · rw [← a1, ← sq, ← sq] at hg
      exact (pow_le_pow_iff_left₀ htol0.le a0 two_ne_zero).1 hg
    · obtain ⟨y', act', h4, h5⟩ := C112_unconstrained hk x lb ub g M s.delta hM hn hd0 hg12 hfar hard β hβ hcurv
      rw [hsol, Option.some.injEq, Prod.mk.injEq] at h4
      obtain ⟨rfl, rfl⟩ := h4
      rw [hq]
      exact h5 a a0 a1

/-! ### A concrete run: objective `x^2`, from 3 to 1, a trial point `-3/2` that is rejected, and from 1 to 0 -/

namespace Ex

/-- The results of the kernels. -/
def dRun : List (Orc ℚ (List (List ℚ))) := [lOrc 1 1 8 3 2, lOrc 1 (-3 / 2) 1 1 2, lOrc 1 0 1 1 2]

/-- The hypotheses of `C113_gradient` for the pass after the first `k` ones (gradients of length at least 2, `B = 4`). -/
def dCheck (s0 : MSt ℚ (List (List ℚ))) (k : ℕ) : Bool :=
  match mainLoop (gEnv square .pinf) (dRun.take k) s0, dRun[k]? with
  | .running s, some o =>
    (match pass (gEnv square .pinf) o s with
      | .cont _ => decide (1 / 10 ^ 5 < o.k1.glagn) && decide (s.pred ≠ -1) && decide (1 / 10 ^ 5 < s.delta) &&
          decide (2 * (gEnv square .pinf).nrm (List.zipWith (· - ·) o.xnew s.x) ≤ 5 * s.delta) && decide (o.rpred = 0) &&
          decide (o.qcost ≤ - cauchyDec 2 ((1 - 1 / 10 ^ 7) * s.delta) 4)
      | _ => true) &&
    (match beforeStep (gEnv square .pinf) o s with
      | .cont v => (List.range v.cur).any fun j => match v.set.Y[j]? with
        | some y => decide (1 / 10 ^ 10 < |o.lval1 j|) && decide (0 < (gEnv square .pinf).dist y o.xnew)
        | none => false
      | _ => true)
  | _, _ => true

theorem dCheck_sound {s0 : MSt ℚ (List (List ℚ))} (h : ∀ k, k < 3 → dCheck s0 k = true) :
    (∀ pre o post s u, dRun = pre ++ o :: post → mainLoop (gEnv square .pinf) pre s0 = .running s → pass (gEnv square .pinf) o s = .cont u →
      ¬ Improves (gEnv square .pinf) o s ∧ 1 / 10 ^ 5 < s.delta ∧ 2 * (gEnv square .pinf).nrm (List.zipWith (· - ·) o.xnew s.x) ≤ 5 * s.delta ∧
      o.rpred = 0 ∧ ∃ a, 2 ≤ a ∧ o.qcost ≤ - cauchyDec a ((1 - 1 / 10 ^ 7) * s.delta) 4) ∧
    ∀ pre o post u, dRun = pre ++ o :: post → mainLoop (gEnv square .pinf) pre s0 = .running u →
      ∀ v, beforeStep (gEnv square .pinf) o u = .cont v → Enters (gEnv square .pinf) o v := by
  have key : ∀ pre o post s, dRun = pre ++ o :: post → mainLoop (gEnv square .pinf) pre s0 = .running s →
      pre.length < 3 ∧ mainLoop (gEnv square .pinf) (dRun.take pre.length) s0 = .running s ∧ dRun[pre.length]? = some o := by
    intro pre o post s h1 h2
    refine ⟨?_, ?_, ?_⟩
    · have := congrArg List.length h1
      simp only [dRun, List.length_append, List.length_cons, List.length_nil] at this
      omega
    · rw [h1]; simpa using h2
    · rw [h1]; simp
  refine ⟨fun pre o post s u h1 h2 h3 => ?_, fun pre o post s h1 h2 v h3 => ?_⟩
  · obtain ⟨k1, k2, k3⟩ := key pre o post s h1 h2
    have := h _ k1
    unfold dCheck at this
    rw [k2, k3] at this
    simp only [h3, Bool.and_eq_true, decide_eq_true_eq] at this
    obtain ⟨⟨⟨⟨⟨⟨a1, a2⟩, a3⟩, a4⟩, a5⟩, a6⟩, -⟩ := this
    refine ⟨?_, a3, a4, a5, 2, le_refl _, a6⟩
    rintro (⟨h4, -⟩ | h4 | h4)
    · exact absurd a1 (not_lt.2 h4)
    · have : (1 : ℚ) / 10 ^ 10 ≤ 1 / 10 ^ 5 := by norm_num
      linarith
    · exact a2 h4
  · obtain ⟨k1, k2, k3⟩ := key pre o post s h1 h2
    have := h _ k1
    unfold dCheck at this
    rw [k2, k3] at this
    simp only [h3, Bool.and_eq_true, List.any_eq_true, List.mem_range] at this
    obtain ⟨-, j, hj, hy⟩ := this
    cases hv : v.set.Y[j]? with
    | none => rw [hv] at hy; cases hy
    | some y =>
      rw [hv] at hy
      simp only [Bool.and_eq_true, decide_eq_true_eq] at hy
      exact Or.inr ⟨j, y, hj, hv, hy.1, hy.2⟩

end Ex

/-- The run meets the hypotheses; two of the three steps are taken. -/
example : ∃ s0 t, Starts (Ex.gEnv Ex.square .pinf) [3] 1 1 [] s0 ∧ mainLoop (Ex.gEnv Ex.square .pinf) Ex.dRun s0 = .running t ∧
    s0.delta = 1 ∧ gains Taken (Ex.gEnv Ex.square .pinf) Ex.dRun s0 = [8, 1] ∧
    ∃ b, t.ev.fX[0]? = some (.fin b) ∧
      ((3 : ℕ) : ℚ) * (2 / 2 * min ((1 - 1 / 10 ^ 7) / 10 ^ 5) (2 / 4)) ≤
        4 * 10 ^ 4 * (b - 0) + (17 : ℕ) * (2 / 2 * min ((1 - 1 / 10 ^ 7) / 10 ^ 5) (2 / 4)) := by
  have h : ((startState (Ex.gEnv Ex.square .pinf) [3] 1 1 []).any fun s => match mainLoop (Ex.gEnv Ex.square .pinf) Ex.dRun s with
      | .running t => decide (gains Taken (Ex.gEnv Ex.square .pinf) Ex.dRun s = [8, 1]) && (t.ev.fX.all fun v => Fl.le (.fin 0) v) &&
        decide (s.delta = 1) && (Ex.dCheck s 0 && (Ex.dCheck s 1 && Ex.dCheck s 2))
      | _ => false) = true := by decide +kernel
  obtain ⟨s0, H⟩ := Ex.gStarts
  rw [H.state] at h
  simp only [Option.any_some] at h
  cases hm : mainLoop (Ex.gEnv Ex.square .pinf) Ex.dRun s0 with
  | done t => rw [hm] at h; cases h
  | crash c => rw [hm] at h; cases h
  | running t =>
    rw [hm] at h
    simp only [Bool.and_eq_true, decide_eq_true_eq, List.all_eq_true] at h
    obtain ⟨⟨⟨hg, hlow⟩, hd⟩, h0, h1, h2⟩ := h
    obtain ⟨c1, c2⟩ := Ex.dCheck_sound (s0 := s0) fun k hk => by
      match k, hk with
      | 0, _ => exact h0
      | 1, _ => exact h1
      | 2, _ => exact h2
    obtain ⟨b, -, b1, b2⟩ := C113_gradient H rfl rfl Ex.dRun t hm 2 4 (by norm_num) (by norm_num) c1 c2 17 (by rw [hd]; norm_num) 0
      (fun q hq => of_decide_eq_true (hlow _ hq))
    exact ⟨s0, t, H, hm, hd, hg, b, b1, b2⟩

/-- The condition on the solver is met: model `(x - 2)^2` at the point 1, radius 5, bounds `-20` and `20`. -/
example (e : Env ℝ F) (hl : e.lb = [-20]) (hu : e.ub = [20]) (s : MSt ℝ F) (hx : s.x = [1]) (hd : s.delta = 5) (o : Orc ℝ F) :
    ∃ y : Fin 1 → ℝ, ∃ act, solveTR0 Ex.realBC (fun _ => 1) (fun _ => -20) (fun _ => 20) (fun _ => -2) (Matrix.of fun _ _ => 2) 5 =
        some (y, act) ∧
      BySolver e 2 2
        { o with
          xnew := List.ofFn y
          rpred := 0
          qcost := quadVal (fun _ : Fin 1 => (-2 : ℝ)) (Matrix.of fun _ _ => 2) (y - fun _ => 1) } s := by
  have hfar : ∀ i : Fin 1, (1 + 1 / 10 ^ 7) * (5 : ℝ) + 1 / 10 ^ 5 < (20 : ℝ) - 1 ∧
      (-20 : ℝ) - 1 < - ((1 + 1 / 10 ^ 7) * 5 + 1 / 10 ^ 5) := fun i => by norm_num
  have hard : ∀ h : (Finset.univ : Finset (Fin 1)).Nonempty, (trms (Ex.realBC.ms Finset.univ h) (fun _ => (-2 : ℝ))
      ((Matrix.of fun _ _ : Fin 1 => (2 : ℝ)).submatrix Subtype.val Subtype.val) 5 (1 / 10 ^ 7)).hard = false := fun h => by
    have : Nonempty (Finset.univ : Finset (Fin 1)) := h.to_subtype
    exact Ex.one_newton
  obtain ⟨y, act, h1, -⟩ := C112_unconstrained (K := ℝ) (n := 1) Ex.realBC_good (fun _ => 1) (fun _ => -20) (fun _ => 20)
    (fun _ => -2) (Matrix.of fun _ _ => 2) 5 (fun _ _ => rfl) one_pos (by norm_num) (by simp [dotProduct]; norm_num) hfar hard 2 (by norm_num)
    (by simp [dotProduct, mulVec])
  refine ⟨y, act, h1, rfl, 1, Ex.realBC, fun _ => 1, fun _ => -20, fun _ => 20, fun _ => -2, y, Matrix.of fun _ _ => 2, act, one_pos,
    Ex.realBC_good, by simp [hx], by simp [hl], by simp [hu], rfl, fun _ _ => rfl, by simp [dotProduct], by simp [dotProduct, mulVec], ?_, ?_, ?_, rfl⟩
  · rw [hd]; exact hfar
  · rw [hd]; exact hard
  · rw [hd]; exact h1

/-! ### A run with a step of the solver: objective `(x - 2)^2`, from 1 to 2 -/

namespace Ex

theorem one_solve : ∃ act, solveTR0 Ex.realBC (fun _ : Fin 1 => 1) (fun _ => -20) (fun _ => 20) (fun _ => -2) (Matrix.of fun _ _ => 2) 5 =
    some (fun _ => 2, act) := by
  obtain ⟨o, ho, -, -, hne, hs⟩ := C90_distant (n := 1) Ex.realBC_good
    ⟨fun _ => -2, Matrix.of fun _ _ => 2, fun _ => (-20 : ℝ) - 1, fun _ => 20 - 1, 5, 1 / 10 ^ 7⟩ (fun _ _ => rfl) one_pos
    (by norm_num) (by norm_num) (fun i => by norm_num)
  have : Nonempty (Finset.univ : Finset (Fin 1)) := hne.to_subtype
  have h1 : o.s = fun _ => 1 := by
    funext i
    rw [hs i]
    exact congrFun (Ex.one_step (ι := (Finset.univ : Finset (Fin 1)))).2 _
  unfold solveTR0
  rw [ho]
  refine ⟨! decide (Ex.realBC.nrm o.s < 5), ?_⟩
  simp only [Option.some.injEq, Prod.mk.injEq]
  refine ⟨?_, trivial⟩
  rw [h1]; funext i; simp; norm_num

/-- Objective `(x - 2)^2`, bounds `-20` and `20`, Euclidean norm, linear models. -/
noncomputable def nwEnv : Env ℝ Unit where
  miter := .fin 1000
  msimul := .fin 1000
  tolGrad := 1 / 10 ^ 5
  tolFeas := 1 / 10 ^ 5
  tolBnds := 1 / 10 ^ 5
  verbose4 := false
  n := 1
  me := 0
  ns := 0
  finalDeg := .linear
  regression := false
  lb := [-20]
  ub := [20]
  nrm := fun l => √(l.map fun a => a * a).sum
  sqrt := Real.sqrt
  trunc := id
  order := descOrder
  build := fun _ => ()
  model := fun _ _ _ _ => ⟨[-2], []⟩
  U := ⟨fun _ y => .num (.fin (min ((y.getD 0 0 - 2) ^ 2) (10 ^ 25))), none⟩

/-- The step of the solver. -/
noncomputable def nwOrc : Orc ℝ Unit where
  k1 := ⟨false, 2, 0, 0⟩
  normgx := 2
  poisedness := fun _ _ => (1, 5)
  propose := fun _ _ _ => ([0], 0)
  k2 := ⟨false, 2, 0, 0⟩
  tfail := false
  xnew := [2]
  rpred := 0
  active := false
  slplus := []
  qcost := -1
  gTs := -2
  lval1 := fun _ => 1
  lval2 := fun _ => 1
  lval3 := fun _ => 1

theorem nw_eval (y : List ℝ) (m : ℕ) (s : EvSt (List ℝ) ℝ) (q : ℝ) (hq : (y.getD 0 0 - 2) ^ 2 = q) (h : q < 10 ^ 25) :
    augmX nwEnv.U (.fin big) y m s = some ⟨setOrAppend s.X m y, setOrAppend s.fX m (.fin q), s.ceX, s.nsimul + 1,
      .fin q, s.flag, ⟨s.w.logF ++ [y], s.w.logC⟩⟩ := by
  have hu : nwEnv.U.f s.w y = .num (.fin q) := by
    show (.num (.fin (min ((y.getD 0 0 - 2) ^ 2) (10 ^ 25))) : FOut ℝ) = _
    rw [hq, min_eq_left h.le]
  have hc : nwEnv.U.c = none := rfl
  have hm : (Fl.fin (big : ℝ)).fmin (.fin q) = .fin q := by
    have hle : ¬ (big : ℝ) ≤ q := not_le.2 h
    simp only [Fl.fmin, Fl.isNan, Fl.le, decide_eq_true_eq, if_neg hle, Bool.false_eq_true, if_false]
  unfold augmX sqpdfoFunc
  simp only [hu, hc, Fl.isNan, Fl.isInf, Bool.false_eq_true, if_false, List.any_nil, List.map_nil, List.isEmpty_nil, if_true, hm]

theorem nw_start : ∃ s0, Starts nwEnv [1] 1 5 [] s0 ∧ s0.set = ⟨[[1], [-4]], [0, 1], [1, 36], [], [], ()⟩ ∧
    s0.ev = ⟨[[1], [-4]], [.fin 1, .fin 36], [], 2, .fin 1, 0, ⟨[[1], [-4]], []⟩⟩ ∧ s0.x = [1] ∧ s0.niter = 0 ∧ s0.cur = 2 ∧
    s0.m = 1 ∧ s0.delta = 5 ∧ s0.pred = 0 ∧ s0.sigma = 1 ∧ s0.rejected = false ∧ s0.infoCe = [] ∧ s0.ceplus = [] := by
  have hsx : simplex ([1] : List ℝ) 5 = [[1], [-4]] := by
    simp only [simplex, List.length_cons, List.length_nil]
    norm_num [List.range_succ]
  have hb : ∀ q : ℝ, |q| < 10 ^ 25 → tooBig (.fin q) = false := by
    intro q h
    simp only [tooBig, big]
    exact decide_eq_false (not_lt.2 h.le)
  have hl : initLoop nwEnv.U [1] (nwEnv.nrm [1]) 1 5 emptyEv = .done 5
      ⟨[[1], [-4]], [.fin 1, .fin 36], [], 2, .fin 36, 0, ⟨[[1], [-4]], []⟩⟩ := by
    unfold initLoop
    dsimp only
    rw [hsx]
    unfold samplePass
    rw [nw_eval _ _ _ 1 (by simp; norm_num) (by norm_num)]
    simp only [emptyEv, setOrAppend, List.length_nil, lt_irrefl, if_false, List.nil_append, ne_eq, not_true_eq_false,
      List.getElem?_cons_zero, hb 1 (by norm_num), Bool.false_eq_true]
    unfold samplePass
    rw [nw_eval _ _ _ 36 (by simp; norm_num) (by norm_num)]
    simp only [setOrAppend, List.length_cons, List.length_nil, zero_add, lt_irrefl, if_false, List.cons_append,
      List.nil_append, ne_eq, not_true_eq_false, List.getElem?_cons_succ, List.getElem?_cons_zero, hb 36 (by norm_num), Bool.false_eq_true,
      samplePass]
    rfl
  have h : ∃ s0, startState nwEnv [1] 1 5 [] = some s0 ∧ s0.set = ⟨[[1], [-4]], [0, 1], [1, 36], [], [], ()⟩ ∧
    s0.ev = ⟨[[1], [-4]], [.fin 1, .fin 36], [], 2, .fin 1, 0, ⟨[[1], [-4]], []⟩⟩ ∧ s0.x = [1] ∧ s0.niter = 0 ∧ s0.cur = 2 ∧
    s0.m = 1 ∧ s0.delta = 5 ∧ s0.pred = 0 ∧ s0.sigma = 1 ∧ s0.rejected = false ∧ s0.infoCe = [] ∧ s0.ceplus = [] := by
    unfold startState
    rw [hl]
    exact ⟨_, rfl, rfl, rfl, rfl, rfl, rfl, rfl, rfl, rfl, rfl, rfl, rfl, rfl⟩
  obtain ⟨s0, h1, h2⟩ := h
  exact ⟨s0, ⟨⟨fun _ => Real.sqrt_nonneg _, descOrder_sorted⟩, ⟨fun _ => rfl, fun _ h => by cases h⟩, rfl, by norm_num, h1⟩, h2⟩

theorem nw_before {s : MSt ℝ Unit} (h1 : s.niter = 0) (h2 : s.ev.nsimul = 2) (h3 : s.delta = 5) (h4 : s.pred = 0) :
    beforeStep nwEnv nwOrc s = .cont { s.measure nwOrc.k1 with ev := { s.ev with flag := Status.success } } := by
  unfold beforeStep
  rw [if_neg (by rw [h1]; simp [nwEnv, Fl.le]), if_neg (by rw [h2]; simp [nwEnv, Fl.le]; norm_num), if_neg (by simp [nwOrc])]
  dsimp only
  rw [if_neg]
  simp only [MSt.measure, h3, h4, nwOrc, nwEnv]
  norm_num

theorem nw_pass {s : MSt ℝ Unit} (h1 : s.niter = 0) (h3 : s.delta = 5) (h4 : s.pred = 0)
    (h5 : s.ev = ⟨[[1], [-4]], [.fin 1, .fin 36], [], 2, .fin 1, 0, ⟨[[1], [-4]], []⟩⟩)
    (h6 : s.set = ⟨[[1], [-4]], [0, 1], [1, 36], [], [], ()⟩) (h7 : s.m = 1) (h8 : s.cur = 2) (h10 : s.sigma = 1)
    (h11 : s.rejected = false) (h12 : s.infoCe = []) (h13 : s.ceplus = []) :
    ∃ t, pass nwEnv nwOrc s = .cont t ∧ t.ev.fX = [.fin 1, .fin 36, .fin 0] ∧ t.x = [2] := by
  have hd1 : nwEnv.dist [1] [2] = 1 := by
    show √((List.zipWith (· - ·) ([1] : List ℝ) [2]).map fun a => a * a).sum = 1
    norm_num
  have hd2 : nwEnv.dist [-4] [2] = 6 := by
    show √((List.zipWith (· - ·) ([-4] : List ℝ) [2]).map fun a => a * a).sum = 6
    have : ((List.zipWith (· - ·) ([-4] : List ℝ) [2]).map fun a => a * a).sum = 6 * 6 := by norm_num
    rw [this, Real.sqrt_mul_self (by norm_num)]
  have hn0 : nwEnv.nrm [] = 0 := by show √(([] : List ℝ).map fun a => a * a).sum = 0; simp
  have hr : ∀ b : List ℝ, nwEnv.resNorm [] b = some 0 := fun b => congrArg some hn0
  have hpick : pickMax (candCrit nwEnv.dist .distance [2] (fun j => if j ∈ [0, 1] then (1 : ℝ) else 0) [[1], [-4]]) [0, 1] none 0 = some 1 := by
    simp [pickMax, candCrit, critVal, hd1, hd2]
  have hinc : includeInY nwEnv.dist nwEnv.build nwOrc.lval1 (List.range 2) (1 / 10 ^ 10) .distance [2] [2] [[1], [-4]] () =
      (some 1, [[1], [2]], ()) := by
    unfold includeInY
    have hsu : ((List.range ([[1], [-4]] : List (List ℝ)).length).filter fun j =>
        decide (|(if j ∈ List.range 2 then (1 : ℝ) else 0)| > 1 / 10 ^ 10)) = [0, 1] := by
      rw [List.filter_eq_self.2]
      · rfl
      · intro j hj
        have : j ∈ List.range 2 := hj
        rw [if_pos this]
        norm_num
    rw [if_neg (by simp)]
    dsimp only
    have e1 : nwOrc.lval1 = fun _ => 1 := rfl
    rw [e1, hsu, if_neg (by simp)]
    have e2 : List.range 2 = [0, 1] := rfl
    rw [e2, hpick]
    rfl
  have hg : globalise nwEnv { s.measure nwOrc.k1 with ev := { s.ev with flag := Status.success } } =
      .cont { s.measure nwOrc.k1 with ev := { s.ev with flag := Status.success }, f0 := 1, ce0n := 0, merit0 := 1 } := by
    unfold globalise
    rw [if_neg (by simp [MSt.measure, h11])]
    simp only [MSt.measure, h5, h12, Fl.val?, hr, h10]
    norm_num
  have hsb : sigmab nwOrc = 0 := by simp [sigmab, nwOrc]
  have hp : penalty nwOrc { s.measure nwOrc.k1 with ev := { s.ev with flag := Status.success }, f0 := 1, ce0n := 0, merit0 := 1, niter := s.niter + 1 } =
      .cont { s.measure nwOrc.k1 with ev := { s.ev with flag := Status.success }, f0 := 1, ce0n := 0, merit0 := 1, niter := s.niter + 1 } := by
    unfold penalty
    rw [hsb, if_neg (by simp only [MSt.measure, h10]; norm_num)]
  have hev : evalTrial nwEnv nwOrc { s.measure nwOrc.k1 with ev := { s.ev with flag := Status.success }, f0 := 1, ce0n := 0, merit0 := 1, niter := s.niter + 1 } =
      .cont { s.measure nwOrc.k1 with
        ev := ⟨[[1], [-4], [2]], [.fin 1, .fin 36, .fin 0], [], 3, .fin 0, 0, ⟨[[1], [-4], [2]], []⟩⟩
        f0 := 1, ce0n := 0, merit0 := 1, niter := s.niter + 1, m := 2 } := by
    unfold evalTrial
    dsimp only
    rw [nw_eval _ _ _ 0 (by simp [nwOrc]) (by norm_num)]
    simp only [h5, h7, MSt.measure]
    rfl
  have hnp : newPred nwOrc 1 = 1 := by simp [newPred, nwOrc]
  have hxn : nwOrc.xnew = [2] := rfl
  have hgr : ¬ growable nwEnv 2 := by unfold growable; decide
  have hdec : ∀ N, ∃ t, decideStep nwEnv nwOrc N { s.measure nwOrc.k1 with
        ev := ⟨[[1], [-4], [2]], [.fin 1, .fin 36, .fin 0], [], 3, .fin 0, 0, ⟨[[1], [-4], [2]], []⟩⟩
        f0 := 1, ce0n := 0, merit0 := 1, niter := s.niter + 1, m := 2 } = .cont t ∧ t.ev.fX = [.fin 1, .fin 36, .fin 0] ∧ t.x = [2] := by
    intro N
    unfold decideStep
    simp only [MSt.measure, h13, hr, List.getElem?_cons_succ, List.getElem?_cons_zero, Option.bind_some, Fl.val?, h10, hnp, h8, h6, hxn, hinc]
    have c1 : ¬ (1 : ℝ) = -1 := by norm_num
    have c2 : ((1 : ℝ) - (0 + 1 * 0)) / 1 ≥ cEta1 := by unfold cEta1; norm_num
    have c3 : ¬ (0 : ℝ) + 1 * 0 ≥ 1 := by norm_num
    simp only [if_neg c1, if_pos c2, if_neg c3, if_neg hgr]
    exact ⟨_, rfl, rfl, rfl⟩
  rw [pass_eq, nw_before h1 (by rw [h5]) h3 h4]
  simp only [PassRes.bind]
  unfold stepStage
  rw [hg]
  change ∃ t, ((penalty nwOrc { s.measure nwOrc.k1 with
    ev := { s.ev with flag := Status.success }, f0 := 1, ce0n := 0, merit0 := 1, niter := s.niter + 1 }).bind (evalTrial nwEnv nwOrc)).bind _ =
    .cont t ∧ _
  rw [hp]
  change ∃ t, (evalTrial nwEnv nwOrc { s.measure nwOrc.k1 with
    ev := { s.ev with flag := Status.success }, f0 := 1, ce0n := 0, merit0 := 1, niter := s.niter + 1 }).bind _ = .cont t ∧ _
  rw [hev]
  exact hdec _

end Ex

/-- The hypotheses of `C113_solver` hold together: one pass from 1 to the minimiser 2. -/
example : ∃ s0 t, Starts Ex.nwEnv [1] 1 5 [] s0 ∧ mainLoop Ex.nwEnv [Ex.nwOrc] s0 = .running t ∧ t.x = [2] ∧ BySolver Ex.nwEnv 2 2 Ex.nwOrc s0 ∧
    ∃ b, t.ev.fX[0]? = some (.fin b) ∧
      ((1 : ℕ) : ℝ) * (2 / 2 * min ((1 - 1 / 10 ^ 7) / 10 ^ 5) (2 / (2 + 1 / 10 ^ 12))) ≤
        4 * 10 ^ 4 * (b - 0) + (19 : ℕ) * (2 / 2 * min ((1 - 1 / 10 ^ 7) / 10 ^ 5) (2 / (2 + 1 / 10 ^ 12))) := by
  obtain ⟨s0, H, h6, h5, h9, h1, h8, h7, h3, h4, h10, h11, h12, h13⟩ := Ex.nw_start
  obtain ⟨t, hp, hf, hx⟩ := Ex.nw_pass h1 h3 h4 h5 h6 h7 h8 h10 h11 h12 h13
  have hm : mainLoop Ex.nwEnv [Ex.nwOrc] s0 = .running t := by simp only [mainLoop, hp]
  have hS : BySolver Ex.nwEnv 2 2 Ex.nwOrc s0 := by
    obtain ⟨act, hsol⟩ := Ex.one_solve
    refine ⟨rfl, 1, Ex.realBC, fun _ => 1, fun _ => -20, fun _ => 20, fun _ => -2, fun _ => 2, Matrix.of fun _ _ => 2, act, one_pos,
      Ex.realBC_good, by simp [h9], by simp [Ex.nwEnv], by simp [Ex.nwEnv], by simp [Ex.nwOrc], fun _ _ => rfl, by simp [dotProduct],
      by simp [dotProduct, mulVec], ?_, ?_, ?_, ?_⟩
    · rw [h3]; exact fun i => by norm_num
    · rw [h3]
      intro h
      have : Nonempty (Finset.univ : Finset (Fin 1)) := h.to_subtype
      exact Ex.one_newton
    · rw [h3]; exact hsol
    · simp [Ex.nwOrc, quadVal, dotProduct, mulVec]; norm_num
  have hsplit : ∀ pre o post, [Ex.nwOrc] = pre ++ o :: post → pre = [] ∧ o = Ex.nwOrc := by
    intro pre o post h
    cases pre with
    | nil => simp only [List.nil_append, List.cons.injEq] at h; exact ⟨rfl, h.1.symm⟩
    | cons a l => simp at h
  obtain ⟨b, -, hb, hle⟩ := C113_solver H rfl rfl (fun v => by
      have : Ex.nwEnv.nrm (List.ofFn v) = √(v ⬝ᵥ v) := by
        show √((List.ofFn v).map fun a => a * a).sum = _
        rw [List.map_ofFn, List.sum_ofFn]; rfl
      rw [this]
      exact ⟨Real.sqrt_nonneg _, Real.mul_self_sqrt (ms_dot_self_nonneg v)⟩)
    (fun a ha => ⟨√a, Real.sqrt_nonneg _, Real.mul_self_sqrt ha⟩) [Ex.nwOrc] t hm 2 2 (by norm_num) (by norm_num)
    (fun pre o post s u e1 e2 _ => by
      obtain ⟨rfl, rfl⟩ := hsplit _ _ _ e1
      cases e2
      refine ⟨?_, by rw [h3]; norm_num, hS⟩
      unfold Improves
      rw [h3, h4]
      simp only [Ex.nwOrc, Ex.nwEnv]
      norm_num)
    (fun pre o post u e1 e2 v e3 => by
      obtain ⟨rfl, rfl⟩ := hsplit _ _ _ e1
      cases e2
      rw [Ex.nw_before h1 (by rw [h5]) h3 h4] at e3
      cases e3
      refine Or.inr ⟨0, [1], ?_, ?_, ?_, ?_⟩
      · show 0 < s0.cur; rw [h8]; norm_num
      · show s0.set.Y[0]? = _; rw [h6]; rfl
      · simp only [Ex.nwOrc]; norm_num
      · show 0 < √((List.zipWith (· - ·) ([1] : List ℝ) [2]).map fun a => a * a).sum
        norm_num)
    19 (by rw [h3]; norm_num) 0 (fun q hq => by
      rw [hf] at hq
      simp only [List.mem_cons, Fl.fin.injEq, List.not_mem_nil, or_false] at hq
      rcases hq with rfl | rfl | rfl <;> norm_num)
  exact ⟨s0, t, H, hm, hx, hS, b, hb, hle⟩

#print axioms C113_passes
#print axioms C113_complexity
#print axioms C113_gradient
#print axioms C113_solver

end Sqpdfo
