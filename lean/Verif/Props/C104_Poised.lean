import Verif.Lemmas.MainPoised
import Verif.Props.C74_Certificate

/-! # C104: with linear models the interpolation sets of a run stay poised -/

set_option linter.unusedSectionVars false

namespace Sqpdfo
open Spec Matrix Finset
variable {K F : Type} [Field K] [LinearOrder K] [IsStrictOrderedRing K]

/-- For arbitrary values there is exactly one affine function with these values at the points. -/
def Spec.OneAffine (n : ℕ) (Y : List (List K)) : Prop :=
  ∀ f : ℕ → K, ∃! p : K × (Fin n → K), ∀ j y, Y[j]? = some y → affine p.1 p.2 y = f j

theorem Spec.Fixes.one {n : ℕ} {Y : List (List K)} (h : Fixes n Y) (hl : Y.length = n + 1) : OneAffine n Y := by
  intro f
  choose c g hc using fun j => h.cardinal hl j
  have hsum : ∀ (l : Finset ℕ) y, affine (∑ j ∈ l, f j * c j) (∑ j ∈ l, f j • g j) y = ∑ j ∈ l, f j * affine (c j) (g j) y := by
    intro l y
    induction l using Finset.induction_on with
    | empty => simp [affine]
    | insert a l ha ih => rw [sum_insert ha, sum_insert ha, sum_insert ha, affine_add, affine_smul, ih]
  refine ⟨(∑ j ∈ range (n + 1), f j * c j, ∑ j ∈ range (n + 1), f j • g j), ?_, ?_⟩
  · intro i y hy
    have hi : i < n + 1 := by rw [← hl]; exact (List.getElem?_eq_some_iff.1 hy).1
    rw [hsum]
    simp only [fun j => hc j i y hy]
    simp [hi]
  · rintro ⟨d, u⟩ hd
    have := h (d + -1 * ∑ j ∈ range (n + 1), f j * c j) (u + (-1 : K) • ∑ j ∈ range (n + 1), f j • g j) (fun y hy => by
      obtain ⟨i, hi, rfl⟩ := List.mem_iff_getElem.1 hy
      rw [affine_add, affine_smul, hsum]
      simp only [fun j => hc j i _ (List.getElem?_eq_getElem hi)]
      have h1 := hd i _ (List.getElem?_eq_getElem hi)
      simp only at h1
      rw [h1]
      have : i < n + 1 := by omega
      simp [this])
    obtain ⟨h1, h2⟩ := this
    refine Prod.ext ?_ ?_
    · simp only; linear_combination h1
    · simp only
      funext i
      have := congrFun h2 i
      simp only [Pi.add_apply, Pi.smul_apply, smul_eq_mul, Pi.zero_apply] at this
      linear_combination this

theorem fixes_of_one {n : ℕ} {Y : List (List K)} (h : OneAffine n Y) : Fixes n Y := by
  intro c g hz
  obtain ⟨p, -, hp⟩ := h fun _ => 0
  have h1 := hp (c, g) fun j y hy => hz y (List.mem_iff_getElem?.2 ⟨j, hy⟩)
  have h2 := hp (0, 0) fun j y _ => by simp [affine]
  have := h1.trans h2.symm
  exact ⟨congrArg Prod.fst this, congrArg Prod.snd this⟩

theorem start_det {e : Env K F} {x0 : List K} {fuel : ℕ} {Δ : K} {sl : List K} {s0 : MSt K F} (H : Starts e x0 fuel Δ sl s0) :
    Det e s0 := by
  have hF := startState_fresh e x0 fuel Δ sl s0 H.state
  have hS := H.started
  have hst := H.state
  unfold startState at hst
  split at hst
  · rename_i D ev hi
    obtain ⟨-, -, -, -, hI⟩ := C65_initial_set e.U x0 _ _ _ _ H.radius _ _ rfl hi
    have hY : s0.set.Y = ev.X := by
      unfold mainInit at hst
      split at hst
      · split at hst
        · cases hst
        · cases hst; rfl
      · cases hst
    have hlen : s0.set.Y.length = e.n + 1 := by
      obtain ⟨-, hX, -⟩ := C48_done_complete e.U x0 _ _ _ _ _ _ rfl hi
      rw [hY, hX, ← H.dim]
      simp [simplex]
    refine ⟨?_, hlen, hS.cur, hF.fac⟩
    have hd := H.dim
    rw [hY, ← hd]
    exact fixes_of_one hI
  · cases hst

/-- C104.  Linear models (`final_degree = linear`), any run: if the proposed improvement points do not lie on the zero sets of the Lagrange
functions concerned and the Lagrange values at the trial points are those of the current set, every set of the run has `n + 1` points
which determine the linear model for all values. -/
theorem C104_poised {e : Env K F} {x0 : List K} {fuel : ℕ} {Δ : K} {sl : List K} {s0 : MSt K F} (H : Starts e x0 fuel Δ sl s0)
    (hlin : e.finalDeg = .linear) (hreg : e.regression = false) (os : List (Orc K F))
    (hT : ∀ pre o post u, os = pre ++ o :: post → mainLoop e pre s0 = .running u → TrueLagrange e o u) (t : MSt K F)
    (ht : mainLoop e os s0 = .running t ∨ mainLoop e os s0 = .done t) : t.set.Y.length = e.n + 1 ∧ OneAffine e.n t.set.Y := by
  have := mainLoop_det e hlin hreg os s0 hT (start_det H) t ht
  exact ⟨this.len, this.fixes.one this.len⟩

/-! ### The kernels of the code -/

theorem affine_vec {n : ℕ} (c : ℝ) (g : Fin n → ℝ) (y : List ℝ) : affine c g y = c + g ⬝ᵥ vec n y := rfl

/-- A column of the matrix for linear models. -/
theorem zCol_linear {n : ℕ} (hn : 1 ≤ n) (P : Fin (n + 1) → ℝ) (y : Fin n → ℝ) :
    P ⬝ᵥ zCol (n + 1) y = P 0 + ∑ i : Fin n, P i.succ * y i := by
  have h0 : zCol (n + 1) y 0 = 1 := by
    unfold zCol evalZ
    simp only [Fin.val_zero]
    rw [if_neg (by omega), if_pos (by omega)]
    simp
  have hi : ∀ i : Fin n, zCol (n + 1) y i.succ = y i := by
    intro i
    unfold zCol evalZ
    simp only [Fin.val_succ]
    rw [if_neg (by omega), if_pos (by omega)]
    simp [ext]
  unfold dotProduct
  rw [Fin.sum_univ_succ, h0, mul_one]
  simp only [hi]

/-- Polynomials of the linear basis are affine functions. -/
theorem evalP_affine {n : ℕ} (hn : 1 ≤ n) (P scale : Fin (n + 1) → ℝ) (xb : Fin n → ℝ) : ∃ (c : ℝ) (g : Fin n → ℝ), ∀ y : List ℝ,
    evalP P (vec n y) xb scale true = affine c g y := by
  refine ⟨P 0 - ∑ i : Fin n, P i.succ * (xb i * ext scale 1), fun i => P i.succ * ext scale 1, fun y => ?_⟩
  have hq : n + 1 ≤ (n + 1) * (n + 2) / 2 := by
    have : 2 * (n + 1) ≤ (n + 1) * (n + 2) := by nlinarith
    omega
  rw [evalP_zCol _ _ _ _ _ (by omega) hq, zCol_linear hn]
  simp only [frameMap, if_true, affine, vec]
  rw [sub_add_eq_add_sub, add_sub_assoc, ← sum_sub_distrib]
  congr 1
  refine sum_congr rfl fun i _ => ?_
  ring

theorem mem_pts {n : ℕ} {Y : List (List ℝ)} (hl : Y.length = n + 1) (y : List ℝ) (hy : y ∈ Y) : ∃ j, ptsOf n n Y j = vec n y := by
  obtain ⟨i, hi, rfl⟩ := List.mem_iff_getElem.1 hy
  exact ⟨⟨i, by omega⟩, by simp [ptsOf, List.getD_eq_getElem?_getD, List.getElem?_eq_getElem hi]⟩

/-- Sets that determine affine functions give regular systems. -/
theorem Spec.Fixes.poised {n : ℕ} (hn : 1 ≤ n) {Y : List (List ℝ)} (h : Fixes n Y) (hl : Y.length = n + 1) :
    Poised (zMat (n + 1) (frameOf n n Y).pts) := by
  have hd : ∃ j, ptsOf n n Y j ≠ ptsOf n n Y 0 := by
    by_contra hc
    push Not at hc
    have := h (-(ptsOf n n Y 0 ⟨0, hn⟩)) (Pi.single ⟨0, hn⟩ 1) (fun y hy => by
      obtain ⟨j, hj⟩ := mem_pts hl y hy
      rw [affine_vec, ← hj, hc j]
      simp)
    have := congrFun this.2 ⟨0, hn⟩
    simp at this
  obtain ⟨-, -, -, ⟨σ, b1, -, b3⟩, b4⟩ := C53_shift (ptsOf n n Y) hd (le_refl (n + 1)) hn
  have hinj : Function.Injective (((zMat (n + 1) (frameOf n n Y).pts)ᵀ *ᵥ ·) : (Fin (n + 1) → ℝ) → _) := by
    intro v w hvw
    rw [← sub_eq_zero]
    have h0 : (zMat (n + 1) (frameOf n n Y).pts)ᵀ *ᵥ (v - w) = 0 := by rw [mulVec_sub]; exact sub_eq_zero.2 hvw
    generalize v - w = P at h0
    have hP : ∀ j, P 0 + ∑ i : Fin n, P i.succ * ((frameOf n n Y).pts j i) = 0 := by
      intro j
      have := congrFun h0 j
      rw [← zCol_linear hn, dotProduct_comm]
      exact this
    have := h (P 0 - ∑ i : Fin n, P i.succ * (ptsOf n n Y 0 i * σ)) (fun i => P i.succ * σ) (fun y hy => by
      obtain ⟨j, hj⟩ := mem_pts hl y hy
      rw [affine_vec, ← hj, ← hP j, sub_add_eq_add_sub, add_sub_assoc]
      unfold dotProduct
      rw [← sum_sub_distrib]
      congr 1
      refine sum_congr rfl fun i _ => ?_
      have : (frameOf n n Y).pts j i = (ptsOf n n Y j i - ptsOf n n Y 0 i) * σ := by
        rw [← b4]
        exact b3 j i
      rw [this]
      ring)
    have hs : ∀ i : Fin n, P i.succ = 0 := by
      intro i
      have := congrFun this.2 i
      exact (mul_eq_zero.1 this).resolve_right b1.ne'
    have h1 := this.1
    simp only [hs, zero_mul, sum_const_zero, sub_zero] at h1
    funext i
    exact Fin.cases h1 hs i
  intro v hv
  rw [Matrix.mulVec_injective_iff_isUnit, Matrix.isUnit_transpose, ← Matrix.mulVec_injective_iff_isUnit] at hinj
  exact hinj (hv.trans (mulVec_zero _).symm)

/-- The Lagrange polynomials of the code are the Lagrange functions. -/
theorem cardinal_value {n : ℕ} (hn : 1 ≤ n) {Y : List (List ℝ)} (h : Fixes n Y) (hl : Y.length = n + 1) (j : Fin (n + 1))
    (L : Fin (n + 1) → ℝ)
    (hL : ∀ i, evalP L (ptsOf n n Y i) (frameOf n n Y).xbase (frameOf n n Y).scale true = if i = j then 1 else 0)
    (c : ℝ) (g : Fin n → ℝ) (hc : Cardinal Y j c g) (x : List ℝ) :
    evalP L (vec n x) (frameOf n n Y).xbase (frameOf n n Y).scale true = affine c g x := by
  obtain ⟨d, u, hd⟩ := evalP_affine hn L (frameOf n n Y).scale (frameOf n n Y).xbase
  have := h (d + -1 * c) (u + (-1 : ℝ) • g) (fun y hy => by
    obtain ⟨i, hi, rfl⟩ := List.mem_iff_getElem.1 hy
    rw [affine_add, affine_smul, ← hd, hc i _ (List.getElem?_eq_getElem hi)]
    have h1 : vec n Y[i] = ptsOf n n Y ⟨i, by omega⟩ := by
      simp [ptsOf, List.getD_eq_getElem?_getD, List.getElem?_eq_getElem hi]
    rw [h1, hL]
    by_cases hij : i = j <;> simp [Fin.ext_iff, hij])
  have h2 : affine (d + -1 * c) (u + (-1 : ℝ) • g) x = 0 := by
    rw [this.1, this.2]
    simp [affine]
  rw [affine_add, affine_smul] at h2
  rw [hd]
  linear_combination h2

/-- Radius of the improvement in a pass (`sqpdfo_main.py` L354-L365, L439-L447). -/
noncomputable def passRadius (e : Env ℝ (List (List ℝ))) (o : Orc ℝ (List (List ℝ))) (s : MSt ℝ (List (List ℝ))) : ℝ :=
  repRadius { s.measure o.k1 with epsCur := newEpsCur e (s.measure o.k1) }

/-- In a pass that starts in `s` the improvement points are those of `bcdfo_find_new_yj_` and the Lagrange values at the trial point those of
`bcdfo_evalL_`. -/
structure Spec.CodeLagrange (e : Env ℝ (List (List ℝ))) (k : Kern e.n) (o : Orc ℝ (List (List ℝ))) (s : MSt ℝ (List (List ℝ))) : Prop where
  propose : ∀ Y (j : Fin (e.n + 1)) N, findNewYj k.ms (facOf k e.n Y).1 (facOf k e.n Y).2 (ptsOf e.n e.n Y) j (passRadius e o s) (1 / 10 ^ 3)
    (frameOf e.n e.n Y).xbase (frameOf e.n e.n Y).scale true = some N → o.propose Y Y j = (List.ofFn N.y, N.imp)
  lval : ∀ t, beforeStep e o s = .cont t → ∀ v, evalL (facOf k e.n t.set.Y).1 (facOf k e.n t.set.Y).2 univ (vec e.n o.xnew)
    (frameOf e.n e.n t.set.Y).xbase (frameOf e.n e.n t.set.Y).scale true = some v →
      ∀ j : Fin (e.n + 1), o.lval1 j = v j ∧ o.lval2 j = v j ∧ o.lval3 j = v j

theorem Spec.CodeLagrange.holds {e : Env ℝ (List (List ℝ))} {k : Kern e.n} {o : Orc ℝ (List (List ℝ))} {s : MSt ℝ (List (List ℝ))}
    (h : CodeLagrange e k o s) (hk : UsesKern e k) (hq : GoodQR k) (hms : LinKer k.ms) (hn : 1 ≤ e.n) : TrueLagrange e o s := by
  have hq2 : e.n + 1 ≤ (e.n + 1) * (e.n + 2) / 2 := by
    have : 2 * (e.n + 1) ≤ (e.n + 1) * (e.n + 2) := by nlinarith
    omega
  constructor
  · intro hts Y hY hl j h1 h2 c g hc
    have hr : 0 < passRadius e o s := by
      unfold tooSmall at hts
      push Not at hts
      refine lt_of_lt_of_le ?_ hts.2
      norm_num [cEps]
    have hp := hY.poised hn hl
    have hQR := hq _ _ _ hp
    have hj0 : (⟨j, by omega⟩ : Fin (e.n + 1)) ≠ 0 := fun h => by
      have := congrArg Fin.val h
      simp at this
      omega
    obtain ⟨L, y, imp, -, l1, l2, -, l4, l5, -⟩ := linear_point (ptsOf e.n e.n Y) _ _ hms hn hQR hp (passRadius e o s) (1 / 10 ^ 3) hr
      (by norm_num) ⟨j, by omega⟩ hj0
    obtain ⟨L', m1, m2, -⟩ := C37_lagrange (ptsOf e.n e.n Y) true _ _ hn (le_refl _) hq2 hQR hp
    have hLL : L' ⟨j, by omega⟩ = L := Option.some.inj ((m1 _).symm.trans l1)
    have hpr := h.propose Y ⟨j, by omega⟩ _ l2
    rw [hk.build]
    show affine c g (o.propose Y Y j).1 ≠ 0
    rw [hpr, ← cardinal_value hn hY hl ⟨j, by omega⟩ L (fun i => by rw [← hLL]; exact m2 i _) c g hc, vec_ofFn]
    show evalP L y (buildFrame (e.n + 1) (ptsOf e.n e.n Y) true).xbase (buildFrame (e.n + 1) (ptsOf e.n e.n Y) true).scale true ≠ 0
    rw [l5]
    linarith
  · intro t ht hY hl j hj c g hc
    have hp := hY.poised hn hl
    obtain ⟨L', -, m2, m3, -⟩ := C37_lagrange (ptsOf e.n e.n t.set.Y) true _ _ hn (le_refl _) hq2 (hq _ _ _ hp) hp
    obtain ⟨v, hv, hv2⟩ := m3 univ (vec e.n o.xnew)
    obtain ⟨a1, a2, a3⟩ := h.lval t ht v hv ⟨j, by omega⟩
    have hval : v ⟨j, by omega⟩ = affine c g o.xnew := by
      rw [hv2, if_pos (mem_univ _)]
      exact cardinal_value hn hY hl ⟨j, by omega⟩ _ (fun i => m2 i _) c g hc o.xnew
    rw [← hval]
    exact ⟨a1, a2, a3⟩

/-- C104 with the functions of the code: every interpolation system of a run with linear models is regular. -/
theorem C104_code {e : Env ℝ (List (List ℝ))} {x0 : List ℝ} {fuel : ℕ} {Δ : ℝ} {sl : List ℝ}
    {s0 : MSt ℝ (List (List ℝ))} (H : Starts e x0 fuel Δ sl s0) {k : Kern e.n} (hk : UsesKern e k) (hq : GoodQR k) (hms : LinKer k.ms)
    (hn : 1 ≤ e.n) (hlin : e.finalDeg = .linear) (hreg : e.regression = false) (os : List (Orc ℝ (List (List ℝ))))
    (hT : ∀ pre o post u, os = pre ++ o :: post → mainLoop e pre s0 = .running u → CodeLagrange e k o u) (t : MSt ℝ (List (List ℝ)))
    (ht : mainLoop e os s0 = .running t ∨ mainLoop e os s0 = .done t) :
    t.set.Y.length = e.n + 1 ∧ OneAffine e.n t.set.Y ∧ Poised (zMat (e.n + 1) (frameOf e.n e.n t.set.Y).pts) := by
  have := mainLoop_det e hlin hreg os s0 (fun pre o post u h1 h2 => (hT pre o post u h1 h2).holds hk hq hms hn) (start_det H) t ht
  exact ⟨this.len, this.fixes.one this.len, this.fixes.poised hn this.len⟩

/-- On affine problems all gradients of a run are exact. -/
theorem C104_exact {e : Env ℝ (List (List ℝ))} {x0 : List ℝ} {fuel : ℕ} {Δ : ℝ} {sl : List ℝ}
    {s0 : MSt ℝ (List (List ℝ))} (H : Starts e x0 fuel Δ sl s0) (hTa : 0 < e.me → e.Tame) {m : ℕ} {p : Prob e.n m e.ns}
    (hc : Computes e p) (hκ : p.κ = 0) (hκc : ∀ r, p.κc r = 0) {k : Kern e.n} (hk : UsesKern e k) (hq : GoodQR k) (hms : LinKer k.ms)
    (hn : 1 ≤ e.n) (hlin : e.finalDeg = .linear) (hreg : e.regression = false) (os : List (Orc ℝ (List (List ℝ))))
    (hT : ∀ pre o post u, os = pre ++ o :: post → mainLoop e pre s0 = .running u → CodeLagrange e k o u) (t : MSt ℝ (List (List ℝ)))
    (ht : mainLoop e os s0 = .running t) :
    vec e.n t.infoG.g = p.G (vec e.n t.x) ∧ ∀ r, vec e.n (t.infoG.a.getD (rowIx r) []) = p.J r (vec e.n t.x) := by
  obtain ⟨hl, -, hp⟩ := C104_code H hk hq hms hn hlin hreg os hT t (Or.inl ht)
  have hcore : Core e [] t := by
    have key := mainLoop_sat H os
    rw [ht] at key
    exact key.toCore
  have hfresh := mainLoop_fresh e os s0 (startState_fresh e x0 fuel Δ sl s0 H.state) t (Or.inl ht)
  have hlen : t.set.Y.length - 1 = e.n := by omega
  have hacc : ∃ E, GradAcc k (t.set.Y.length - 1) t.set.Y E := by
    rw [hlen]
    obtain ⟨lam, r, -, h1, -⟩ := C73_linear hms hn (ptsOf e.n e.n t.set.Y) _ _ (hq _ _ _ hp) hp (1 / 10 ^ 3) (by norm_num) _ _ _ p.smooth
    exact ⟨_, acc_linear hq hms hn t.set.Y hp h1⟩
  obtain ⟨E, hE⟩ := hacc
  have hx : vec e.n t.x = ptsOf e.n (t.set.Y.length - 1) t.set.Y 0 := by
    simp only [ptsOf, List.getD_eq_getElem?_getD, Fin.val_zero, hcore.Y0, Option.getD_some]
  have hG : t.infoG = modelOf k e.me t.set.Y t.x t.set.fY t.set.ceY := by
    rw [hfresh.info, hfresh.gx, hfresh.fac, hk.build, hk.model]
    rfl
  constructor
  · funext i
    have := hE _ _ _ p.smooth _ _ hx (values_ok hc hcore) i
    rw [hκ, zero_mul] at this
    rw [hG]
    exact sub_eq_zero.1 (abs_eq_zero.1 (le_antisymm this (abs_nonneg _)))
  · intro r
    have hr : rowIx r < e.me := by rw [hc.rows]; exact rows_lt r
    have hC : CeConsistent e t := by
      have := C64_constraint_data H (hTa (by omega)) os
      rw [ht] at this
      exact this
    have h1 : t.infoG.a.getD (rowIx r) [] =
        gradOf k (t.set.Y.length - 1) t.set.Y t.x (t.set.ceY.map fun c => c.getD (rowIx r) 0) := by
      rw [hG]
      simp [modelOf, List.getD_eq_getElem?_getD, hr]
    rw [h1]
    funext i
    have := hE _ _ _ (p.smoothC r) _ _ hx (values_ce hc hcore hC r).1 i
    rw [hκc, zero_mul] at this
    exact sub_eq_zero.1 (abs_eq_zero.1 (le_antisymm this (abs_nonneg _)))

/-- The certificate of C74 for linear models, without a hypothesis on the final set. -/
theorem C104_certificate {e : Env ℝ (List (List ℝ))} {x0 : List ℝ} {fuel : ℕ} {Δ : ℝ} {sl : List ℝ}
    {s0 : MSt ℝ (List (List ℝ))} (H : Starts e x0 fuel Δ sl s0) (hTa : 0 < e.me → e.Tame) {m : ℕ} {p : Prob e.n m e.ns}
    (hc : Computes e p) {k : Kern e.n} (hk : UsesKern e k) (hq : GoodQR k) (hms : LinKer k.ms) (hn : 1 ≤ e.n)
    (hlin : e.finalDeg = .linear) (hreg : e.regression = false)
    {pre : List (Orc ℝ (List (List ℝ)))} {s t : MSt ℝ (List (List ℝ))} {o : Orc ℝ (List (List ℝ))}
    (hT : ∀ pre' o' post u, pre = pre' ++ o' :: post → mainLoop e pre' s0 = .running u → CodeLagrange e k o' u)
    (hs : mainLoop e pre s0 = .running s) (hp : pass e o s = .ret t) (h0 : t.ev.flag = 0) (hf : FirstTest e o s)
    (hpo : poisOf k e.n s.set.Y = some (o.poisedness s.set.fac s.set.Y)) (lmB : Fin e.n → ℝ)
    (lmE : Fin m ⊕ Fin e.ns → ℝ) (hg : ∀ i, |glag (optimIn e m s lmB lmE) i| ≤ o.k1.glagn)
    (hfe : ∀ r, |feas (optimIn e m s lmB lmE) r| ≤ o.k1.feasn) :
    (∀ i, |trueLag p (vec e.n t.x) (vec e.n e.lb) (vec e.n e.ub) lmB lmE i| ≤
      e.tolGrad + e.n / 2 * (1 / 10 ^ 3) * (p.κ + ∑ r, |lmE r| * p.κc r)) ∧
    (∀ r, |p.c (.inl r) (vec e.n t.x)| ≤ e.tolFeas) ∧
    ∀ j, |p.c (.inr j) (vec e.n t.x) - vec e.ns t.sl j ^ 2| ≤ e.tolFeas := by
  have hcore : Core e [] s := by
    have key := mainLoop_sat H pre
    rw [hs] at key
    exact key.toCore
  obtain ⟨-, t2, -⟩ := first_return hcore.lo hp h0 hf
  obtain ⟨-, -, hY⟩ := C104_code H hk hq hms hn hlin hreg pre hT s (Or.inl hs)
  exact C74_linear H hTa hc hk hq hms hn hlin hreg hs hp h0 hf (by rw [t2]; exact hY) hpo lmB lmE hg hfe

/-! ### Runs -/

/-- Results with the Lagrange values and proposals of the code exist for every pass. -/
theorem code_exists (e : Env ℝ (List (List ℝ))) (k : Kern e.n) (o : Orc ℝ (List (List ℝ))) (s : MSt ℝ (List (List ℝ))) :
    ∃ pr l, CodeLagrange e k { o with propose := pr, lval1 := l, lval2 := l, lval3 := l } s := by
  classical
  let pr : List (List ℝ) → List (List ℝ) → ℕ → List ℝ × ℝ := fun _ Y j =>
    if h : j < e.n + 1 then
      match findNewYj k.ms (facOf k e.n Y).1 (facOf k e.n Y).2 (ptsOf e.n e.n Y) ⟨j, h⟩ (passRadius e o s) (1 / 10 ^ 3)
        (frameOf e.n e.n Y).xbase (frameOf e.n e.n Y).scale true with
      | some N => (List.ofFn N.y, N.imp)
      | none => ([], 0)
    else ([], 0)
  have hb : ∀ l : ℕ → ℝ, beforeStep e { o with propose := pr, lval1 := l, lval2 := l, lval3 := l } s = beforeStep e { o with propose := pr } s :=
    fun _ => rfl
  let l : ℕ → ℝ := fun j =>
    match beforeStep e { o with propose := pr } s with
    | .cont t =>
      match evalL (facOf k e.n t.set.Y).1 (facOf k e.n t.set.Y).2 univ (vec e.n o.xnew)
        (frameOf e.n e.n t.set.Y).xbase (frameOf e.n e.n t.set.Y).scale true with
      | some v => if h : j < e.n + 1 then v ⟨j, h⟩ else 0
      | none => 0
    | _ => 0
  refine ⟨pr, l, fun Y j N hN => ?_, fun t ht v hv j => ?_⟩
  · have hN' : findNewYj k.ms (facOf k e.n Y).1 (facOf k e.n Y).2 (ptsOf e.n e.n Y) ⟨j, j.2⟩ (passRadius e o s) (1 / 10 ^ 3)
        (frameOf e.n e.n Y).xbase (frameOf e.n e.n Y).scale true = some N := hN
    show pr Y Y j = _
    simp only [pr]
    rw [dif_pos j.2, hN']
  · rw [hb] at ht
    have : l j = v j := by
      simp only [l]
      rw [ht]
      simp only
      rw [hv]
      simp only
      rw [dif_pos j.2]
    exact ⟨this, this, this⟩

namespace Ex

/-- Results for one variable and the set `[a], [b]`: norm `g` of the gradient of the Lagrangian, trial point `x`, predicted reduction `p`,
values of the two Lagrange functions at `x`, proposals at the distance `1e-5` from the base point. -/
def lOrc (g x p a b : ℚ) : Orc ℚ (List (List ℚ)) :=
  { gOrc g [x] p with
    propose := fun _ Y _ => ([(Y.getD 0 []).getD 0 0 + 1 / 10 ^ 5], 2)
    lval1 := fun j => if j = 0 then (x - b) / (a - b) else (x - a) / (b - a)
    lval2 := fun j => if j = 0 then (x - b) / (a - b) else (x - a) / (b - a)
    lval3 := fun j => if j = 0 then (x - b) / (a - b) else (x - a) / (b - a) }

theorem line_affine (c : ℚ) (g : Fin 1 → ℚ) (y : List ℚ) : affine c g y = c + g 0 * y.getD 0 0 := by
  simp [affine]

theorem lOrc_proposals (g x p a b : ℚ) : GoodProposals (gEnv square .pinf) (lOrc g x p a b) := by
  intro Y _ hl j h1 h2 c u hc h0
  have hl : Y.length = 2 := hl
  match Y, hl with
  | [y, z], _ =>
    have hj : j = 1 := by simp at h2; omega
    subst hj
    change Fin 1 → ℚ at u
    have e0 := (line_affine c u y).symm.trans (hc 0 y rfl)
    have e1 := (line_affine c u z).symm.trans (hc 1 z rfl)
    replace h0 := (line_affine c u _).symm.trans h0
    simp [lOrc] at h0 e0 e1
    have hu : u 0 = 0 := by linarith
    rw [hu] at e0 e1
    norm_num at e0 e1
    rw [e0] at e1
    norm_num at e1

theorem lOrc_values (g x p a b : ℚ) (hab : a ≠ b) : GoodValues (gEnv square .pinf) (lOrc g x p a b) [[a], [b]] := by
  intro j hj c u hc
  change Fin 1 → ℚ at u
  have e0 := (line_affine c u [a]).symm.trans (hc 0 [a] rfl)
  have e1 := (line_affine c u [b]).symm.trans (hc 1 [b] rfl)
  have h1 : a - b ≠ 0 := sub_ne_zero.2 hab
  have h2 : b - a ≠ 0 := sub_ne_zero.2 hab.symm
  have : (if j = 0 then (x - b) / (a - b) else (x - a) / (b - a)) = affine c u [x] := by
    refine Eq.trans ?_ (line_affine c u [x]).symm
    have hj : j = 0 ∨ j = 1 := by simp at hj; omega
    rcases hj with rfl | rfl
    · simp at e0 e1 ⊢
      field_simp
      have hu : u 0 * (a - b) = 1 := by linarith
      linear_combination (-x + b) * hu - (a - b) * e1
    · simp at e0 e1 ⊢
      field_simp
      have hu : u 0 * (b - a) = 1 := by linarith
      linear_combination (-x + a) * hu - (b - a) * e0
  exact ⟨this, this, this⟩

/-- The set in use at the trial point of the last of the given passes. -/
def lLook (pre : List (Orc ℚ (List (List ℚ)))) (o : Orc ℚ (List (List ℚ))) : Option (List (List ℚ)) :=
  (startState (gEnv square .pinf) [3] 1 1 []).bind fun s =>
    match mainLoop (gEnv square .pinf) pre s with
    | .running u => match beforeStep (gEnv square .pinf) o u with
      | .cont t => some t.set.Y
      | _ => none
    | _ => none

theorem lTrue {s0 u : MSt ℚ (List (List ℚ))} (H : Starts (gEnv square .pinf) [3] 1 1 [] s0) {pre : List (Orc ℚ (List (List ℚ)))}
    (hu : mainLoop (gEnv square .pinf) pre s0 = .running u) (g x p a b : ℚ) (hab : a ≠ b)
    (h : lLook pre (lOrc g x p a b) = some [[a], [b]]) : TrueLagrange (gEnv square .pinf) (lOrc g x p a b) u := by
  refine ⟨fun _ => lOrc_proposals g x p a b, fun t ht _ _ => ?_⟩
  unfold lLook at h
  rw [H.state] at h
  simp only [Option.bind_some, hu, ht, Option.some.injEq] at h
  rw [h]
  exact lOrc_values g x p a b hab

/-- An accepted step, then an improvement of the set followed by an accepted step. -/
def lRun : List (Orc ℚ (List (List ℚ))) := [lOrc 1 1 8 3 2, lOrc 0 (1 / 2) (3 / 4) 1 (1 + 1 / 10 ^ 5)]

/-- The hypotheses of `C104_poised` are met by this run, in which the set changes three times. -/
example : ∃ s0 t, Starts (gEnv square .pinf) [3] 1 1 [] s0 ∧ mainLoop (gEnv square .pinf) lRun s0 = .running t ∧
    t.set.Y = [[1 / 2], [1]] ∧ OneAffine 1 t.set.Y := by
  obtain ⟨s0, H⟩ := gStarts
  have hl : gLook lRun = some ([1 / 2], [[1 / 2], [1]], [1 / 4, 1], [3 / 2]) := by decide +kernel
  have hrun : ((startState (gEnv square .pinf) [3] 1 1 []).bind fun s => match mainLoop (gEnv square .pinf) lRun s with
      | .running t => some t.set.Y
      | _ => none) = some [[1 / 2], [1]] := by decide +kernel
  rw [H.state] at hrun
  simp only [Option.bind_some] at hrun
  cases hm : mainLoop (gEnv square .pinf) lRun s0 with
  | done t => rw [hm] at hrun; cases hrun
  | crash c => rw [hm] at hrun; cases hrun
  | running t =>
    rw [hm] at hrun
    refine ⟨s0, t, H, hm, Option.some.inj hrun, ?_⟩
    refine (C104_poised H rfl rfl lRun ?_ t (Or.inl hm)).2
    intro pre o post u h1 h2
    match pre with
    | [] =>
      cases h1
      exact lTrue H h2 _ _ _ _ _ (by norm_num) (by decide +kernel)
    | [a] =>
      cases h1
      exact lTrue H h2 _ _ _ _ _ (by norm_num) (by decide +kernel)
    | a :: b :: l =>
      have := congrArg List.length h1
      simp [lRun] at this

/-- The same problem with quadratic models. -/
def quadEnv : Env ℚ (List (List ℚ)) := { gEnv square .pinf with finalDeg := .quadratic }

end Ex

/-- For models that grow (`final_degree` other than linear) the claim is false: the first trial point, a step of the length of the radius
against the gradient, is the second sampling point.  It is accepted and added, so that the set contains a point twice: no model
interpolates arbitrary values. -/
theorem C104_growing_false : ∃ (e : Env ℚ (List (List ℚ))) (o : Orc ℚ (List (List ℚ))) (s0 t : MSt ℚ (List (List ℚ))) (i j : ℕ) (y : List ℚ),
    Starts e [3] 1 1 [] s0 ∧ e.finalDeg = .quadratic ∧ s0.infoG.g = [5] ∧ o.xnew = [3 - s0.delta] ∧ pass e o s0 = .cont t ∧ i ≠ j ∧
    t.set.Y[i]? = some y ∧ t.set.Y[j]? = some y ∧ ∀ f : ℕ → ℚ, f i ≠ f j → ¬ ∃ m : List ℚ → ℚ, ∀ l z, t.set.Y[l]? = some z → m z = f l := by
  have h : ((startState Ex.quadEnv [3] 1 1 []).bind fun s => match pass Ex.quadEnv (Ex.gOrc 5 [2] 5) s with
      | .cont t => some (s.infoG.g, s.delta, t.set.Y)
      | _ => none) = some ([5], 1, [[2], [2], [3]]) := by decide +kernel
  obtain ⟨s0, h1, h2⟩ := Option.bind_eq_some_iff.1 h
  cases hp : pass Ex.quadEnv (Ex.gOrc 5 [2] 5) s0 with
  | ret t => rw [hp] at h2; cases h2
  | crash c => rw [hp] at h2; cases h2
  | cont t =>
    rw [hp] at h2
    simp only [Option.some.injEq, Prod.mk.injEq] at h2
    obtain ⟨g1, g2, g3⟩ := h2
    refine ⟨Ex.quadEnv, Ex.gOrc 5 [2] 5, s0, t, 0, 1, [2], ⟨⟨Ex.nrm1_nonneg, Ex.descOrder_sorted⟩, ⟨fun _ => rfl, fun _ h => by cases h⟩, rfl, by norm_num, h1⟩,
      rfl, g1, ?_, hp, by norm_num, by rw [g3]; rfl, by rw [g3]; rfl, ?_⟩
    · rw [g2]
      decide +kernel
    · rintro f hf ⟨m, hm⟩
      rw [g3] at hm
      exact hf ((hm 0 [2] rfl).symm.trans (hm 1 [2] rfl))

namespace Ex

/-- Objective `2 x` of one variable. -/
noncomputable def lineEnv : Env ℝ (List (List ℝ)) :=
  { sqEnv with U := ⟨fun _ y => if 2 * y.getD 0 0 ≤ 10 ^ 25 then .num (.fin (2 * y.getD 0 0)) else .raised, none⟩ }

/-- The problem. -/
noncomputable def lineProb : Prob 1 0 0 where
  f := fun x => 2 * x 0
  G := fun _ => ![2]
  κ := 0
  c := fun _ _ => 0
  J := fun _ _ => 0
  κc := fun _ => 0
  smooth := by
    intro x y
    simp only [dotProduct, univ_unique, Fin.default_eq_zero, sum_singleton, cons_val_zero, Pi.sub_apply]
    rw [abs_eq_zero.2 (by ring)]
    simp
  smoothC := fun r => by rcases r with r | r <;> exact r.elim0

theorem line_computes : Computes (m := 0) lineEnv lineProb where
  rows := rfl
  obj := by
    intro w y q h
    simp only [lineEnv] at h
    split at h
    · cases h; exact ⟨rfl, by assumption⟩
    · cases h
  con := by intro w y l _ r; rcases r with r | r <;> exact r.elim0

theorem line_eval (y : List ℝ) (m : ℕ) (s : EvSt (List ℝ) ℝ) (h : 2 * y.getD 0 0 ≤ 10 ^ 25) :
    augmX lineEnv.U (.fin big) y m s = some ⟨setOrAppend s.X m y, setOrAppend s.fX m (.fin (2 * y.getD 0 0)), s.ceX, s.nsimul + 1,
      .fin (2 * y.getD 0 0), s.flag, ⟨s.w.logF ++ [y], s.w.logC⟩⟩ := by
  have hu : lineEnv.U.f s.w y = .num (.fin (2 * y.getD 0 0)) := if_pos h
  have hc : lineEnv.U.c = none := rfl
  have hm : (Fl.fin (big : ℝ)).fmin (.fin (2 * y.getD 0 0)) = .fin (2 * y.getD 0 0) := by
    by_cases hle : (big : ℝ) ≤ 2 * y.getD 0 0
    · have : 2 * y.getD 0 0 = (big : ℝ) := le_antisymm h hle
      rw [this]
      simp [Fl.fmin, Fl.isNan]
    · simp only [Fl.fmin, Fl.isNan, Fl.le, decide_eq_true_eq, if_neg hle, Bool.false_eq_true, if_false]
  unfold augmX sqpdfoFunc
  simp only [hu, hc, Fl.isNan, Fl.isInf, Bool.false_eq_true, if_false, List.any_nil, List.map_nil, List.isEmpty_nil, if_true, hm]

/-- The initial sampling. -/
theorem line_init : initLoop lineEnv.U [1] (lineEnv.nrm [1]) 1 1 emptyEv = .done 1
    ⟨[[1], [0]], [.fin 2, .fin 0], [], 2, .fin 0, 0, ⟨[[1], [0]], []⟩⟩ := by
  have hsx : simplex ([1] : List ℝ) 1 = [[1], [0]] := by
    simp only [simplex, List.length_cons, List.length_nil]
    norm_num [List.range_succ]
  have hb : ∀ q : ℝ, q = 2 ∨ q = 0 → tooBig (.fin q) = false := by
    rintro q (rfl | rfl) <;> simp only [tooBig, big] <;> norm_num
  have h1 : 2 * ([1] : List ℝ).getD 0 0 = 2 := by simp
  have h2 : 2 * ([0] : List ℝ).getD 0 0 = 0 := by simp
  unfold initLoop
  dsimp only
  rw [hsx]
  unfold samplePass
  rw [line_eval _ _ _ (by rw [h1]; norm_num)]
  simp only [emptyEv, setOrAppend, List.length_nil, lt_irrefl, if_false, List.nil_append, ne_eq, not_true_eq_false,
    List.getElem?_cons_zero, h1, hb 2 (Or.inl rfl), Bool.false_eq_true]
  unfold samplePass
  rw [line_eval _ _ _ (by rw [h2]; norm_num)]
  simp only [h2, setOrAppend, List.length_cons, List.length_nil, zero_add, lt_irrefl, if_false, List.cons_append,
    List.nil_append, ne_eq, not_true_eq_false, List.getElem?_cons_succ, List.getElem?_cons_zero, hb 0 (Or.inr rfl), Bool.false_eq_true,
    samplePass]
  rfl

/-- The state at the first pass. -/
theorem line_start : ∃ s0, Starts lineEnv [1] 1 1 [] s0 ∧ s0.niter = 0 ∧ s0.ev.nsimul = 2 ∧ s0.delta = 1 ∧ s0.pred = 0 ∧
    s0.rejected = false ∧ s0.ev.infoF = .fin 2 ∧ s0.sigma = 1 ∧ s0.m = 1 ∧ s0.ev.ceX = [] ∧ s0.ev.fX = [.fin 2, .fin 0] ∧ s0.infoCe = [] ∧
    s0.ceplus = [] := by
  have h : ∃ s0, startState lineEnv [1] 1 1 [] = some s0 ∧ s0.niter = 0 ∧ s0.ev.nsimul = 2 ∧ s0.delta = 1 ∧ s0.pred = 0 ∧
      s0.rejected = false ∧ s0.ev.infoF = .fin 2 ∧ s0.sigma = 1 ∧ s0.m = 1 ∧ s0.ev.ceX = [] ∧ s0.ev.fX = [.fin 2, .fin 0] ∧ s0.infoCe = [] ∧
      s0.ceplus = [] := by
    unfold startState
    rw [line_init]
    exact ⟨_, rfl, rfl, rfl, rfl, rfl, rfl, rfl, rfl, rfl, rfl, rfl, rfl, rfl⟩
  obtain ⟨s0, h1, h2⟩ := h
  exact ⟨s0, ⟨⟨nrm1_nonneg, descOrder_sorted⟩, ⟨fun _ => rfl, fun _ h => by cases h⟩, rfl, by norm_num, h1⟩, h2⟩

/-- Results of a pass with trial point 0 and no predicted reduction. -/
noncomputable def lineOrc : Orc ℝ (List (List ℝ)) := { sqOrc with k1 := ⟨false, 2, 0, 0⟩, xnew := [0] }

theorem line_pass {s0 : MSt ℝ (List (List ℝ))} (h1 : s0.niter = 0) (h2 : s0.ev.nsimul = 2) (h3 : s0.delta = 1) (h4 : s0.pred = 0)
    (h5 : s0.rejected = false) (h6 : s0.ev.infoF = .fin 2) (h7 : s0.sigma = 1) (h8 : s0.m = 1) (h9 : s0.ev.ceX = [])
    (h10 : s0.ev.fX = [.fin 2, .fin 0]) (h11 : s0.infoCe = []) (h12 : s0.ceplus = []) {o : Orc ℝ (List (List ℝ))}
    (o1 : o.k1 = ⟨false, 2, 0, 0⟩)
    (o2 : o.xnew = [0]) (o3 : o.rpred = 0) (o4 : o.qcost = 0) (o5 : o.tfail = false) : ∃ t, pass lineEnv o s0 = .cont t := by
  have e1 : lineEnv.miter.le (.fin (s0.niter : ℝ)) = false := by rw [h1]; norm_num [lineEnv, sqEnv, Fl.le]
  have e2 : lineEnv.msimul.le (.fin (s0.ev.nsimul : ℝ)) = false := by rw [h2]; norm_num [lineEnv, sqEnv, Fl.le]
  have e4 : ¬ ((2 : ℝ) ≤ lineEnv.tolGrad) := by norm_num [lineEnv, sqEnv]
  have hr : ∀ sl, lineEnv.resNorm [] sl = some (nrm1 []) := fun _ => rfl
  have hsg : sigmab o = 0 := by rw [sigmab, if_pos o3]
  have hpr : ∀ sg, newPred o sg = -1 := fun sg => by norm_num [newPred, o3, o4]
  unfold pass
  rw [e1, e2, o1]
  simp only [Bool.false_eq_true, if_false]
  rw [if_neg (by
    rintro (h | h | h)
    · exact e4 h.1
    · simp only [MSt.measure, h3] at h; norm_num at h
    · simp only [MSt.measure, h4] at h; norm_num at h)]
  simp only [PassRes.bind]
  unfold stepStage globalise
  simp only [MSt.measure, h5, h6, h11, Bool.false_eq_true, if_false, Fl.val?, hr, PassRes.bind, o5]
  unfold penalty
  rw [hsg]
  simp only [h7]
  rw [if_neg (by norm_num)]
  simp only
  unfold evalTrial
  simp only [o2, h8]
  rw [line_eval _ _ _ (by norm_num)]
  simp only [h9, h10]
  rw [if_neg (by simp [Status.success])]
  simp only [finVals, List.flatten_nil, List.filterMap_nil, List.any_nil, Bool.false_eq_true, if_false]
  unfold decideStep
  simp only [setOrAppend, List.length_cons, List.length_nil, h12, hpr, hr, if_true]
  rw [if_neg (by norm_num)]
  exact ⟨_, rfl⟩

end Ex

/-- The hypotheses of `C104_code`, `C104_exact` are met by a run of one pass with the functions of the code; the gradient is exact. -/
example : ∃ s0 t o, Starts Ex.lineEnv [1] 1 1 [] s0 ∧ CodeLagrange Ex.lineEnv Ex.kern o s0 ∧ mainLoop Ex.lineEnv [o] s0 = .running t ∧
    Poised (zMat (1 + 1) (frameOf 1 1 t.set.Y).pts) ∧ vec 1 t.infoG.g = ![2] := by
  obtain ⟨s0, H, h1, h2, h3, h4, h5, h6, h7, h8, h9, h10, h11, h12⟩ := Ex.line_start
  obtain ⟨pr, l, hC⟩ := code_exists Ex.lineEnv Ex.kern Ex.lineOrc s0
  obtain ⟨t, ht⟩ := Ex.line_pass h1 h2 h3 h4 h5 h6 h7 h8 h9 h10 h11 h12
    (o := { Ex.lineOrc with propose := pr, lval1 := l, lval2 := l, lval3 := l }) rfl rfl rfl rfl rfl
  have hm : mainLoop Ex.lineEnv [{ Ex.lineOrc with propose := pr, lval1 := l, lval2 := l, lval3 := l }] s0 = .running t := by
    simp only [mainLoop]
    rw [ht]
  have hT : ∀ pre o post u, [{ Ex.lineOrc with propose := pr, lval1 := l, lval2 := l, lval3 := l }] = pre ++ o :: post →
      mainLoop Ex.lineEnv pre s0 = .running u → CodeLagrange Ex.lineEnv Ex.kern o u := by
    intro pre o post u e1 e2
    match pre with
    | [] =>
      cases e1
      cases e2
      exact hC
    | a :: b => simp at e1
  refine ⟨s0, t, _, H, hC, hm, (C104_code (k := Ex.kern) H ⟨rfl, rfl⟩ Ex.kern_qr Ex.realKer_lin le_rfl rfl rfl _ hT t (Or.inl hm)).2.2, ?_⟩
  exact (C104_exact (m := 0) (p := Ex.lineProb) (k := Ex.kern) H (fun h => absurd h (lt_irrefl _)) Ex.line_computes rfl (fun _ => rfl)
    ⟨rfl, rfl⟩ Ex.kern_qr Ex.realKer_lin le_rfl rfl rfl _ hT t hm).1

/-- The hypotheses of `C104_certificate` are met. -/
example : ∃ t : MSt ℝ (List (List ℝ)), t.x = [1 / 2000] ∧
    ∀ i, |trueLag Ex.sqProb (vec 1 t.x) (vec 1 Ex.sqEnv.lb) (vec 1 Ex.sqEnv.ub) 0 0 i| ≤ 1 / 10 ^ 5 + 1 / 2 * (1 / 10 ^ 3) * 2 := by
  obtain ⟨s0, t, H, h0, h1, h2, h3, h4, h5, h6, h7⟩ := Ex.sq_run
  have hab : (1 / 2000 : ℝ) ≠ -1 / 2000 := by norm_num
  refine ⟨t, h4, fun i => ?_⟩
  have := (C104_certificate (m := 0) (p := Ex.sqProb) (k := Ex.kern) (lmB := 0) (lmE := 0) H (fun h => absurd h (lt_irrefl _))
    Ex.sq_computes ⟨rfl, rfl⟩ Ex.kern_qr Ex.realKer_lin le_rfl rfl rfl (fun pre o post u e1 => by simp at e1) h0 h1 h2 h3 (by
      rw [h6, h5]
      show poisOf Ex.kern 1 _ = _
      rw [Ex.two_pois _ _ hab]
      norm_num [Ex.sqOrc]) (fun i => by rw [h7 i, abs_zero]; rfl) (fun r => by rcases r with r | r <;> exact r.elim0)).1 i
  refine le_trans this (le_of_eq ?_)
  norm_num [Ex.sqProb, Ex.sqEnv]

#print axioms C104_poised
#print axioms C104_code
#print axioms C104_exact
#print axioms C104_certificate
#print axioms C104_growing_false

end Sqpdfo
