import Verif.Props.C104_Poised

/-! # C107: what status 0 says about the user's functions, for both convergence tests -/

set_option linter.unusedSectionVars false

namespace Sqpdfo
open Matrix Finset Spec

/-! ### The gradient of a smooth function is Lipschitz continuous -/

theorem smooth_lipschitz {n : ℕ} {f : (Fin n → ℝ) → ℝ} {G : (Fin n → ℝ) → Fin n → ℝ} {κ : ℝ} (hf : Smooth f G κ)
    (x y : Fin n → ℝ) : enorm2 (G y - G x) ≤ κ * enorm2 (y - x) := by
  have main : ∀ w : Fin n → ℝ, (G y - G x) ⬝ᵥ w ≤ κ * (w ⬝ᵥ w + (y - x) ⬝ᵥ (y - x) / 4) := by
    intro w
    have e1 := (abs_le.1 (hf x (x + ((1 / 2 : ℝ) • (y - x) + w)))).2
    have e2 := (abs_le.1 (hf y (x + ((1 / 2 : ℝ) • (y - x) + w)))).1
    have e3 := (abs_le.1 (hf y (x + ((1 / 2 : ℝ) • (y - x) - w)))).2
    have e4 := (abs_le.1 (hf x (x + ((1 / 2 : ℝ) • (y - x) - w)))).1
    have s1 : x + ((1 / 2 : ℝ) • (y - x) + w) - y = w - (1 / 2 : ℝ) • (y - x) := by
      ext i; simp only [Pi.add_apply, Pi.sub_apply, Pi.smul_apply, smul_eq_mul]; ring
    have s2 : x + ((1 / 2 : ℝ) • (y - x) - w) - y = -((1 / 2 : ℝ) • (y - x) + w) := by
      ext i; simp only [Pi.add_apply, Pi.sub_apply, Pi.smul_apply, Pi.neg_apply, smul_eq_mul]; ring
    rw [s1] at e2
    rw [s2] at e3
    rw [add_sub_cancel_left] at e1 e4
    rw [enorm2_sq] at e1 e2 e3 e4
    generalize y - x = D at *
    simp only [dotProduct_add, add_dotProduct, dotProduct_sub, sub_dotProduct, dotProduct_smul, smul_dotProduct,
      dotProduct_neg, neg_dotProduct, smul_eq_mul] at e1 e2 e3 e4 ⊢
    rw [dotProduct_comm D w] at *
    nlinarith
  by_cases hd : enorm2 (y - x) = 0
  · have : y - x = 0 := enorm2_eq_zero hd
    obtain rfl : y = x := sub_eq_zero.1 this
    have h0 : enorm2 (0 : Fin n → ℝ) = 0 := by simp [enorm2]
    simp [h0]
  have hd0 : 0 < enorm2 (y - x) := lt_of_le_of_ne (enorm2_nonneg _) (Ne.symm hd)
  have hκ : 0 ≤ κ := by
    have h1 := le_trans (abs_nonneg _) (hf x y)
    by_contra hk
    push Not at hk
    have : 0 < enorm2 (y - x) ^ 2 := by positivity
    nlinarith
  by_cases hN : enorm2 (G y - G x) = 0
  · rw [hN]; positivity
  have hN0 : 0 < enorm2 (G y - G x) := lt_of_le_of_ne (enorm2_nonneg _) (Ne.symm hN)
  have h := main ((enorm2 (y - x) / (2 * enorm2 (G y - G x))) • (G y - G x))
  simp only [dotProduct_smul, smul_dotProduct, smul_eq_mul, ← enorm2_sq] at h
  generalize enorm2 (G y - G x) = N at *
  generalize enorm2 (y - x) = d at *
  have e1 : d / (2 * N) * N ^ 2 = d * N / 2 := by field_simp
  have e2 : d / (2 * N) * (d / (2 * N) * N ^ 2) = d ^ 2 / 4 := by field_simp; ring
  rw [e2, e1] at h
  have : d * N ≤ d * (κ * d) := by nlinarith
  exact le_of_mul_le_mul_left this hd0

/-! ### Accuracy after a change of the base point -/

/-- The linear model of the values `f` reproduces the differences of the values. -/
theorem grad_differences {n : ℕ} {k : Kern n} (hq : GoodQR k) (hn : 1 ≤ n) (Y : List (List ℝ))
    (hp : Poised (zMat (n + 1) (frameOf n n Y).pts)) (f : (Fin n → ℝ) → ℝ) (x v : List ℝ) (hx : vec n x = ptsOf n n Y 0)
    (hv : ∀ j, vec (n + 1) v j = f (ptsOf n n Y j)) (j : Fin (n + 1)) :
    vec n (gradOf k n Y x v) ⬝ᵥ (ptsOf n n Y j - ptsOf n n Y 0) = f (ptsOf n n Y j) - f (ptsOf n n Y 0) := by
  have hq2 : n + 1 ≤ (n + 1) * (n + 2) / 2 := by
    have : 2 * (n + 1) ≤ (n + 1) * (n + 2) := by nlinarith
    omega
  obtain ⟨P, hP, hI⟩ := C36_interpolates (ptsOf n n Y) true (fun j => f (ptsOf n n Y j)) _ _ hn (le_refl _) hq2
    (hq _ _ _ hp) hp
  obtain ⟨σ, -, -, hs, -, -⟩ := frame_true (ptsOf n n Y) hn (le_refl _) hn hp
  have hv' : vec (n + 1) v = fun j => f (ptsOf n n Y j) := funext hv
  have hg : vec n (gradOf k n Y x v) =
      gradP P (ptsOf n n Y 0) (frameOf n n Y).xbase (frameOf n n Y).scale true := by
    have hP' : computeP (facOf k n Y).1 (facOf k n Y).2 (fun j => f (ptsOf n n Y j)) = some P := hP
    unfold gradOf
    rw [hv', hP']
    simp only [vec_ofFn, hx]
  have ht := C34_taylor P (frameOf n n Y).scale (ptsOf n n Y 0) (ptsOf n n Y j - ptsOf n n Y 0) (frameOf n n Y).xbase true σ
    (by omega) hq2 (fun _ => ⟨hs, by omega, hn⟩)
  rw [hess_linear, zero_mulVec, dotProduct_zero, mul_zero, add_zero, add_sub_cancel, ← hg] at ht
  have i0 := hI 0
  have ij := hI j
  unfold frameOf at ht
  rw [i0, ij] at ht
  linarith

/-- The accuracy of linear models at another point of the set: the poisedness and the radius are measured at the old base
point. -/
theorem acc_moved {n : ℕ} {k : Kern n} (hq : GoodQR k) (hk : LinKer k.ms) (hn : 1 ≤ n) (Y Y' : List (List ℝ))
    (hp : Poised (zMat (n + 1) (frameOf n n Y).pts)) (hp' : Poised (zMat (n + 1) (frameOf n n Y').pts))
    (hmem : ∀ j, ∃ i, ptsOf n n Y' j = ptsOf n n Y i) {lam r : ℝ} (hl : poisOf k n Y = some (lam, r)) :
    GradAcc k n Y' ((n / 2 + 1) * (lam * r)) := by
  intro f G κ hf x' v' hx' hv' i
  have hacc := acc_linear hq hk hn Y hp hl
  obtain ⟨lam', r', L, hL, h1, h2, h3⟩ := C71_linear_poisedness (ptsOf n n Y) _ _ hk hn hn (hq _ _ _ hp) hp (1 / 10 ^ 3)
    (by norm_num)
  have : some (lam, r) = some (lam', r') := hl.symm.trans h1
  cases this
  have hq2 : n + 1 ≤ (n + 1) * (n + 2) / 2 := by
    have : 2 * (n + 1) ≤ (n + 1) * (n + 2) := by nlinarith
    omega
  have hr0 : 0 ≤ r := by
    obtain ⟨j, hj⟩ := h2.1
    rw [hj]; exact enorm2_nonneg _
  have hlam : 1 ≤ lam := by
    obtain ⟨L', hL', hcard, -⟩ := C37_lagrange (ptsOf n n Y) true _ _ hn (le_refl _) hq2 (hq _ _ _ hp) hp
    have hj : (⟨1, by omega⟩ : Fin (n + 1)) ≠ 0 := by intro h; simpa using congrArg Fin.val h
    have hLL : L' ⟨1, by omega⟩ = L ⟨1, by omega⟩ := Option.some.inj ((hL' _).symm.trans (hL _))
    have hc := hcard ⟨1, by omega⟩ ⟨1, by omega⟩
    rw [hLL, if_pos rfl] at hc
    refine h3.2 ⟨⟨1, by omega⟩, hj, ptsOf n n Y ⟨1, by omega⟩, h2.2 ⟨_, rfl⟩, ?_⟩
    rw [hc, abs_one]
  have hκ := smooth_nonneg hn hf
  -- gradient of the model at the old base point
  let v : List ℝ := List.ofFn fun j : Fin (n + 1) => f (ptsOf n n Y j)
  have hv : ∀ j, vec (n + 1) v j = f (ptsOf n n Y j) := fun j => by rw [vec_ofFn]
  let x := List.ofFn (ptsOf n n Y 0)
  have hx : vec n x = ptsOf n n Y 0 := vec_ofFn _
  generalize hg : vec n (gradOf k n Y x v) = g
  have hdiff := fun j => grad_differences hq hn Y hp f x v hx hv j
  rw [hg] at hdiff
  -- both models are the same affine function
  have hsame : vec n (gradOf k n Y' x' v') i = g i := by
    obtain ⟨lam', r', -, -, h1', -, -⟩ := C71_linear_poisedness (ptsOf n n Y') _ _ hk hn hn (hq _ _ _ hp') hp' (1 / 10 ^ 3)
      (by norm_num)
    have hacc' := acc_linear hq hk hn Y' hp' (h1' : poisOf k n Y' = some (lam', r'))
    have ha : Smooth (fun y => f (ptsOf n n Y 0) + g ⬝ᵥ (y - ptsOf n n Y 0)) (fun _ => g) 0 := by
      intro a b
      have : f (ptsOf n n Y 0) + g ⬝ᵥ (b - ptsOf n n Y 0) - (f (ptsOf n n Y 0) + g ⬝ᵥ (a - ptsOf n n Y 0)) - g ⬝ᵥ (b - a) = 0 := by
        simp only [dotProduct_sub]; ring
      simp only [this]
      simp
    have := hacc' _ _ 0 ha x' v' hx' (fun j => by
      obtain ⟨b, hb⟩ := hmem j
      rw [hv', hb, hdiff b]
      ring) i
    rw [zero_mul] at this
    exact sub_eq_zero.1 (abs_nonpos_iff.1 this)
  rw [hsame]
  have e1 := hacc f G κ hf x v hx hv i
  rw [hg, hx] at e1
  obtain ⟨b, hb⟩ := hmem 0
  have e2 : |G (ptsOf n n Y 0) i - G (vec n x') i| ≤ κ * r := by
    rw [hx', hb]
    have := le_trans (abs_le_enorm2 _ i) (smooth_lipschitz hf (ptsOf n n Y b) (ptsOf n n Y 0))
    rw [Pi.sub_apply] at this
    refine le_trans this (mul_le_mul_of_nonneg_left ?_ hκ)
    have hs : enorm2 (ptsOf n n Y 0 - ptsOf n n Y b) = enorm2 (ptsOf n n Y b - ptsOf n n Y 0) := by
      unfold enorm2
      rw [← neg_sub, neg_dotProduct_neg]
    rw [hs]
    exact h2.2 ⟨b, rfl⟩
  have e3 : r ≤ lam * r := by nlinarith
  have e4 := abs_sub_le (g i) (G (ptsOf n n Y 0) i) (G (vec n x') i)
  have e5 : κ * r ≤ κ * (lam * r) := mul_le_mul_of_nonneg_left e3 hκ
  calc _ ≤ _ := e4
    _ ≤ κ * (n / 2 * (lam * r)) + κ * r := add_le_add e1 e2
    _ ≤ κ * (n / 2 * (lam * r)) + κ * (lam * r) := by linarith
    _ = _ := by ring

/-! ### The second convergence test -/

section
variable {K F : Type} [Field K] [LinearOrder K] [IsStrictOrderedRing K]

theorem swapL_back {α : Type} {l l' : List α} {i j : ℕ} (h : swapL l i j = some l') : ∀ a ∈ l', a ∈ l := by
  unfold swapL at h
  split at h
  · rename_i a b ha hb
    cases h
    intro c hc
    rcases List.mem_or_eq_of_mem_set hc with hc | rfl
    · rcases List.mem_or_eq_of_mem_set hc with hc | rfl
      · exact hc
      · exact List.mem_of_getElem? hb
    · exact List.mem_of_getElem? ha
  · cases h

theorem swapInY_back {P C : Type} [DecidableEq C] {build : List P → F} {i j : ℕ} {s s' : IntSet P C F K}
    (h : swapInY build i j s = some s') : ∀ y ∈ s'.Y, y ∈ s.Y := by
  unfold swapInY at h
  split at h
  · cases h; exact fun _ h => h
  · simp only at h
    split at h
    · rename_i h1 h2 _ _ _
      simp only [Option.some.injEq] at h
      subst h
      exact swapL_back h1
    · cases h

theorem findSmallf_back {P C : Type} [DecidableEq C] (build : List P → F) (c : Option ℕ) (t u : SmallfSt P C F K)
    (h : findSmallf build c t = some u) : ∀ y ∈ u.s.Y, y ∈ t.s.Y := by
  unfold findSmallf at h
  split at h
  · split at h
    · cases h
    · rename_i hs
      split at h
      · cases h; exact swapInY_back hs
      · cases h
  · split at h
    · cases h; exact fun _ h => h
    · cases h

/-- The evaluation of replaced points and the choice of the base point keep the points and the report of the repair. -/
def KeepsReport (s t : MSt K F) : Prop :=
  (∀ y, y ∈ t.set.Y ↔ y ∈ s.set.Y) ∧ t.poised = s.poised ∧ t.yradius = s.yradius

theorem evalReplaced_report (e : Env K F) : ∀ (js : List ℕ) (s : MSt K F),
    (evalReplaced e js s).Sat (KeepsReport s) (fun _ => False) (fun _ => True)
  | [], s => ⟨fun _ => Iff.rfl, rfl, rfl⟩
  | j :: js, s => by
    unfold evalReplaced
    split
    · dsimp only
      split
      · trivial
      · split
        · trivial
        · split
          · trivial
          · split
            · split
              · trivial
              · exact evalReplaced_report e js _
            · exact evalReplaced_report e js _
    · trivial

theorem callSmallf_report (e : Env K F) (s : MSt K F) :
    (callSmallf e s).Sat (KeepsReport s) (fun _ => False) (fun _ => True) := by
  unfold callSmallf
  split
  · trivial
  · dsimp only
    split
    · trivial
    · rename_i t ht
      split
      · trivial
      · exact ⟨fun y => ⟨findSmallf_back e.build _ ⟨s.set, s.fx, s.ixbest, s.fx⟩ t ht y,
          (findSmallf_mem e.build _ ⟨s.set, s.fx, s.ixbest, s.fx⟩ t ht).2 y⟩, rfl, rfl⟩

theorem decideStep_nonzero (e : Env K F) (o : Orc K F) (a : K) (s : MSt K F) :
    (decideStep e o a s).Sat (fun _ => True) (fun t => t.ev.flag ≠ 0) (fun _ => True) := by
  have hr : ∀ (fx rho : K) (s : MSt K F), (rejectStep e o fx rho a s).Sat (fun _ => True) (fun t => t.ev.flag ≠ 0) (fun _ => True) := by
    intro fx rho s
    have hred : ∀ s : MSt K F, (reduce e o fx a s).Sat (fun _ => True) (fun t => t.ev.flag ≠ 0) (fun _ => True) := by
      intro s
      unfold reduce
      dsimp only
      split
      · show Status.stopOnSmallTR ≠ 0
        decide
      · trivial
    have hrep : ∀ (pos : ℕ) (s : MSt K F), ((replaceAt e o fx rho a pos s).bind fun s => .cont s.restoreF).Sat (fun _ => True)
        (fun t => t.ev.flag ≠ 0) (fun _ => True) := by
      intro pos s
      refine PassRes.Sat.bind (Q := fun _ => True) ?_ fun _ _ => trivial
      unfold replaceAt
      dsimp only
      split
      · trivial
      · split
        · split
          · trivial
          · split <;> trivial
        · trivial
    unfold rejectStep
    dsimp only
    split
    · refine PassRes.Sat.bind (Q := fun _ => True) ?_ fun _ _ => trivial
      unfold augmentRejected
      dsimp only
      split <;> trivial
    · unfold replaceOrReduce
      dsimp only
      split
      · split
        · exact hrep _ _
        · split
          · exact hrep _ _
          · exact hred _
      · exact hred _
  have ha : ∀ (fx rho : K) (pos : ℕ) (s : MSt K F), (accepted e o fx rho a pos s).Sat (fun _ => True) (fun t => t.ev.flag ≠ 0) (fun _ => True) := by
    intro fx rho pos s
    unfold accepted
    dsimp only
    split
    · trivial
    · split
      · trivial
      · split <;> trivial
  unfold decideStep
  split
  · trivial
  · split
    · trivial
    · dsimp only
      split
      · trivial
      · split
        · split
          · show Status.failOnNonDecrease ≠ 0
            decide
          · split
            · exact ha _ _ _ _
            · split
              · exact ha _ _ _ _
              · exact hr _ _ _
        · exact hr _ _ _

theorem stepStage_nonzero (e : Env K F) (o : Orc K F) (s : MSt K F) :
    (stepStage e o s).Sat (fun _ => True) (fun t => t.ev.flag ≠ 0) (fun _ => True) := by
  unfold stepStage
  refine PassRes.Sat.bind (Q := fun _ => True) ?_ fun s _ => ?_
  · unfold globalise
    split
    · trivial
    · split
      · trivial
      · split <;> trivial
  · dsimp only
    split
    · show Status.failUnexpected ≠ 0
      decide
    · refine PassRes.Sat.bind (Q := fun _ => True) (PassRes.Sat.bind (Q := fun _ => True) ?_ fun t _ => ?_) fun t _ =>
        decideStep_nonzero e o _ t
      · unfold penalty
        split
        · dsimp only
          split
          · show Status.failUnexpected ≠ 0
            decide
          · trivial
        · trivial
      · unfold evalTrial
        dsimp only
        split
        · trivial
        · split
          · assumption
          · split
            · split
              · trivial
              · split <;> trivial
            · trivial

end

/-- The call of `bcdfo_repair_Y_` in a pass that starts in `s` (`sqpdfo_main.py` L459-L481). -/
noncomputable def passRepair (e : Env ℝ (List (List ℝ))) (o : Orc ℝ (List (List ℝ))) (s : MSt ℝ (List (List ℝ))) : RepRes (List ℝ) (List (List ℝ)) ℝ :=
  repairY e.dist e.build o.propose (6 / 5) ((if o.normgx ≤ cEps ∨ s.pred = -1 then 1 else 10) * (1 + cEpsL) * passRadius e o s)
    (e.order (dists e.dist s.set.Y)) s.set.Y s.set.fac

theorem Sat_ret {r : PassRes ℝ (List (List ℝ))} {t : MSt ℝ (List (List ℝ))} {A B : MSt ℝ (List (List ℝ)) → Prop} {C : Crash → Prop}
    (h : r = .ret t) (hs : r.Sat A B C) : B t := by
  rw [h] at hs
  exact hs

theorem repairStage_ret (e : Env ℝ (List (List ℝ))) (o : Orc ℝ (List (List ℝ))) (radius : ℝ) (s : MSt ℝ (List (List ℝ))) :
    (repairStage e o radius s).Sat (fun _ => True) (fun t => t.ev.flag = 0 →
      ∀ r, r = repairY e.dist e.build o.propose (6 / 5) ((if o.normgx ≤ cEps ∨ s.pred = -1 then 1 else 10) * (1 + cEpsL) * radius)
        (e.order (dists e.dist s.set.Y)) s.set.Y s.set.fac →
      o.k2.glagn ≤ 100 * e.tolGrad ∧ o.k2.feasn ≤ 100 * e.tolFeas ∧ t.poised * t.yradius ≤ 1 / 10 ^ 3 ∧
      ((t.poised, t.yradius) = if e.verbose4 then o.poisedness r.st.fac r.st.Y else (r.maximprove, r.radius)) ∧
      ∀ y, y ∈ t.set.Y ↔ y ∈ r.st.Y) (fun _ => True) := by
  unfold repairStage
  dsimp only
  generalize hr : repairY e.dist e.build o.propose (6 / 5) ((if o.normgx ≤ cEps ∨ s.pred = -1 then 1 else 10) * (1 + cEpsL) * radius)
    (e.order (dists e.dist s.set.Y)) s.set.Y s.set.fac = r
  refine PassRes.Sat.bind (Q := KeepsReport { s with
    set := { s.set with Y := r.st.Y, fac := r.st.fac }
    poised := (if e.verbose4 then o.poisedness r.st.fac r.st.Y else (r.maximprove, r.radius)).1
    yradius := (if e.verbose4 then o.poisedness r.st.fac r.st.Y else (r.maximprove, r.radius)).2
    poisedModel := true }) ?_ ?_
  · refine PassRes.Sat.bind (Q := KeepsReport _) ((evalReplaced_report e _ _).mono (fun _ h => h) (fun _ h => h.elim) (fun _ h => h)) ?_
    intro t ht
    refine (callSmallf_report e t).mono (fun u hu => ?_) (fun _ h => h.elim) (fun _ h => h)
    exact ⟨fun y => (hu.1 y).trans (ht.1 y), hu.2.1.trans ht.2.1, hu.2.2.trans ht.2.2⟩
  · intro t ht
    unfold improveEnd
    split
    · intro h
      exact absurd h (show Status.failUnexpected ≠ 0 by decide)
    · dsimp only
      split
      · rename_i h
        rintro - r' rfl
        obtain ⟨h1, h2, -, h3, -⟩ := h
        have h1 : o.k2.glagn / cFactorCV ≤ e.tolGrad := h1
        have h2 : o.k2.feasn / cFactorCV ≤ e.tolFeas := h2
        have h3 : t.poised * t.yradius / cFactorCV ≤ cEps := h3
        rw [div_le_iff₀ (by norm_num [cFactorCV])] at h1 h2 h3
        norm_num [cFactorCV, cEps] at h1 h2 h3
        refine ⟨by linarith, by linarith, ?_, ?_, ht.1⟩
        · show t.poised * t.yradius ≤ _
          norm_num
          exact h3
        · exact Prod.ext ht.2.1 ht.2.2
      · trivial

/-- What is known about a return with status 0 if the first convergence test does not hold. -/
structure SecondReturn (e : Env ℝ (List (List ℝ))) (o : Orc ℝ (List (List ℝ))) (s t : MSt ℝ (List (List ℝ))) : Prop where
  grad : o.k2.glagn ≤ 100 * e.tolGrad
  feas : o.k2.feasn ≤ 100 * e.tolFeas
  prod : t.poised * t.yradius ≤ 1 / 10 ^ 3
  report : (t.poised, t.yradius) = if e.verbose4 then o.poisedness (passRepair e o s).st.fac (passRepair e o s).st.Y
    else ((passRepair e o s).maximprove, (passRepair e o s).radius)
  radius : ¬ tooSmall e s (passRadius e o s)
  points : ∀ y, y ∈ t.set.Y ↔ y ∈ (passRepair e o s).st.Y
  entry : o.k1.glagn ≤ e.tolGrad ∨ s.delta < 1 / 10 ^ 10 ∨ s.pred = -1

theorem second_return {e : Env ℝ (List (List ℝ))} {o : Orc ℝ (List (List ℝ))} {s t : MSt ℝ (List (List ℝ))}
    (hlo : e.n + 1 ≤ s.cur) (hp : pass e o s = .ret t) (h0 : t.ev.flag = 0) (hf : ¬ FirstTest e o s) : SecondReturn e o s t := by
  rw [pass_eq] at hp
  have hb : beforeStep e o s = .ret t := by
    cases hb : beforeStep e o s with
    | cont u =>
      rw [hb] at hp
      have := stepStage_nonzero e o u
      rw [show stepStage e o u = .ret t from hp] at this
      exact absurd h0 this
    | ret u => rw [hb] at hp; exact hp
    | crash c => rw [hb] at hp; cases hp
  clear hp
  unfold beforeStep at hb
  split at hb
  · cases hb; exact absurd h0 (show Status.stopOnMaxIter ≠ 0 by decide)
  split at hb
  · cases hb; exact absurd h0 (show Status.stopOnMaxSimul ≠ 0 by decide)
  split at hb
  · cases hb; exact absurd h0 (show Status.failUnexpected ≠ 0 by decide)
  dsimp only at hb
  split at hb
  swap
  · cases hb
  rename_i hentry
  unfold improve at hb
  rw [if_pos (show e.n + 1 ≤ (s.measure o.k1).cur from hlo)] at hb
  dsimp only at hb
  split at hb
  · rename_i h
    refine absurd ⟨h.1, h.2.1, h.2.2.1, ?_⟩ hf
    have h4 := h.2.2.2
    rw [div_le_iff₀ (by norm_num [cFactorCV])] at h4
    norm_num [cFactorCV, cEps] at h4 ⊢
    exact h4
  split at hb
  · cases hb; exact absurd h0 (show Status.stopOnSmallTR ≠ 0 by decide)
  rename_i hts
  have key := fun {t} (h : repairStage e o (passRadius e o s) _ = .ret t) => Sat_ret h (repairStage_ret e o (passRadius e o s)
    { s.measure o.k1 with
      ev := { s.ev with flag := Status.success }
      poised := (o.poisedness s.set.fac s.set.Y).1
      yradius := (o.poisedness s.set.fac s.set.Y).2
      niter := s.niter + 1
      epsCur := newEpsCur e (s.measure o.k1) })
  obtain ⟨k1, k2, k3, k4, k5⟩ := key hb h0 (passRepair e o s) rfl
  exact ⟨k1, k2, k3, k4, hts, k5, hentry.imp_left And.left⟩

/-! ### The certificates -/

/-- The model gradients of a state with consistent data and the true gradients. -/
theorem cert_state {e : Env ℝ (List (List ℝ))} {m : ℕ} {p : Prob e.n m e.ns} (hc : Computes e p) {k : Kern e.n} (hk : UsesKern e k)
    {t : MSt ℝ (List (List ℝ))} (hcore : Core e [] t) (hfresh : Fresh e t) (hC : 0 < e.me → CeConsistent e t) {E A B : ℝ}
    (hE : GradAcc k (t.set.Y.length - 1) t.set.Y E) (lmB : Fin e.n → ℝ)
    (lmE : Fin m ⊕ Fin e.ns → ℝ) (hg : ∀ i, |glag (optimIn e m t lmB lmE) i| ≤ A)
    (hfe : ∀ r, |feas (optimIn e m t lmB lmE) r| ≤ B) :
    (∀ i, |trueLag p (vec e.n t.x) (vec e.n e.lb) (vec e.n e.ub) lmB lmE i| ≤ A + E * (p.κ + ∑ r, |lmE r| * p.κc r)) ∧
    (∀ r, |p.c (.inl r) (vec e.n t.x)| ≤ B) ∧ ∀ j, |p.c (.inr j) (vec e.n t.x) - vec e.ns t.sl j ^ 2| ≤ B := by
  have hme : ∀ r : Fin m ⊕ Fin e.ns, rowIx r < e.me := fun r => by rw [hc.rows]; exact rows_lt r
  have hC : ∀ r : Fin m ⊕ Fin e.ns, CeConsistent e t := fun r => hC (lt_of_le_of_lt (Nat.zero_le _) (hme r))
  have hx : vec e.n t.x = ptsOf e.n (t.set.Y.length - 1) t.set.Y 0 := by
    simp only [ptsOf, List.getD_eq_getElem?_getD, Fin.val_zero, hcore.Y0, Option.getD_some]
  have hG : t.infoG = modelOf k e.me t.set.Y t.x t.set.fY t.set.ceY := by
    rw [hfresh.info, hfresh.gx, hfresh.fac, hk.build, hk.model]
    rfl
  have e0 : ∀ i, |vec e.n t.infoG.g i - p.G (vec e.n t.x) i| ≤ p.κ * E := by
    rw [hG]
    exact hE _ _ _ p.smooth _ _ hx (values_ok hc hcore)
  have er : ∀ r i, |vec e.n (t.infoG.a.getD (rowIx r) []) i - p.J r (vec e.n t.x) i| ≤ p.κc r * E := by
    intro r
    have hr := hme r
    have : t.infoG.a.getD (rowIx r) [] =
        gradOf k (t.set.Y.length - 1) t.set.Y t.x (t.set.ceY.map fun c => c.getD (rowIx r) 0) := by
      rw [hG]
      simp [modelOf, List.getD_eq_getElem?_getD, hr]
    rw [this]
    exact hE _ _ _ (p.smoothC r) _ _ hx (values_ce hc hcore (hC r) r).1
  obtain ⟨g1, g2, g3⟩ := C41_kkt_residuals (optimIn e m t lmB lmE)
  refine ⟨fun i => ?_, fun r => ?_, fun j => ?_⟩
  · have hgi := hg i
    rw [g1 i] at hgi
    have hdiff : trueLag p (vec e.n t.x) (vec e.n e.lb) (vec e.n e.ub) lmB lmE i =
        ((optimIn e m t lmB lmE).g i + (if |(optimIn e m t lmB lmE).lb i - (optimIn e m t lmB lmE).x i| < 1 / 10 ^ 5 ∨
          |(optimIn e m t lmB lmE).ub i - (optimIn e m t lmB lmE).x i| < 1 / 10 ^ 5
          then (optimIn e m t lmB lmE).lmB i else 0) +
          ∑ r, (optimIn e m t lmB lmE).ae r i * (optimIn e m t lmB lmE).lmE r) -
        ((vec e.n t.infoG.g i - p.G (vec e.n t.x) i) +
          ∑ r, (vec e.n (t.infoG.a.getD (rowIx r) []) i - p.J r (vec e.n t.x) i) * lmE r) := by
      simp only [trueLag, optimIn, sub_mul, Finset.sum_sub_distrib]
      ring_nf
    rw [hdiff]
    refine le_trans (abs_sub _ _) ?_
    have hsum : |∑ r, (vec e.n (t.infoG.a.getD (rowIx r) []) i - p.J r (vec e.n t.x) i) * lmE r| ≤
        ∑ r, E * (|lmE r| * p.κc r) := by
      refine le_trans (Finset.abs_sum_le_sum_abs _ _) (Finset.sum_le_sum fun r _ => ?_)
      rw [abs_mul]
      calc _ ≤ (p.κc r * E) * |lmE r| := mul_le_mul_of_nonneg_right (er r i) (abs_nonneg _)
        _ = _ := by ring
    have h1 := abs_add_le (vec e.n t.infoG.g i - p.G (vec e.n t.x) i)
      (∑ r, (vec e.n (t.infoG.a.getD (rowIx r) []) i - p.J r (vec e.n t.x) i) * lmE r)
    rw [← Finset.mul_sum] at hsum
    have := e0 i
    rw [mul_add]
    linarith
  · have := hfe (.inl r)
    rw [g2 r] at this
    rw [← (values_ce hc hcore (hC (.inl r)) (.inl r)).2]
    exact this
  · have := hfe (.inr j)
    rw [g3 j] at this
    rw [← (values_ce hc hcore (hC (.inr j)) (.inr j)).2]
    exact this

/-- The state at the end of a run. -/
theorem done_snoc {e : Env ℝ (List (List ℝ))} {pre : List (Orc ℝ (List (List ℝ)))} {s0 s t : MSt ℝ (List (List ℝ))} {o : Orc ℝ (List (List ℝ))}
    (hs : mainLoop e pre s0 = .running s) (hp : pass e o s = .ret t) : mainLoop e (pre ++ [o]) s0 = .done t := by
  rw [mainLoop_snoc e pre o s0 s hs]
  unfold mainLoop
  rw [hp]

/-- The repaired set of a pass with linear models. -/
theorem repaired_det {e : Env ℝ (List (List ℝ))} {x0 : List ℝ} {fuel : ℕ} {Δ : ℝ} {sl : List ℝ}
    {s0 : MSt ℝ (List (List ℝ))} (H : Starts e x0 fuel Δ sl s0) {k : Kern e.n} (hk : UsesKern e k) (hq : GoodQR k) (hms : LinKer k.ms)
    (hn : 1 ≤ e.n) (hlin : e.finalDeg = .linear) (hreg : e.regression = false)
    {pre : List (Orc ℝ (List (List ℝ)))} {s : MSt ℝ (List (List ℝ))} {o : Orc ℝ (List (List ℝ))}
    (hT : ∀ pre' o' post u, pre ++ [o] = pre' ++ o' :: post → mainLoop e pre' s0 = .running u → CodeLagrange e k o' u)
    (hs : mainLoop e pre s0 = .running s) (hr : ¬ tooSmall e s (passRadius e o s)) :
    RepDet e (passRepair e o s).st := by
  have hd := mainLoop_det e hlin hreg pre s0 (fun pre' o' post u h1 h2 =>
    (hT pre' o' (post ++ [o]) u (by rw [h1]; simp) h2).holds hk hq hms hn) (start_det H) s (Or.inl hs)
  have hp := ((hT pre o [] s rfl hs).holds hk hq hms hn).proposals hr
  have hr0 : 0 ≤ passRadius e o s := by
    unfold tooSmall at hr
    push Not at hr
    refine le_trans ?_ hr.2
    norm_num [cEps]
  have hfar : (0 : ℝ) ≤ (if o.normgx ≤ cEps ∨ s.pred = -1 then 1 else 10) * (1 + cEpsL) * passRadius e o s := by
    refine mul_nonneg (mul_nonneg ?_ ?_) hr0
    · split <;> norm_num
    · unfold cEpsL
      positivity
  unfold passRepair
  rw [hd.fac]
  exact repairY_det hp (6 / 5) _ hfar (e.order (dists e.dist s.set.Y)) s.set.Y hd.fixes hd.len

/-- Points with the same members. -/
theorem pts_of_mem {n : ℕ} {Y Y' : List (List ℝ)} (hl : Y.length = n + 1) (hl' : Y'.length = n + 1) (h : ∀ y ∈ Y', y ∈ Y) (j : Fin (n + 1)) :
    ∃ i, ptsOf n n Y' j = ptsOf n n Y i := by
  have hj : (j : ℕ) < Y'.length := by omega
  obtain ⟨i, hi⟩ := mem_pts hl (Y'[(j : ℕ)]) (h _ (List.getElem_mem hj))
  refine ⟨i, ?_⟩
  rw [hi]
  simp [ptsOf, List.getD_eq_getElem?_getD, List.getElem?_eq_getElem hj]

theorem acc_mono {n : ℕ} (hn : 1 ≤ n) {k : Kern n} {p : ℕ} {Y : List (List ℝ)} {E E' : ℝ} (h : GradAcc k p Y E) (hE : E ≤ E') : GradAcc k p Y E' :=
  fun f G κ hf x v hx hv i => le_trans (h f G κ hf x v hx hv i) (mul_le_mul_of_nonneg_left hE (smooth_nonneg hn hf))

/-- The certificate of the second convergence test for any bound `E` of the product of poisedness and radius of the repaired set. -/
theorem second_cert {e : Env ℝ (List (List ℝ))} {x0 : List ℝ} {fuel : ℕ} {Δ : ℝ} {sl : List ℝ}
    {s0 : MSt ℝ (List (List ℝ))} (H : Starts e x0 fuel Δ sl s0) (hTa : 0 < e.me → e.Tame) {m : ℕ} {p : Prob e.n m e.ns}
    (hc : Computes e p) {k : Kern e.n} (hk : UsesKern e k) (hq : GoodQR k) (hms : LinKer k.ms) (hn : 1 ≤ e.n)
    (hlin : e.finalDeg = .linear) (hreg : e.regression = false)
    {pre : List (Orc ℝ (List (List ℝ)))} {s t : MSt ℝ (List (List ℝ))} {o : Orc ℝ (List (List ℝ))}
    (hT : ∀ pre' o' post u, pre ++ [o] = pre' ++ o' :: post → mainLoop e pre' s0 = .running u → CodeLagrange e k o' u)
    (hs : mainLoop e pre s0 = .running s) (hp : pass e o s = .ret t) (h0 : t.ev.flag = 0) (hf : ¬ FirstTest e o s)
    {E : ℝ} (hpo : ∀ lam r, poisOf k e.n (passRepair e o s).st.Y = some (lam, r) → lam * r ≤ E) (lmB : Fin e.n → ℝ)
    (lmE : Fin m ⊕ Fin e.ns → ℝ) (hg : ∀ i, |glag (optimIn e m t lmB lmE) i| ≤ o.k2.glagn)
    (hfe : ∀ r, |feas (optimIn e m t lmB lmE) r| ≤ o.k2.feasn) :
    (∀ i, |trueLag p (vec e.n t.x) (vec e.n e.lb) (vec e.n e.ub) lmB lmE i| ≤
      100 * e.tolGrad + (e.n / 2 + 1) * E * (p.κ + ∑ r, |lmE r| * p.κc r)) ∧
    (∀ r, |p.c (.inl r) (vec e.n t.x)| ≤ 100 * e.tolFeas) ∧
    ∀ j, |p.c (.inr j) (vec e.n t.x) - vec e.ns t.sl j ^ 2| ≤ 100 * e.tolFeas := by
  have hlo : e.n + 1 ≤ s.cur := by
    have key := mainLoop_sat H pre
    rw [hs] at key
    exact key.lo
  have hR := second_return hlo hp h0 hf
  have hdone := done_snoc hs hp
  have hcore : Core e [] t := by
    have key := mainLoop_sat H (pre ++ [o])
    rw [hdone] at key
    exact key.core
  have hfresh := mainLoop_fresh e (pre ++ [o]) s0 (startState_fresh e x0 fuel Δ sl s0 H.state) t (Or.inr hdone)
  have hC : 0 < e.me → CeConsistent e t := fun hme => by
    have := C64_constraint_data H (hTa hme) (pre ++ [o])
    rw [hdone] at this
    exact this
  obtain ⟨hl, -, hY⟩ := C104_code H hk hq hms hn hlin hreg (pre ++ [o]) hT t (Or.inr hdone)
  have hd := repaired_det H hk hq hms hn hlin hreg hT hs hR.radius
  have hYr := hd.fixes.poised hn hd.len
  obtain ⟨lam, r, -, h1, -⟩ := C73_linear hms hn (ptsOf e.n e.n (passRepair e o s).st.Y) _ _ (hq _ _ _ hYr) hYr (1 / 10 ^ 3) (by norm_num) _ _ _ p.smooth
  have hacc := acc_moved hq hms hn _ t.set.Y hYr hY (pts_of_mem hd.len hl fun y hy => (hR.points y).1 hy) (h1 : poisOf k e.n _ = _)
  have hacc := acc_mono hn hacc (mul_le_mul_of_nonneg_left (hpo lam r h1) (by positivity))
  have hlen : t.set.Y.length - 1 = e.n := by omega
  have hacc' : GradAcc k (t.set.Y.length - 1) t.set.Y ((e.n / 2 + 1) * E) := by
    rw [hlen]
    exact hacc
  exact cert_state hc hk hcore hfresh hC hacc' lmB lmE (fun i => (hg i).trans hR.grad) (fun r => (hfe r).trans hR.feas)

/-- The measures of optimality that belong to the multipliers `lmB`, `lmE` (`sqpdfo_optimality.py` L60-L100): those of the first test are
computed for the state at the start of the pass, those of the second test for the returned state. -/
structure Spec.Measures (e : Env ℝ (List (List ℝ))) (m : ℕ) (k : Meas ℝ) (s : MSt ℝ (List (List ℝ))) (lmB : Fin e.n → ℝ)
    (lmE : Fin m ⊕ Fin e.ns → ℝ) : Prop where
  grad : ∀ i, |glag (optimIn e m s lmB lmE) i| ≤ k.glagn
  feas : ∀ r, |feas (optimIn e m s lmB lmE) r| ≤ k.feasn

/-- Status 0 means: residual of the Lagrangian at most `A`, constraint violation at most `B`. -/
structure Spec.Certified (e : Env ℝ (List (List ℝ))) {m : ℕ} (p : Prob e.n m e.ns) (lmB : Fin e.n → ℝ) (lmE : Fin m ⊕ Fin e.ns → ℝ)
    (A B : ℝ) (t : MSt ℝ (List (List ℝ))) : Prop where
  grad : ∀ i, |trueLag p (vec e.n t.x) (vec e.n e.lb) (vec e.n e.ub) lmB lmE i| ≤ A
  eq : ∀ r, |p.c (.inl r) (vec e.n t.x)| ≤ B
  ineq : ∀ j, |p.c (.inr j) (vec e.n t.x) - vec e.ns t.sl j ^ 2| ≤ B

/-- C107.  The full statement (*the certificate for every verbosity, and the same result for every verbosity*) is false
(`C107_report_false`, `C107_verbosity`).  Proved: verbosity 4.  A run with linear models that ends with status 0, through either test, returns a point at which the constraints
hold within `100 tol_feas` and the Lagrangian has a true gradient of at most `100 tol_grad` plus `(n/2 + 1) * 1e-3` times its Lipschitz
constant. -/
theorem C107_verbose_partial {e : Env ℝ (List (List ℝ))} {x0 : List ℝ} {fuel : ℕ} {Δ : ℝ} {sl : List ℝ}
    {s0 : MSt ℝ (List (List ℝ))} (H : Starts e x0 fuel Δ sl s0) (hTa : 0 < e.me → e.Tame) {m : ℕ} {p : Prob e.n m e.ns}
    (hc : Computes e p) {k : Kern e.n} (hk : UsesKern e k) (hq : GoodQR k) (hms : LinKer k.ms) (hn : 1 ≤ e.n)
    (hlin : e.finalDeg = .linear) (hreg : e.regression = false) (hv : e.verbose4 = true) (ht0 : 0 ≤ e.tolGrad) (hf0 : 0 ≤ e.tolFeas)
    {pre : List (Orc ℝ (List (List ℝ)))} {s t : MSt ℝ (List (List ℝ))} {o : Orc ℝ (List (List ℝ))}
    (hT : ∀ pre' o' post u, pre ++ [o] = pre' ++ o' :: post → mainLoop e pre' s0 = .running u → CodeLagrange e k o' u)
    (hs : mainLoop e pre s0 = .running s) (hp : pass e o s = .ret t) (h0 : t.ev.flag = 0)
    (hpo : ∀ Y lr, poisOf k e.n Y = some lr → o.poisedness Y Y = lr) (lmB : Fin e.n → ℝ) (lmE : Fin m ⊕ Fin e.ns → ℝ)
    (h1 : FirstTest e o s → Measures e m o.k1 s lmB lmE) (h2 : ¬ FirstTest e o s → Measures e m o.k2 t lmB lmE) :
    Certified e p lmB lmE (100 * e.tolGrad + (e.n / 2 + 1) * (1 / 10 ^ 3) * (p.κ + ∑ r, |lmE r| * p.κc r)) (100 * e.tolFeas) t := by
  have hκ : 0 ≤ p.κ + ∑ r, |lmE r| * p.κc r :=
    add_nonneg (smooth_nonneg hn p.smooth)
      (Finset.sum_nonneg fun r _ => mul_nonneg (abs_nonneg _) (smooth_nonneg hn (p.smoothC r)))
  have hlo : e.n + 1 ≤ s.cur := by
    have key := mainLoop_sat H pre
    rw [hs] at key
    exact key.lo
  by_cases hf : FirstTest e o s
  · have hT' : ∀ pre' o' post u, pre = pre' ++ o' :: post → mainLoop e pre' s0 = .running u → CodeLagrange e k o' u :=
      fun pre' o' post u h1 h2 => hT pre' o' (post ++ [o]) u (by rw [h1]; simp) h2
    have hfr := mainLoop_fresh e pre s0 (startState_fresh e x0 fuel Δ sl s0 H.state) s (Or.inl hs)
    obtain ⟨-, -, hY⟩ := C104_code H hk hq hms hn hlin hreg pre hT' s (Or.inl hs)
    obtain ⟨lam, r, -, q1, -⟩ := C73_linear hms hn (ptsOf e.n e.n s.set.Y) _ _ (hq _ _ _ hY) hY (1 / 10 ^ 3) (by norm_num) _ _ _ p.smooth
    have hpo' : poisOf k e.n s.set.Y = some (o.poisedness s.set.fac s.set.Y) := by
      rw [hfr.fac, hk.build]
      show _ = some (o.poisedness s.set.Y s.set.Y)
      rw [hpo _ _ q1]
      exact q1
    obtain ⟨c1, c2, c3⟩ := C104_certificate H hTa hc hk hq hms hn hlin hreg hT' hs hp h0 hf hpo' lmB lmE (h1 hf).grad (h1 hf).feas
    refine ⟨fun i => (c1 i).trans ?_, fun r => (c2 r).trans (by linarith), fun r => (c3 r).trans (by linarith)⟩
    nlinarith
  · have hR := second_return hlo hp h0 hf
    have hd := repaired_det H hk hq hms hn hlin hreg hT hs hR.radius
    obtain ⟨c1, c2, c3⟩ := second_cert H hTa hc hk hq hms hn hlin hreg hT hs hp h0 hf (E := 1 / 10 ^ 3) (fun lam r hl => by
      have hrep := hR.report
      rw [hv, if_pos rfl, hd.fac, hk.build] at hrep
      have : (t.poised, t.yradius) = (lam, r) := hrep.trans (hpo _ _ hl)
      cases this
      exact hR.prod) lmB lmE (h2 hf).grad (h2 hf).feas
    exact ⟨c1, c2, c3⟩

/-! ### Lower verbosity -/

/-- The poisedness in the ball of the set from the improvements in a ball of radius `ρ`. -/
theorem poisedness_scaled {n : ℕ} {k : Kern n} (hq : GoodQR k) (hk : LinKer k.ms) (hn : 1 ≤ n) (Y : List (List ℝ))
    (hp : Poised (zMat (n + 1) (frameOf n n Y).pts)) {lam r : ℝ} (hl : poisOf k n Y = some (lam, r)) {ρ θ : ℝ} (hρ : 0 < ρ)
    (h : ∀ (j : Fin (n + 1)) N, j ≠ 0 → findNewYj k.ms (facOf k n Y).1 (facOf k n Y).2 (ptsOf n n Y) j ρ (1 / 10 ^ 3)
      (frameOf n n Y).xbase (frameOf n n Y).scale true = some N → N.imp ≤ θ) : lam * ρ ≤ θ * r := by
  obtain ⟨lam', r', L, hL, h1, h2, h3⟩ := C71_linear_poisedness (ptsOf n n Y) _ _ hk hn hn (hq _ _ _ hp) hp (1 / 10 ^ 3)
    (by norm_num)
  have : some (lam, r) = some (lam', r') := hl.symm.trans h1
  cases this
  obtain ⟨j, hj, z, hz, rfl⟩ := h3.1
  obtain ⟨L', y, imp, c, m1, m2, -, m4, m5, m6, m7⟩ := linear_point (ptsOf n n Y) _ _ hk hn (hq _ _ _ hp) hp ρ (1 / 10 ^ 3) hρ
    (by norm_num) j hj
  have hLL : L j = L' := Option.some.inj ((hL j).symm.trans m1)
  rw [hLL, m7]
  have himp := h j _ hj m2
  have hr : 0 ≤ r := (enorm2_nonneg _).trans hz
  have key : ∀ w, enorm2 w ≤ ρ → |c ⬝ᵥ w| ≤ imp := by
    intro w hw
    have := m6 (ptsOf n n Y 0 + w) (by rw [add_sub_cancel_left]; exact hw)
    rw [m7, add_sub_cancel_left] at this
    exact this
  generalize z - ptsOf n n Y 0 = w at hz
  by_cases hw : r = 0
  · have : w = 0 := enorm2_eq_zero (le_antisymm (hw ▸ hz) (enorm2_nonneg _))
    rw [this, hw]
    simp
  have hr0 : 0 < r := lt_of_le_of_ne hr (Ne.symm hw)
  have := key ((ρ / r) • w) (by
    rw [enorm2_smul _ (by positivity)]
    calc ρ / r * enorm2 w ≤ ρ / r * r := by gcongr
      _ = ρ := by field_simp)
  rw [dotProduct_smul, smul_eq_mul, abs_mul, abs_of_pos (by positivity)] at this
  have h5 : ρ / r * |c ⬝ᵥ w| ≤ θ := this.trans himp
  calc |c ⬝ᵥ w| * ρ = (ρ / r * |c ⬝ᵥ w|) * r := by field_simp
    _ ≤ θ * r := by gcongr

/-- `norm_` is the Euclidean norm. -/
def Spec.Euclid (e : Env ℝ (List (List ℝ))) : Prop := ∀ l : List ℝ, l.length = e.n → e.nrm l = enorm2 (vec e.n l)

theorem Spec.Euclid.dist {e : Env ℝ (List (List ℝ))} (h : Euclid e) {y z : List ℝ} (hy : y.length = e.n) (hz : z.length = e.n) :
    e.dist y z = enorm2 (vec e.n y - vec e.n z) := by
  unfold Env.dist
  rw [h _ (by simp [hy, hz])]
  congr 1
  funext i
  have h1 : (i : ℕ) < y.length := by rw [hy]; exact i.2
  have h2 : (i : ℕ) < z.length := by rw [hz]; exact i.2
  simp [vec, List.getD_eq_getElem?_getD, List.getElem?_zipWith, List.getElem?_eq_getElem h1, List.getElem?_eq_getElem h2]

/-- The points in use were evaluated. -/
theorem logged {e : Env ℝ (List (List ℝ))} {t : MSt ℝ (List (List ℝ))} (h : Core e [] t) {y : List ℝ} (hy : y ∈ t.set.Y) : y ∈ t.ev.w.logF := by
  obtain ⟨j, hj, rfl⟩ := List.mem_iff_getElem.1 hy
  obtain ⟨i, z, f, -, b2, -, b4, -⟩ := h.link j (by rw [← h.Ylen]; exact hj) (by simp)
  rw [List.getElem?_eq_getElem hj] at b2
  cases b2
  exact h.log.subset (List.mem_of_getElem? b4)

/-- C107, lower verbosity; see `C107_verbose_partial` for the full statement.  If fewer than 20 rounds of repair were made, the certificate holds with `6/5` times the square of the reported
radius over the radius of the repair. -/
theorem C107_quiet_partial {e : Env ℝ (List (List ℝ))} {x0 : List ℝ} {fuel : ℕ} {Δ : ℝ} {sl : List ℝ}
    {s0 : MSt ℝ (List (List ℝ))} (H : Starts e x0 fuel Δ sl s0) (hTa : 0 < e.me → e.Tame) {m : ℕ} {p : Prob e.n m e.ns}
    (hc : Computes e p) {k : Kern e.n} (hk : UsesKern e k) (hq : GoodQR k) (hms : LinKer k.ms) (hn : 1 ≤ e.n) (hN : Euclid e)
    (hlin : e.finalDeg = .linear) (hreg : e.regression = false) (hv : e.verbose4 = false)
    {pre : List (Orc ℝ (List (List ℝ)))} {s t : MSt ℝ (List (List ℝ))} {o : Orc ℝ (List (List ℝ))}
    (hT : ∀ pre' o' post u, pre ++ [o] = pre' ++ o' :: post → mainLoop e pre' s0 = .running u → CodeLagrange e k o' u)
    (hs : mainLoop e pre s0 = .running s) (hp : pass e o s = .ret t) (h0 : t.ev.flag = 0) (hf : ¬ FirstTest e o s)
    (hsz : ∀ y ∈ t.ev.w.logF, y.length = e.n) (hr : (passRepair e o s).rounds < 20) (lmB : Fin e.n → ℝ) (lmE : Fin m ⊕ Fin e.ns → ℝ)
    (h2 : Measures e m o.k2 t lmB lmE) :
    Certified e p lmB lmE (100 * e.tolGrad + (e.n / 2 + 1) * (6 / 5 * (t.yradius ^ 2 / passRadius e o s)) *
      (p.κ + ∑ r, |lmE r| * p.κc r)) (100 * e.tolFeas) t := by
  have hlo : e.n + 1 ≤ s.cur := by
    have key := mainLoop_sat H pre
    rw [hs] at key
    exact key.lo
  have hcore : Core e [] t := by
    have key := mainLoop_sat H (pre ++ [o])
    rw [done_snoc hs hp] at key
    exact key.core
  have hR := second_return hlo hp h0 hf
  have hd := repaired_det H hk hq hms hn hlin hreg hT hs hR.radius
  have hYr := hd.fixes.poised hn hd.len
  have hρ : 0 < passRadius e o s := by
    have := hR.radius
    unfold tooSmall at this
    push Not at this
    refine lt_of_lt_of_le ?_ this.2
    norm_num [cEps]
  have hlenS : s.set.Y.length = s.cur := by
    have key := mainLoop_sat H pre
    rw [hs] at key
    exact key.Ylen
  obtain ⟨r1, r2, -, -, -, -, -, r8, r9⟩ := C27_repair e.dist e.build o.propose (6 / 5)
    ((if o.normgx ≤ cEps ∨ s.pred = -1 then 1 else 10) * (1 + cEpsL) * passRadius e o s) (by norm_num) (by
      refine mul_nonneg (mul_nonneg ?_ ?_) hρ.le
      · split <;> norm_num
      · unfold cEpsL
        positivity) (e.order (dists e.dist s.set.Y)) s.set.Y (by
      intro h
      rw [h] at hlenS
      simp at hlenS
      omega) s.set.fac (H.ok.order _) (passRepair e o s) rfl
  have hrad : t.yradius = (passRepair e o s).radius := by
    have := hR.report
    rw [hv] at this
    exact (congrArg Prod.snd this)
  obtain ⟨c1, c2, c3⟩ := second_cert H hTa hc hk hq hms hn hlin hreg hT hs hp h0 hf (E := 6 / 5 * (t.yradius ^ 2 / passRadius e o s)) (fun lam r hl => by
    have hsc := poisedness_scaled hq hms hn _ hYr hl hρ (θ := 6 / 5) (fun j N hj hN => by
      have h3 := r9 hr j (by
        by_contra hc
        exact hj (Fin.ext (by rw [Fin.val_zero]; omega))) (by rw [← r1, hd.len]; exact j.2)
      rw [hd.fac, hk.build] at h3
      have h4 := (hT pre o [] s rfl hs).propose _ j N hN
      have h3 : (o.propose (passRepair e o s).st.Y (passRepair e o s).st.Y j).2 < 6 / 5 := h3
      rw [h4] at h3
      exact h3.le)
    obtain ⟨lam', r', L, -, h1', h2', h3'⟩ := C71_linear_poisedness (ptsOf e.n e.n (passRepair e o s).st.Y) _ _ hms hn hn (hq _ _ _ hYr) hYr (1 / 10 ^ 3)
      (by norm_num)
    have : some (lam, r) = some (lam', r') := hl.symm.trans h1'
    cases this
    have hr0 : 0 ≤ r := by
      obtain ⟨j, hj⟩ := h2'.1
      rw [hj]; exact enorm2_nonneg _
    have hrt : r ≤ t.yradius := by
      obtain ⟨j, hj⟩ := h2'.1
      have hlt : (j : ℕ) < (passRepair e o s).st.Y.length := by rw [hd.len]; exact j.2
      have hl0 : 0 < (passRepair e o s).st.Y.length := by rw [hd.len]; exact Nat.succ_pos _
      have hpt : ∀ i : Fin (e.n + 1), (hi : (i : ℕ) < (passRepair e o s).st.Y.length) →
          ptsOf e.n e.n (passRepair e o s).st.Y i = vec e.n ((passRepair e o s).st.Y[(i : ℕ)]) := by
        intro i hi
        simp [ptsOf, List.getD_eq_getElem?_getD, List.getElem?_eq_getElem hi]
      have hpt0 : ptsOf e.n e.n (passRepair e o s).st.Y 0 = vec e.n ((passRepair e o s).st.Y[0]) := by
        simp [ptsOf, List.getD_eq_getElem?_getD, List.getElem?_eq_getElem hl0]
      have hsz' : ∀ y ∈ (passRepair e o s).st.Y, y.length = e.n := fun y hy => hsz y (logged hcore ((hR.points y).2 hy))
      rw [hj, hrad, hpt j hlt, hpt0, ← hN.dist (hsz' _ (List.getElem_mem hlt)) (hsz' _ (List.getElem_mem hl0))]
      have hb : s.set.Y[0]? = some ((passRepair e o s).st.Y[0]) := by rw [← r2, List.getElem?_eq_getElem hl0]
      by_cases hj0 : j = 0
      · subst hj0
        have h5 := hN.dist (hsz' _ (List.getElem_mem hl0)) (hsz' _ (List.getElem_mem hl0))
        simp only [sub_self] at h5
        have h6 : enorm2 (0 : Fin e.n → ℝ) = 0 := by simp [enorm2]
        rw [h6] at h5
        refine le_trans (le_of_eq h5) ?_
        rcases ((r8 _ hb).2.1) with h7 | ⟨kk, y, hk1, hy, h7⟩
        · rw [h7]
        · rw [h7]
          exact H.ok.nrm_nonneg _
      · refine (r8 _ hb).1 j _ ?_ (List.getElem?_eq_getElem hlt)
        by_contra hcc
        exact hj0 (Fin.ext (by rw [Fin.val_zero]; omega))
    have h8 : lam * r ≤ 6 / 5 * r / passRadius e o s * r := by
      refine mul_le_mul_of_nonneg_right ?_ hr0
      rw [le_div_iff₀ hρ]
      exact hsc
    refine h8.trans ?_
    have h9 : r ^ 2 ≤ t.yradius ^ 2 := by gcongr
    calc 6 / 5 * r / passRadius e o s * r = 6 / 5 * (r ^ 2 / passRadius e o s) := by ring
      _ ≤ _ := by gcongr) lmB lmE h2.grad h2.feas
  exact ⟨c1, c2, c3⟩

/-! ### The repair stays in the ball -/

section
variable {P F : Type} (dist : P → P → ℝ) (build : List P → F)

theorem bestRepl_congr {p p' : ℕ → P × ℝ} : ∀ (l : List ℕ) (b : Option (ℕ × P)) (m : ℝ), (∀ j ∈ l, p j = p' j) →
    bestRepl p l b m = bestRepl p' l b m
  | [], _, _, _ => rfl
  | j :: l, b, m, h => by
    unfold bestRepl
    rw [h j (by simp)]
    split
    · exact bestRepl_congr l _ _ fun i hi => h i (by simp [hi])
    · exact bestRepl_congr l _ _ fun i hi => h i (by simp [hi])

end

/-- Two proposal functions that agree for sets which determine affine functions give the same repair. -/
theorem repairY_congr {e : Env ℝ (List (List ℝ))} {o : Orc ℝ (List (List ℝ))} (hp : GoodProposals e o)
    (p' : List (List ℝ) → List (List ℝ) → ℕ → List ℝ × ℝ)
    (h : ∀ Y, Fixes e.n Y → Y.length = e.n + 1 → ∀ j, 1 ≤ j → j < e.n + 1 → o.propose (e.build Y) Y j = p' (e.build Y) Y j)
    (thr far : ℝ) (hfar : 0 ≤ far) (order : List ℕ) (Y : List (List ℝ)) (hY : Fixes e.n Y) (hl : Y.length = e.n + 1) :
    repairY e.dist e.build o.propose thr far order Y (e.build Y) = repairY e.dist e.build p' thr far order Y (e.build Y) := by
  have hF : ∀ (l : List (ℕ × ℝ)) (st : RepSt (List ℝ) (List (List ℝ)) ℝ), RepDet e st → (∀ p ∈ l, p.2 > far → 1 ≤ p.1 ∧ p.1 < e.n + 1) →
      farLoop e.dist e.build o.propose far l st = farLoop e.dist e.build p' far l st := by
    intro l
    induction l with
    | nil => intro st _ _; rfl
    | cons a l ih =>
      intro st hst hv
      obtain ⟨j, dj⟩ := a
      simp only [farLoop]
      split
      · rename_i hd
        obtain ⟨h1, h2⟩ := hv (j, dj) (by simp) hd
        rw [ih _ (hst.put hp h1 (by rw [hst.len]; exact h2) _) fun p hp => hv p (by simp [hp])]
        rw [hst.fac, h _ hst.fixes hst.len j h1 h2]
      · rfl
  have hR : ∀ (k r : ℕ) (last : ℝ) (st : RepSt (List ℝ) (List (List ℝ)) ℝ), RepDet e st →
      rounds e.dist e.build o.propose thr k r last st = rounds e.dist e.build p' thr k r last st := by
    intro k
    induction k with
    | zero => intro r last st _; rfl
    | succ k ih =>
      intro r last st hst
      have hb : bestRepl (o.propose st.fac st.Y) ((List.range st.Y.length).tail) none 0 =
          bestRepl (p' st.fac st.Y) ((List.range st.Y.length).tail) none 0 := by
        refine bestRepl_congr _ _ _ fun j hj => ?_
        have := mem_range_tail.1 hj
        rw [hst.fac]
        exact h _ hst.fixes hst.len j this.1 (by rw [← hst.len]; exact this.2)
      simp only [rounds]
      rw [← hb]
      cases hb' : (bestRepl (o.propose st.fac st.Y) ((List.range st.Y.length).tail) none 0).1 with
      | none => rfl
      | some q =>
        obtain ⟨j, y⟩ := q
        dsimp only
        by_cases hj : (bestRepl (o.propose st.fac st.Y) ((List.range st.Y.length).tail) none 0).2 < thr ∨ j = 0
        · rw [if_pos hj, if_pos hj]
        · rw [if_neg hj, if_neg hj]
          push Not at hj
          refine ih _ _ _ ?_
          rcases bestRepl_from _ _ _ _ _ _ hb' with h1 | ⟨h1, h2⟩
          · cases h1
          · rw [h2]
            exact hst.put hp (by omega) (List.mem_range.1 (List.mem_of_mem_tail h1)) _
  have h0 : RepDet e ⟨Y, e.build Y, dists e.dist Y, []⟩ := ⟨hY, hl, rfl⟩
  have key : ∀ l : List (ℕ × ℝ), (∀ p ∈ l, p.2 > far → 1 ≤ p.1 ∧ p.1 < e.n + 1) →
      rounds e.dist e.build o.propose thr 20 0 0 (farLoop e.dist e.build o.propose far l ⟨Y, e.build Y, dists e.dist Y, []⟩) =
      rounds e.dist e.build p' thr 20 0 0 (farLoop e.dist e.build p' far l ⟨Y, e.build Y, dists e.dist Y, []⟩) := by
    intro l hv
    rw [← hF _ _ h0 hv]
    exact hR _ _ _ _ (farLoop_det hp far _ _ h0 hv)
  unfold repairY
  refine key _ ?_
  intro p hpm hd
  simp only [List.mem_map] at hpm
  obtain ⟨j, -, rfl⟩ := hpm
  simp only at hd ⊢
  cases hj : (dists e.dist Y)[j]? with
  | none => rw [hj] at hd; exact absurd hd (not_lt.2 hfar)
  | some v =>
    rw [hj] at hd
    simp only at hd
    cases Y with
    | nil => simp at hl
    | cons b l =>
      constructor
      · rcases Nat.eq_zero_or_pos j with h0 | h0
        · subst h0
          simp [dists] at hj
          rw [← hj] at hd
          exact absurd hd (not_lt.2 hfar)
        · exact h0
      · obtain ⟨h1, -⟩ := List.getElem?_eq_some_iff.1 hj
        rw [← hl]
        simpa [dists] using h1

open Classical in
/-- With the proposals of the code the repaired set stays in the ball whose radius is the larger one of the distance threshold and the radius
of the repair. -/
theorem repaired_ball {e : Env ℝ (List (List ℝ))} {k : Kern e.n} (hk : UsesKern e k) (hq : GoodQR k) (hms : LinKer k.ms) (hn : 1 ≤ e.n)
    (hN : Euclid e) (hok : e.Ok) {o : Orc ℝ (List (List ℝ))} {s : MSt ℝ (List (List ℝ))} (hC : CodeLagrange e k o s)
    (hd : Det e s) (hr : ¬ tooSmall e s (passRadius e o s)) {b : List ℝ} (hb : s.set.Y[0]? = some b) (hbl : b.length = e.n) :
    ∀ i y, 1 ≤ i → (passRepair e o s).st.Y[i]? = some y →
      e.dist y b ≤ (if o.normgx ≤ cEps ∨ s.pred = -1 then 1 else 10) * (1 + cEpsL) * passRadius e o s := by
  have hρ : 0 < passRadius e o s := by
    unfold tooSmall at hr
    push Not at hr
    refine lt_of_lt_of_le ?_ hr.2
    norm_num [cEps]
  have hfac : (1 : ℝ) ≤ (if o.normgx ≤ cEps ∨ s.pred = -1 then 1 else 10) * (1 + cEpsL) := by
    split <;> norm_num [cEpsL]
  have hfar : passRadius e o s ≤ (if o.normgx ≤ cEps ∨ s.pred = -1 then 1 else 10) * (1 + cEpsL) * passRadius e o s := by nlinarith
  generalize hfe : (if o.normgx ≤ cEps ∨ s.pred = -1 then (1 : ℝ) else 10) * (1 + cEpsL) * passRadius e o s = far at *
  have hp := (hC.holds hk hq hms hn).proposals hr
  let p' : List (List ℝ) → List (List ℝ) → ℕ → List ℝ × ℝ := fun g Y j =>
    if Fixes e.n Y ∧ Y.length = e.n + 1 ∧ 1 ≤ j ∧ j < e.n + 1 then o.propose Y Y j else (b, 0)
  have heq := repairY_congr hp p' (fun Y h1 h2 j h3 h4 => by
    simp only [p']
    rw [if_pos ⟨h1, h2, h3, h4⟩, hk.build]
    rfl) (6 / 5) far (hρ.le.trans hfar) (e.order (dists e.dist s.set.Y)) s.set.Y hd.fixes hd.len
  have hrep : passRepair e o s = repairY e.dist e.build p' (6 / 5) far (e.order (dists e.dist s.set.Y)) s.set.Y s.set.fac := by
    unfold passRepair
    rw [hfe, hd.fac]
    exact heq
  obtain ⟨-, -, -, -, -, -, -, r8, -⟩ := C27_repair e.dist e.build p' (6 / 5) far (by norm_num) (hρ.le.trans hfar)
    (e.order (dists e.dist s.set.Y)) s.set.Y (by
      intro h
      rw [h] at hb
      cases hb) s.set.fac (hok.order _) (passRepair e o s) hrep
  have hball : ∀ g Z j, Z[0]? = some b → 1 ≤ j → e.dist (p' g Z j).1 b ≤ passRadius e o s := by
    intro g Z j hZ hj
    simp only [p']
    split
    · rename_i h
      obtain ⟨h1, h2, h3, h4⟩ := h
      have hY := h1.poised hn h2
      obtain ⟨L, y, imp, -, -, l2, l3, -⟩ := linear_point (ptsOf e.n e.n Z) _ _ hms hn (hq _ _ _ hY) hY (passRadius e o s) (1 / 10 ^ 3) hρ
        (by norm_num) ⟨j, h4⟩ (fun h => by
          have := congrArg Fin.val h
          simp at this
          omega)
      rw [hC.propose Z ⟨j, h4⟩ _ l2]
      rw [hN.dist (by simp) hbl, vec_ofFn]
      refine le_of_eq ?_
      rw [← l3]
      congr 2
      simp [ptsOf, List.getD_eq_getElem?_getD, hZ]
    · rw [hN.dist hbl hbl, sub_self]
      refine le_trans (le_of_eq ?_) hρ.le
      simp [enorm2]
  intro i y hi hy
  exact ((r8 b hb).2.2 _ hball i y hi hy).trans (max_le le_rfl hfar)

theorem newEpsCur_small {e : Env ℝ (List (List ℝ))} {u : MSt ℝ (List (List ℝ))} (h : u.pred = -1 → u.feasn ≤ e.tolFeas) :
    newEpsCur e u ≤ 1 / 10 ^ 5 := by
  unfold newEpsCur
  split
  · rename_i hm
    rw [if_neg (not_lt.2 (h hm))]
    exact min_le_right _ _
  · exact le_rfl

theorem repRadius_small {u : MSt ℝ (List (List ℝ))} (h1 : u.epsCur ≤ 1 / 10 ^ 5)
    (h2 : u.glagn ≤ 1 / 10 ^ 3 ∨ u.delta < 1 / 10 ^ 10 ∨ u.pred = -1) : repRadius u ≤ 1 / 10 ^ 5 := by
  unfold repRadius
  split
  · exact (min_le_right _ _).trans h1
  · rename_i hm
    split
    · exact min_le_right _ _
    · rename_i hg
      refine max_le ?_ h1
      rcases h2 with h2 | h2 | h2
      · refine absurd (h2.trans (le_of_eq ?_)) hg
        norm_num [cFactorCV, cEps]
      · refine h2.le.trans ?_
        norm_num
      · exact absurd h2 hm

/-- The radius of the repair is at most `1e-5`, unless the last step gave no predicted reduction at an infeasible point or the
tolerance of the gradient is larger than `1e-3`. -/
theorem passRadius_small {e : Env ℝ (List (List ℝ))} {o : Orc ℝ (List (List ℝ))} {s t : MSt ℝ (List (List ℝ))} (h : SecondReturn e o s t)
    (htol : e.tolGrad ≤ 1 / 10 ^ 3) (hpred : s.pred = -1 → o.k1.feasn ≤ e.tolFeas) : passRadius e o s ≤ 1 / 10 ^ 5 :=
  repRadius_small (newEpsCur_small (u := s.measure o.k1) hpred) (h.entry.imp_left fun h1 => h1.trans htol)

/-- C107, lower verbosity, tolerance of the gradient at most `1e-3`: the certificate of verbosity 4 with a slightly larger constant, if fewer than 20 rounds of
repair were made and the last step did not end without predicted reduction at an infeasible point. -/
theorem C107_defaults_partial {e : Env ℝ (List (List ℝ))} {x0 : List ℝ} {fuel : ℕ} {Δ : ℝ} {sl : List ℝ}
    {s0 : MSt ℝ (List (List ℝ))} (H : Starts e x0 fuel Δ sl s0) (hTa : 0 < e.me → e.Tame) {m : ℕ} {p : Prob e.n m e.ns}
    (hc : Computes e p) {k : Kern e.n} (hk : UsesKern e k) (hq : GoodQR k) (hms : LinKer k.ms) (hn : 1 ≤ e.n) (hN : Euclid e)
    (hlin : e.finalDeg = .linear) (hreg : e.regression = false) (hv : e.verbose4 = false) (htol : e.tolGrad ≤ 1 / 10 ^ 3)
    {pre : List (Orc ℝ (List (List ℝ)))} {s t : MSt ℝ (List (List ℝ))} {o : Orc ℝ (List (List ℝ))}
    (hT : ∀ pre' o' post u, pre ++ [o] = pre' ++ o' :: post → mainLoop e pre' s0 = .running u → CodeLagrange e k o' u)
    (hs : mainLoop e pre s0 = .running s) (hp : pass e o s = .ret t) (h0 : t.ev.flag = 0) (hf : ¬ FirstTest e o s)
    (hsz : ∀ y ∈ t.ev.w.logF, y.length = e.n) (hr : (passRepair e o s).rounds < 20)
    (hpred : s.pred = -1 → o.k1.feasn ≤ e.tolFeas) (lmB : Fin e.n → ℝ) (lmE : Fin m ⊕ Fin e.ns → ℝ)
    (h2 : Measures e m o.k2 t lmB lmE) :
    Certified e p lmB lmE (100 * e.tolGrad + (e.n / 2 + 1) * (5 / 4 * (1 / 10 ^ 3)) * (p.κ + ∑ r, |lmE r| * p.κc r))
      (100 * e.tolFeas) t := by
  have hκ : 0 ≤ p.κ + ∑ r, |lmE r| * p.κc r :=
    add_nonneg (smooth_nonneg hn p.smooth)
      (Finset.sum_nonneg fun r _ => mul_nonneg (abs_nonneg _) (smooth_nonneg hn (p.smoothC r)))
  have hI : Inv e [] s := by
    have key := mainLoop_sat H pre
    rw [hs] at key
    exact key
  have hR := second_return hI.lo hp h0 hf
  have hρ : 0 < passRadius e o s := by
    have := hR.radius
    unfold tooSmall at this
    push Not at this
    refine lt_of_lt_of_le ?_ this.2
    norm_num [cEps]
  have hρ5 := passRadius_small hR htol hpred
  have hrad : t.yradius = (passRepair e o s).radius := by
    have := hR.report
    rw [hv] at this
    exact (congrArg Prod.snd this)
  obtain ⟨c1, c2, c3⟩ := C107_quiet_partial H hTa hc hk hq hms hn hN hlin hreg hv hT hs hp h0 hf hsz hr lmB lmE h2
  refine ⟨fun i => (c1 i).trans ?_, c2, c3⟩
  obtain ⟨-, r2, -, -, -, -, -, r8, -⟩ := C27_repair e.dist e.build o.propose (6 / 5)
    ((if o.normgx ≤ cEps ∨ s.pred = -1 then 1 else 10) * (1 + cEpsL) * passRadius e o s) (by norm_num) (by
      refine mul_nonneg (mul_nonneg ?_ ?_) hρ.le
      · split <;> norm_num
      · unfold cEpsL
        positivity) (e.order (dists e.dist s.set.Y)) s.set.Y (by
      intro h
      have := hI.Y0
      rw [h] at this
      cases this) s.set.fac (H.ok.order _) (passRepair e o s) rfl
  obtain ⟨-, q1, -⟩ := r8 _ hI.Y0
  have hd := mainLoop_det e hlin hreg pre s0 (fun pre' o' post u h1 h2 =>
    (hT pre' o' (post ++ [o]) u (by rw [h1]; simp) h2).holds hk hq hms hn) (start_det H) s (Or.inl hs)
  have hcore : Core e [] t := by
    have key := mainLoop_sat H (pre ++ [o])
    rw [done_snoc hs hp] at key
    exact key.core
  have hxl : s.x.length = e.n := by
    refine hsz _ (logged hcore ((hR.points _).2 ?_))
    exact List.mem_of_getElem? (r2.trans hI.Y0)
  have hb : t.yradius ≤ 1001 / 100 * passRadius e o s := by
    rw [hrad]
    rcases q1 with h | ⟨kk, y, k1, k2, h⟩
    · rw [h]; positivity
    · rw [h]
      refine (repaired_ball hk hq hms hn hN H.ok (hT pre o [] s rfl hs) hd hR.radius hI.Y0 hxl kk y k1 k2).trans ?_
      refine mul_le_mul_of_nonneg_right ?_ hρ.le
      split <;> norm_num [cEpsL]
  have hy0 : 0 ≤ t.yradius := by
    rw [hrad]
    rcases q1 with h | ⟨kk, y, k1, k2, h⟩
    · rw [h]
    · rw [h]; exact H.ok.nrm_nonneg _
  have hq3 : 6 / 5 * (t.yradius ^ 2 / passRadius e o s) ≤ 5 / 4 * (1 / 10 ^ 3) := by
    have h5 : t.yradius ^ 2 / passRadius e o s ≤ (1001 / 100) ^ 2 * passRadius e o s := by
      rw [div_le_iff₀ hρ]
      calc t.yradius ^ 2 ≤ (1001 / 100 * passRadius e o s) ^ 2 := by gcongr
        _ = _ := by ring
    nlinarith
  gcongr

/-! ### Runs -/

namespace Ex

/-- The square function with the tolerance `tol` for the gradient and verbosity 4 or lower. -/
noncomputable def tolEnv (tol : ℝ) (v : Bool) : Env ℝ (List (List ℝ)) := { sqEnv with tolGrad := tol, verbose4 := v }

/-- The state after sampling two points. -/
noncomputable def tolState (a b Δ : ℝ) : MSt ℝ (List (List ℝ)) where
  niter := 0
  ev := ⟨[[a], [b]], [.fin (a ^ 2), .fin (b ^ 2)], [], 2, .fin (a ^ 2), 0, ⟨[[a], [b]], []⟩⟩
  m := 1
  set := ⟨[[a], [b]], [0, 1], [a ^ 2, b ^ 2], [], [], [[a], [b]]⟩
  cur := 2
  x := [a]
  fx := a ^ 2
  ixbest := 0
  delta := Δ
  sigma := 1
  pred := 0
  epsCur := cEps
  rejected := false
  poisedModel := true
  f0 := 0
  ce0n := 0
  merit0 := 0
  glagn := 0
  feasn := 0
  compl := 0
  poised := 0
  yradius := 0
  infoCe := []
  ceplus := []
  sl := []
  gx := modelOf kern 0 [[a], [b]] [a] [a ^ 2, b ^ 2] []
  infoG := modelOf kern 0 [[a], [b]] [a] [a ^ 2, b ^ 2] []

theorem tol_start (tol a b Δ : ℝ) (v : Bool) (hΔ : 0 < Δ) (hs : simplex [a] Δ = [[a], [b]]) (ha : |a| ≤ 1) (hb : |b| ≤ 1) :
    Starts (tolEnv tol v) [a] 1 Δ [] (tolState a b Δ) := by
  have ha2 : a ^ 2 ≤ 1 := by rw [← sq_abs]; nlinarith [abs_nonneg a]
  have hb2 : b ^ 2 ≤ 1 := by rw [← sq_abs]; nlinarith [abs_nonneg b]
  have hbig : ∀ q : ℝ, q ^ 2 ≤ 1 → tooBig (.fin (q ^ 2)) = false := by
    intro q hq
    refine decide_eq_false (not_lt.2 ?_)
    rw [abs_of_nonneg (sq_nonneg q)]
    exact hq.trans (by norm_num [big])
  have hl : initLoop sqEnv.U [a] (sqEnv.nrm [a]) 1 Δ emptyEv = .done Δ
      ⟨[[a], [b]], [.fin (a ^ 2), .fin (b ^ 2)], [], 2, .fin (b ^ 2), 0, ⟨[[a], [b]], []⟩⟩ := by
    unfold initLoop
    dsimp only
    rw [hs]
    unfold samplePass
    rw [sq_eval _ _ _ (by simp only [List.getD_cons_zero]; linarith)]
    simp only [emptyEv, setOrAppend, List.length_nil, lt_irrefl, if_false, List.nil_append, ne_eq, not_true_eq_false,
      List.getElem?_cons_zero, List.getD_cons_zero, hbig _ ha2, Bool.false_eq_true]
    unfold samplePass
    rw [sq_eval _ _ _ (by simp only [List.getD_cons_zero]; linarith)]
    simp only [List.getD_cons_zero, setOrAppend, List.length_cons, List.length_nil, zero_add, lt_irrefl, if_false, List.cons_append,
      List.nil_append, ne_eq, not_true_eq_false, List.getElem?_cons_succ, List.getElem?_cons_zero, hbig _ hb2, Bool.false_eq_true,
      samplePass]
    rfl
  have h1 : startState (tolEnv tol v) [a] 1 Δ [] = some (tolState a b Δ) := by
    unfold startState
    rw [show initLoop (tolEnv tol v).U [a] ((tolEnv tol v).nrm [a]) 1 Δ emptyEv = _ from hl]
    rfl
  exact ⟨⟨nrm1_nonneg, descOrder_sorted⟩, ⟨fun _ => rfl, fun _ h => by cases h⟩, rfl, hΔ, h1⟩

theorem farLoop_none {P F : Type} (dist : P → P → ℝ) (build : List P → F) (propose : F → List P → ℕ → P × ℝ) (thr : ℝ)
    (l : List (ℕ × ℝ)) (st : RepSt P F ℝ) (h : ∀ p ∈ l, p.2 ≤ thr) : farLoop dist build propose thr l st = st := by
  cases l with
  | nil => rfl
  | cons p l =>
    unfold farLoop
    rw [if_neg (not_lt.2 (h p (by simp)))]

/-- A pair of points that is close enough and well placed is left alone; the reported poisedness is then 0. -/
theorem two_repair {P F : Type} (dist : P → P → ℝ) (build : List P → F) (propose : F → List P → ℕ → P × ℝ) (far : ℝ) (hfar : 0 ≤ far)
    (order : List ℕ) (y z : P) (fac : F) (h1 : dist z y ≤ far) (h2 : (propose fac [y, z] 1).2 < 6 / 5) :
    repairY dist build propose (6 / 5) far order [y, z] fac = ⟨⟨[y, z], fac, [0, dist z y], []⟩, 0, max 0 (dist z y), 1⟩ := by
  unfold repairY
  dsimp only
  rw [farLoop_none]
  · unfold rounds
    have hr : (List.range [y, z].length).tail = [1] := rfl
    have hd : maxOf (dists dist [y, z]) = max 0 (dist z y) := rfl
    dsimp only
    rw [hr, hd]
    simp only [bestRepl]
    split
    · rename_i h
      split at h <;> rfl
    · rename_i h
      split at h
      · rename_i h3
        rw [if_pos]
        · rfl
        · left
          rw [if_pos h3]
          exact h2
      · cases h
  · intro p hp
    rw [List.mem_map] at hp
    obtain ⟨j, -, rfl⟩ := hp
    match j with
    | 0 => exact hfar
    | 1 => exact h1
    | j + 2 => exact hfar

theorem smallf_none (m0 m1 : ℝ) (xl xu : List ℝ) (y z : List ℝ) : smallfChoice [m0, m1] (indInside xl xu [y, z]) = none := by
  have hr : List.range [y, z].length = [0, 1] := rfl
  unfold smallfChoice indInside
  rw [hr]
  have h0 : (if insideTest xl xu y then 0 else 0) = 0 := ite_self 0
  simp only [List.map_cons, List.map_nil, List.getElem?_cons_zero, List.getElem?_cons_succ, h0]
  by_cases h : insideTest xl xu z
  · by_cases h1 : m1 < m0 <;> simp [h, argMin, h1]
  · simp [h, argMin]

theorem quiet_smallf (tol a b : ℝ) (v : Bool) (u : MSt ℝ (List (List ℝ))) (Y fac : List (List ℝ)) (hY : Y = [[a], [b]])
    (hset : u.set = ⟨Y, [0, 1], [a ^ 2, b ^ 2], [], [], fac⟩) :
    callSmallf (tolEnv tol v) u = .cont { u with fx := u.fx, ev := { u.ev with infoF := .fin (a ^ 2) }, x := u.x, infoCe := u.infoCe } := by
  subst hY
  unfold callSmallf
  have h1 : anyNonzero u.set.ceY = false := by rw [hset]; rfl
  rw [h1]
  simp only [Bool.false_eq_true, if_false]
  have h2 : smallfChoice (meritY (tolEnv tol v).trunc u.sigma false u.set.fY (u.set.Y.map fun _ => 0)) (indInside (tolEnv tol v).lb (tolEnv tol v).ub u.set.Y) = none := by
    rw [hset]
    exact smallf_none _ _ _ _ _ _
  rw [h2]
  simp only [findSmallf]
  have h3 : u.set.fY[0]? = some (a ^ 2) := by rw [hset]; rfl
  have h4 : u.set.Y[0]? = some [a] := by rw [hset]; rfl
  have h5 : u.set.ceY[0]? = none := by rw [hset]; rfl
  simp only [h3, h4, h5]
  rfl

/-- The end of a pass with two points that are left alone. -/
theorem quiet_stage (tol a b g ρ : ℝ) (v : Bool) (o : Orc ℝ (List (List ℝ))) (u : MSt ℝ (List (List ℝ)))
    (hset : u.set = ⟨[[a], [b]], [0, 1], [a ^ 2, b ^ 2], [], [], [[a], [b]]⟩) (hcur : u.cur = 2) (hx : u.x = [a]) (hi : u.infoCe = [])
    (hab : |b - a| ≤ (if o.normgx ≤ cEps ∨ u.pred = -1 then 1 else 10) * (1 + cEpsL) * ρ)
    (himp : (o.propose [[a], [b]] [[a], [b]] 1).2 < 6 / 5) (hk : o.k2 = ⟨false, g, 0, 0⟩) (hg : g ≤ 100 * tol)
    (hv : v = true → o.poisedness [[a], [b]] [[a], [b]] = (1, |b - a|) ∧ |b - a| ≤ 1 / 10 ^ 3) :
    ∃ t, repairStage (tolEnv tol v) o ρ u = .ret t ∧ t.ev.flag = 0 ∧ t.x = [a] ∧ t.set.Y = [[a], [b]] ∧
      t.infoG = modelOf kern 0 [[a], [b]] [a] [a ^ 2, b ^ 2] [] ∧ t.ev.w = u.ev.w ∧ t.yradius = |b - a| ∧ t.infoCe = [] ∧ t.sl = u.sl ∧
      t.poised = if v then 1 else 0 := by
  have hfar : (0 : ℝ) ≤ (if o.normgx ≤ cEps ∨ u.pred = -1 then 1 else 10) * (1 + cEpsL) * ρ := (abs_nonneg _).trans hab
  have hd : (tolEnv tol v).dist [b] [a] = |b - a| := by
    simp [Env.dist, tolEnv, sqEnv, nrm1]
  unfold repairStage
  dsimp only
  rw [hset]
  dsimp only
  rw [two_repair _ _ _ _ hfar _ _ _ _ (by rw [hd]; exact hab) himp, hd]
  simp only [evalReplaced, PassRes.bind]
  have hpr : (if (tolEnv tol v).verbose4 = true then o.poisedness [[a], [b]] [[a], [b]] else ((0 : ℝ), max 0 |b - a|)) =
      (if v then 1 else 0, |b - a|) := by
    show (if v = true then _ else _) = _
    cases hv' : v with
    | true => rw [if_pos rfl, (hv hv').1]; rfl
    | false => rw [if_neg (by simp), max_eq_right (abs_nonneg _)]; rfl
  rw [hpr]
  rw [quiet_smallf tol a b v _ _ _ rfl rfl]
  simp only
  unfold improveEnd
  rw [hk]
  simp only [Bool.false_eq_true, if_false]
  rw [if_pos]
  · refine ⟨_, rfl, rfl, hx, rfl, ?_, rfl, rfl, hi, rfl, rfl⟩
    show modelOf kern 0 [[a], [b]] u.x [a ^ 2, b ^ 2] [] = _
    rw [hx]
  · refine ⟨?_, ?_, ?_, ?_, ?_⟩
    · show g / cFactorCV ≤ tol
      rw [div_le_iff₀ (by norm_num [cFactorCV])]
      norm_num [cFactorCV]
      linarith
    · show (0 : ℝ) / cFactorCV ≤ 1 / 10 ^ 5
      norm_num
    · show (0 : ℝ) / cFactorCV ≤ 1 / 10 ^ 5
      norm_num
    · show (if v then (1 : ℝ) else 0) * |b - a| / cFactorCV ≤ cEps
      cases hv' : v with
      | true =>
        have := (hv hv').2
        norm_num [cFactorCV, cEps]
        norm_num at this
        linarith
      | false => norm_num [cEps]
    · show 1 + 1 ≤ u.cur
      rw [hcur]

/-- A pass with two points that are left alone. -/
theorem quiet_pass (tol a b g1 g2 : ℝ) (v : Bool) (o : Orc ℝ (List (List ℝ))) (s : MSt ℝ (List (List ℝ)))
    (hset : s.set = ⟨[[a], [b]], [0, 1], [a ^ 2, b ^ 2], [], [], [[a], [b]]⟩) (hcur : s.cur = 2) (hx : s.x = [a]) (hi : s.infoCe = [])
    (hm : s.niter < 1000) (hns : s.ev.nsimul < 1000) (h1 : o.k1 = ⟨false, g1, 0, 0⟩) (he : g1 ≤ tol ∨ s.pred = -1)
    (hf : ¬ FirstTest (tolEnv tol v) o s) (hr : ¬ tooSmall (tolEnv tol v) s (passRadius (tolEnv tol v) o s))
    (hab : |b - a| ≤ (if o.normgx ≤ cEps ∨ s.pred = -1 then 1 else 10) * (1 + cEpsL) * passRadius (tolEnv tol v) o s)
    (himp : (o.propose [[a], [b]] [[a], [b]] 1).2 < 6 / 5) (hk : o.k2 = ⟨false, g2, 0, 0⟩) (hg : g2 ≤ 100 * tol)
    (hv : v = true → o.poisedness [[a], [b]] [[a], [b]] = (1, |b - a|) ∧ |b - a| ≤ 1 / 10 ^ 3) :
    ∃ t, pass (tolEnv tol v) o s = .ret t ∧ t.ev.flag = 0 ∧ t.x = [a] ∧ t.set.Y = [[a], [b]] ∧
      t.infoG = modelOf kern 0 [[a], [b]] [a] [a ^ 2, b ^ 2] [] ∧ t.ev.w = s.ev.w ∧ t.yradius = |b - a| ∧ t.infoCe = [] ∧ t.sl = s.sl ∧
      t.poised = if v then 1 else 0 := by
  have e1 : (tolEnv tol v).miter.le (.fin (s.niter : ℝ)) = false := by
    have : ((s.niter : ℕ) : ℝ) < 1000 := by exact_mod_cast hm
    simp only [tolEnv, sqEnv, Fl.le]
    exact decide_eq_false (not_le.2 this)
  have e2 : (tolEnv tol v).msimul.le (.fin (s.ev.nsimul : ℝ)) = false := by
    have : ((s.ev.nsimul : ℕ) : ℝ) < 1000 := by exact_mod_cast hns
    simp only [tolEnv, sqEnv, Fl.le]
    exact decide_eq_false (not_le.2 this)
  have e3 : o.k1.fail = false := by rw [h1]
  have hen : ((s.measure o.k1).glagn ≤ (tolEnv tol v).tolGrad ∧ (s.measure o.k1).feasn ≤ (tolEnv tol v).tolFeas ∧
      (s.measure o.k1).compl ≤ (tolEnv tol v).tolBnds) ∨ (s.measure o.k1).delta < 1 / 10 ^ 10 ∨ (s.measure o.k1).pred = -1 := by
    rcases he with he | he
    · refine Or.inl ⟨?_, ?_, ?_⟩
      · show o.k1.glagn ≤ tol
        rw [h1]; exact he
      · show o.k1.feasn ≤ 1 / 10 ^ 5
        rw [h1]; norm_num
      · show o.k1.compl ≤ 1 / 10 ^ 5
        rw [h1]; norm_num
    · exact Or.inr (Or.inr he)
  unfold pass
  rw [e1, e2, e3]
  simp only [Bool.false_eq_true, if_false]
  rw [if_pos hen]
  unfold improve
  dsimp only
  rw [if_pos (show (tolEnv tol v).n + 1 ≤ (s.measure o.k1).cur by show 1 + 1 ≤ s.cur; rw [hcur]), if_neg, if_neg]
  · obtain ⟨t, t1, t2⟩ := quiet_stage tol a b g2 (passRadius (tolEnv tol v) o s) v o
      { s.measure o.k1 with
        ev := { s.ev with flag := Status.success }
        poised := (o.poisedness s.set.fac s.set.Y).1
        yradius := (o.poisedness s.set.fac s.set.Y).2
        niter := s.niter + 1
        epsCur := newEpsCur (tolEnv tol v) (s.measure o.k1) } hset hcur hx hi hab himp hk hg hv
    refine ⟨t, ?_, t2⟩
    refine Eq.trans (congrArg (fun r => PassRes.bind r _) t1) rfl
  · exact hr
  · rintro ⟨f1, f2, f3, f4⟩
    refine hf ⟨f1, f2, f3, ?_⟩
    have f4 : (o.poisedness s.set.fac s.set.Y).1 * (o.poisedness s.set.fac s.set.Y).2 / cFactorCV ≤ cEps := f4
    rw [div_le_iff₀ (by norm_num [cFactorCV])] at f4
    norm_num [cFactorCV, cEps] at f4 ⊢
    linarith

theorem tol_computes (tol : ℝ) (v : Bool) : Computes (m := 0) (tolEnv tol v) sqProb :=
  ⟨rfl, sq_computes.obj, sq_computes.con⟩

theorem tol_euclid (tol : ℝ) (v : Bool) : Euclid (tolEnv tol v) := by
  intro l hl
  have hl : l.length = 1 := hl
  match l, hl with
  | [c], _ =>
    show nrm1 [c] = enorm2 (vec 1 [c])
    unfold enorm2
    simp [nrm1, vec, dotProduct, Real.sqrt_mul_self_eq_abs]

/-- The gradient of the Lagrangian at the returned point. -/
theorem tol_glag (tol a b : ℝ) (v : Bool) (hab : a ≠ b) (t : MSt ℝ (List (List ℝ)))
    (hg : t.infoG = modelOf kern 0 [[a], [b]] [a] [a ^ 2, b ^ 2] []) (i : Fin (tolEnv tol v).n) : glag (optimIn (tolEnv tol v) 0 t 0 0) i = a + b := by
  have hg : vec 1 t.infoG.g = ![a + b] := by
    rw [hg]
    refine (two_grad _ _ hab [a ^ 2, b ^ 2]).trans ?_
    have h : b - a ≠ 0 := sub_ne_zero.2 hab.symm
    funext j
    rw [Subsingleton.elim j 0]
    simp only [List.getD_cons_zero, List.getD_cons_succ, cons_val_zero]
    field_simp
    ring
  have hi : glag (optimIn (tolEnv tol v) 0 t 0 0) i = vec 1 t.infoG.g i := by
    unfold glag
    rw [if_neg (show ¬ (0 + (tolEnv tol v).ns > 0) from lt_irrefl 0)]
    unfold glagBounds
    exact ite_eq_right_iff.2 fun _ => add_zero (vec 1 t.infoG.g i)
  rw [hi, hg, Subsingleton.elim (α := Fin 1) i 0]
  rfl

theorem tol_true (a : ℝ) (i : Fin 1) : trueLag sqProb (vec 1 [a]) (vec 1 sqEnv.lb) (vec 1 sqEnv.ub) 0 0 i = 2 * a := by
  unfold trueLag
  rw [Subsingleton.elim i 0]
  simp [sqProb, sqEnv, vec]

/-- Results of a pass: measures `g1`, `g2`, trial point `a`, poisedness of the code. -/
noncomputable def tolOrc (g1 g2 a : ℝ) : Orc ℝ (List (List ℝ)) :=
  { sqOrc with k1 := ⟨false, g1, 0, 0⟩, k2 := ⟨false, g2, 0, 0⟩, poisedness := fun _ Y => (poisOf kern 1 Y).getD (0, 0), xnew := [a] }

theorem tol_improvement {tol : ℝ} {v : Bool} {o : Orc ℝ (List (List ℝ))} {s : MSt ℝ (List (List ℝ))} (hC : CodeLagrange (tolEnv tol v) kern o s)
    {a b : ℝ} (hab : a ≠ b) (hr : 0 < passRadius (tolEnv tol v) o s) :
    (o.propose [[a], [b]] [[a], [b]] 1).2 = passRadius (tolEnv tol v) o s / |b - a| := by
  have h1 := C71_two_points (realKer_lin (n := 1)) a b hab _ _ (kern_qr _ _ _ (two_poised a b hab)) (passRadius (tolEnv tol v) o s) (1 / 10 ^ 3)
    hr (by norm_num)
  have h2 := hC.propose [[a], [b]] (1 : Fin 2) ⟨![(linProp (passRadius (tolEnv tol v) o s) a b).1], (linProp (passRadius (tolEnv tol v) o s) a b).2⟩ (by
    show findNewYj kern.ms (facOf kern 1 [[a], [b]]).1 (facOf kern 1 [[a], [b]]).2 (ptsOf 1 1 [[a], [b]]) 1 _ _ (frameOf 1 1 [[a], [b]]).xbase (frameOf 1 1 [[a], [b]]).scale true = _
    unfold facOf frameOf
    rw [two_pts]
    exact h1)
  have h3 : o.propose [[a], [b]] [[a], [b]] 1 = _ := h2
  rw [h3]
  rfl

/-- The set of the first run, `0.499` and `-0.501`, with the tolerance `1/500`: the model gradient is `-1/500`. -/
theorem far_run : ∃ o s0 t, Starts (tolEnv (1 / 500) false) [499 / 1000] 1 1 [] s0 ∧ CodeLagrange (tolEnv (1 / 500) false) kern o s0 ∧
    (∀ Y lr, poisOf kern 1 Y = some lr → o.poisedness Y Y = lr) ∧
    pass (tolEnv (1 / 500) false) o s0 = .ret t ∧ t.ev.flag = 0 ∧ ¬ FirstTest (tolEnv (1 / 500) false) o s0 ∧
    passRadius (tolEnv (1 / 500) false) o s0 = 1 ∧ (passRepair (tolEnv (1 / 500) false) o s0).rounds = 1 ∧
    t.x = [499 / 1000] ∧ t.set.Y = [[499 / 1000], [-501 / 1000]] ∧ t.ev.w.logF = [[499 / 1000], [-501 / 1000]] ∧ t.yradius = 1 ∧ t.poised = 0 ∧
    Measures (tolEnv (1 / 500) false) 0 o.k2 t 0 0 ∧
    ∀ t', pass (tolEnv (1 / 500) true) o s0 = .ret t' → t'.ev.flag ≠ 0 := by
  have hs : simplex ([499 / 1000] : List ℝ) 1 = [[499 / 1000], [-501 / 1000]] := by
    simp only [simplex, List.length_cons, List.length_nil]
    norm_num [List.range_succ]
  have hne : (499 / 1000 : ℝ) ≠ -501 / 1000 := by norm_num
  have hd : |(-501 / 1000 : ℝ) - 499 / 1000| = 1 := by norm_num
  have H := tol_start (1 / 500) (499 / 1000) (-501 / 1000) 1 false one_pos hs (by rw [abs_of_nonneg] <;> norm_num) (by
    rw [abs_of_nonpos] <;> norm_num)
  obtain ⟨pr, l, hC⟩ := code_exists (tolEnv (1 / 500) false) kern (tolOrc (1 / 500) (1 / 500) (499 / 1000)) (tolState (499 / 1000) (-501 / 1000) 1)
  generalize ho : ({ tolOrc (1 / 500) (1 / 500) (499 / 1000) with propose := pr, lval1 := l, lval2 := l, lval3 := l } : Orc ℝ (List (List ℝ))) = o at hC
  have o1 : o.k1 = ⟨false, 1 / 500, 0, 0⟩ := by rw [← ho]; rfl
  have o2 : o.k2 = ⟨false, 1 / 500, 0, 0⟩ := by rw [← ho]; rfl
  have o3 : o.normgx = 1 := by rw [← ho]; rfl
  have o4 : o.poisedness = fun _ Y => (poisOf kern 1 Y).getD (0, 0) := by rw [← ho]; rfl
  have hρ : passRadius (tolEnv (1 / 500) false) o (tolState (499 / 1000) (-501 / 1000) 1) = 1 := by
    unfold passRadius
    rw [o1]
    norm_num [repRadius, newEpsCur, MSt.measure, tolState, cFactorCV, cEps]
  have hf : ¬ FirstTest (tolEnv (1 / 500) false) o (tolState (499 / 1000) (-501 / 1000) 1) := by
    rintro ⟨-, -, -, h⟩
    rw [o4] at h
    have h : ((poisOf kern 1 [[499 / 1000], [-501 / 1000]]).getD (0, 0)).1 * ((poisOf kern 1 [[499 / 1000], [-501 / 1000]]).getD (0, 0)).2 ≤
      (1 : ℝ) / 10 ^ 3 := h
    rw [two_pois _ _ hne, hd] at h
    norm_num at h
  have himp := tol_improvement hC hne (by rw [hρ]; exact one_pos)
  rw [hρ, hd] at himp
  have hfar : |(-501 / 1000 : ℝ) - 499 / 1000| ≤ (if o.normgx ≤ cEps ∨ (tolState (499 / 1000) (-501 / 1000) 1).pred = -1 then 1 else 10) * (1 + cEpsL) *
      passRadius (tolEnv (1 / 500) false) o (tolState (499 / 1000) (-501 / 1000) 1) := by
    rw [hρ, hd]
    split <;> norm_num [cEpsL]
  obtain ⟨t, t1, t2, t3, t4, t5, t6, t7, t8, t9, t10⟩ := quiet_pass (1 / 500) (499 / 1000) (-501 / 1000) (1 / 500) (1 / 500) false o
    (tolState (499 / 1000) (-501 / 1000) 1) rfl rfl rfl rfl (by norm_num [tolState]) (by norm_num [tolState]) o1 (Or.inl le_rfl) hf (by
      rw [hρ]
      norm_num [tooSmall, tolEnv, sqEnv, tolState, nrm1, stallfact, cEps, abs_of_nonneg]) hfar (by rw [himp]; norm_num) o2 (by norm_num) (fun h => by cases h)
  have hrep : passRepair (tolEnv (1 / 500) false) o (tolState (499 / 1000) (-501 / 1000) 1) =
      ⟨⟨[[499 / 1000], [-501 / 1000]], [[499 / 1000], [-501 / 1000]], [0, 1], []⟩, 0, max 0 1, 1⟩ := by
    have hdist : (tolEnv (1 / 500) false).dist [-501 / 1000] [499 / 1000] = 1 := by
      rw [← hd]
      simp [Env.dist, tolEnv, sqEnv, nrm1]
    unfold passRepair
    rw [show (tolState (499 / 1000) (-501 / 1000) 1).set.Y = [[499 / 1000], [-501 / 1000]] from rfl]
    rw [two_repair]
    · rw [hdist]; rfl
    · exact (abs_nonneg _).trans hfar
    · exact (hdist.le.trans hd.ge).trans hfar
    · show (o.propose [[499 / 1000], [-501 / 1000]] [[499 / 1000], [-501 / 1000]] 1).2 < _
      rw [himp]
      norm_num
  refine ⟨o, _, t, H, hC, ?_, t1, t2, hf, hρ, by rw [hrep], t3, t4, ?_, ?_, ?_, ⟨?_, ?_⟩, ?_⟩
  · intro Y lr h
    rw [o4]
    simp only [h, Option.getD_some]
  · rw [t6]; rfl
  · rw [t7, hd]
  · rw [t10]; rfl
  · intro i
    rw [tol_glag _ _ _ _ hne t t5, o2]
    norm_num
  · intro r
    rcases r with r | r <;> exact r.elim0
  · intro t' ht' h0
    have hR := second_return (e := tolEnv (1 / 500) true) (s := tolState (499 / 1000) (-501 / 1000) 1) (show 1 + 1 ≤ 2 from le_rfl) ht' h0 hf
    have h1 := hR.report
    rw [show passRepair (tolEnv (1 / 500) true) o (tolState (499 / 1000) (-501 / 1000) 1) = _ from hrep] at h1
    have h2 : (t'.poised, t'.yradius) = o.poisedness [[499 / 1000], [-501 / 1000]] [[499 / 1000], [-501 / 1000]] := h1
    rw [o4] at h2
    simp only [two_pois _ _ hne, Option.getD_some, hd, Prod.mk.injEq] at h2
    have h3 := hR.prod
    rw [h2.1, h2.2] at h3
    norm_num at h3

/-- A pass whose step promises no reduction changes nothing but the list of evaluated points. -/
theorem idle_pass (tol a b Δ : ℝ) (v : Bool) (o : Orc ℝ (List (List ℝ))) (ha : |a| ≤ 1) (htol : tol < 1) (hΔ : 1 / 10 ^ 10 ≤ Δ)
    (o1 : o.k1 = ⟨false, 1, 0, 0⟩) (o2 : o.xnew = [a]) (o3 : o.rpred = 0) (o4 : o.qcost = 0) (o5 : o.tfail = false) :
    ∃ t, pass (tolEnv tol v) o (tolState a b Δ) = .cont t ∧ t.set = ⟨[[a], [b]], [0, 1], [a ^ 2, b ^ 2], [], [], [[a], [b]]⟩ ∧ t.cur = 2 ∧
      t.x = [a] ∧ t.infoCe = [] ∧ t.niter = 1 ∧ t.ev.nsimul = 3 ∧ t.pred = -1 ∧ t.delta = Δ ∧ t.epsCur = cEps ∧
      t.ev.w.logF = [[a], [b], [a]] := by
  have ha2 : a ^ 2 ≤ 1 := by rw [← sq_abs]; nlinarith [abs_nonneg a]
  have e1 : (tolEnv tol v).miter.le (.fin (((tolState a b Δ).niter : ℕ) : ℝ)) = false := by norm_num [tolEnv, sqEnv, Fl.le, tolState]
  have e2 : (tolEnv tol v).msimul.le (.fin (((tolState a b Δ).ev.nsimul : ℕ) : ℝ)) = false := by norm_num [tolEnv, sqEnv, Fl.le, tolState]
  have hr : ∀ sl, (tolEnv tol v).resNorm [] sl = some (nrm1 []) := fun _ => rfl
  have hsg : sigmab o = 0 := by rw [sigmab, if_pos o3]
  have hpr : ∀ sg, newPred o sg = -1 := fun sg => by norm_num [newPred, o3, o4]
  have hev : ∀ y m (s : EvSt (List ℝ) ℝ), y.getD 0 0 ^ 2 ≤ 10 ^ 25 → augmX (tolEnv tol v).U (.fin big) y m s = _ := sq_eval
  unfold pass
  rw [e1, e2, o1]
  simp only [Bool.false_eq_true, if_false]
  rw [if_neg (by
    rintro (h | h | h)
    · exact absurd h.1 (not_le.2 htol)
    · exact absurd h (not_lt.2 hΔ)
    · simp only [MSt.measure, tolState] at h; norm_num at h)]
  simp only [PassRes.bind]
  unfold stepStage globalise
  simp only [MSt.measure, tolState, Bool.false_eq_true, if_false, Fl.val?, hr, PassRes.bind, o5]
  unfold penalty
  rw [hsg]
  simp only
  rw [if_neg (by norm_num)]
  simp only
  unfold evalTrial
  simp only [o2]
  rw [hev _ _ _ (by simp only [List.getD_cons_zero]; linarith)]
  simp only
  rw [if_neg (by simp [Status.success])]
  simp only [finVals, List.flatten_nil, List.filterMap_nil, List.any_nil, Bool.false_eq_true, if_false]
  unfold decideStep
  simp only [setOrAppend, List.length_cons, List.length_nil, hpr, hr, if_true]
  rw [if_neg (by norm_num)]
  exact ⟨_, rfl, rfl, rfl, rfl, rfl, rfl, rfl, rfl, rfl, rfl, rfl⟩

/-- Two passes with the points `1e-4` and `1e-4 - 1e-6` and the tolerance `1e-5`; the second one ends through the second test. -/
theorem near_run (v : Bool) : ∃ o o' s0 s t, Starts (tolEnv (1 / 10 ^ 5) v) [1 / 10 ^ 4] 1 (1 / 10 ^ 6) [] s0 ∧
    CodeLagrange (tolEnv (1 / 10 ^ 5) v) kern o' s0 ∧ CodeLagrange (tolEnv (1 / 10 ^ 5) v) kern o s ∧
    (∀ Y lr, poisOf kern 1 Y = some lr → o.poisedness Y Y = lr) ∧
    pass (tolEnv (1 / 10 ^ 5) v) o' s0 = .cont s ∧ pass (tolEnv (1 / 10 ^ 5) v) o s = .ret t ∧ t.ev.flag = 0 ∧
    ¬ FirstTest (tolEnv (1 / 10 ^ 5) v) o s ∧ (passRepair (tolEnv (1 / 10 ^ 5) v) o s).rounds = 1 ∧ o.k1.feasn = 0 ∧
    t.x = [1 / 10 ^ 4] ∧ t.ev.w.logF = [[1 / 10 ^ 4], [99 / 10 ^ 6], [1 / 10 ^ 4]] ∧
    Measures (tolEnv (1 / 10 ^ 5) v) 0 o.k2 t 0 0 := by
  have hs : simplex ([1 / 10 ^ 4] : List ℝ) (1 / 10 ^ 6) = [[1 / 10 ^ 4], [99 / 10 ^ 6]] := by
    simp only [simplex, List.length_cons, List.length_nil]
    norm_num [List.range_succ]
  have hne : (1 / 10 ^ 4 : ℝ) ≠ 99 / 10 ^ 6 := by norm_num
  have hd : |(99 / 10 ^ 6 : ℝ) - 1 / 10 ^ 4| = 1 / 10 ^ 6 := by
    rw [abs_of_nonpos] <;> norm_num
  have hab1 : |(1 / 10 ^ 4 : ℝ)| ≤ 1 := by rw [abs_of_nonneg] <;> norm_num
  have H := tol_start (1 / 10 ^ 5) (1 / 10 ^ 4) (99 / 10 ^ 6) (1 / 10 ^ 6) v (by norm_num) hs hab1 (by rw [abs_of_nonneg] <;> norm_num)
  obtain ⟨pr', l', hC'⟩ := code_exists (tolEnv (1 / 10 ^ 5) v) kern (tolOrc 1 1 (1 / 10 ^ 4)) (tolState (1 / 10 ^ 4) (99 / 10 ^ 6) (1 / 10 ^ 6))
  obtain ⟨s, s1, s2, s3, s4, s5, s6, s7, s8, s9, s10, s11⟩ := idle_pass (1 / 10 ^ 5) (1 / 10 ^ 4) (99 / 10 ^ 6) (1 / 10 ^ 6) v
    { tolOrc 1 1 (1 / 10 ^ 4) with propose := pr', lval1 := l', lval2 := l', lval3 := l' } hab1 (by norm_num) (by norm_num) rfl rfl rfl rfl rfl
  obtain ⟨pr, l, hC⟩ := code_exists (tolEnv (1 / 10 ^ 5) v) kern (tolOrc (199 / 10 ^ 6) (199 / 10 ^ 6) (1 / 10 ^ 4)) s
  generalize ho : ({ tolOrc (199 / 10 ^ 6) (199 / 10 ^ 6) (1 / 10 ^ 4) with propose := pr, lval1 := l, lval2 := l, lval3 := l } : Orc ℝ (List (List ℝ))) = o at hC
  have o1 : o.k1 = ⟨false, 199 / 10 ^ 6, 0, 0⟩ := by rw [← ho]; rfl
  have o2 : o.k2 = ⟨false, 199 / 10 ^ 6, 0, 0⟩ := by rw [← ho]; rfl
  have o4 : o.poisedness = fun _ Y => (poisOf kern 1 Y).getD (0, 0) := by rw [← ho]; rfl
  have hρ : passRadius (tolEnv (1 / 10 ^ 5) v) o s = 1 / 10 ^ 6 := by
    unfold passRadius
    rw [o1]
    simp only [repRadius, newEpsCur, MSt.measure, s8, s9, s10, if_true]
    norm_num [cMu, cEps, tolEnv, sqEnv]
  have hf : ¬ FirstTest (tolEnv (1 / 10 ^ 5) v) o s := by
    rintro ⟨h, -, -, -⟩
    rw [o1] at h
    have h : (199 / 10 ^ 6 : ℝ) ≤ 1 / 10 ^ 5 := h
    norm_num at h
  have himp := tol_improvement hC hne (by rw [hρ]; norm_num)
  rw [hρ, hd, div_self (by norm_num)] at himp
  have hfar : |(99 / 10 ^ 6 : ℝ) - 1 / 10 ^ 4| ≤ (if o.normgx ≤ cEps ∨ s.pred = -1 then 1 else 10) * (1 + cEpsL) *
      passRadius (tolEnv (1 / 10 ^ 5) v) o s := by
    rw [hρ, hd]
    split <;> norm_num [cEpsL]
  obtain ⟨t, t1, t2, t3, t4, t5, t6, t7, t8, t9, t10⟩ := quiet_pass (1 / 10 ^ 5) (1 / 10 ^ 4) (99 / 10 ^ 6) (199 / 10 ^ 6) (199 / 10 ^ 6) v o
    s s2 s3 s4 s5 (by rw [s6]; norm_num) (by rw [s7]; norm_num) o1 (Or.inr s8) hf (by
      rw [hρ, tooSmall, s4]
      show ¬ (_ < stallfact * nrm1 _ ∨ _)
      norm_num [nrm1, stallfact, cEps, abs_of_nonneg]) hfar (by rw [himp]; norm_num) o2 (by norm_num) (fun _ => by
      rw [o4]
      simp only [two_pois _ _ hne, Option.getD_some, hd]
      norm_num)
  refine ⟨o, _, _, s, t, H, hC', hC, ?_, s1, t1, t2, hf, ?_, by rw [o1], t3, by rw [t6, s11], ?_, ?_⟩
  · intro Y lr h
    rw [o4]
    simp only [h, Option.getD_some]
  · unfold passRepair
    rw [show s.set.Y = [[1 / 10 ^ 4], [99 / 10 ^ 6]] by rw [s2]]
    rw [two_repair]
    · exact (abs_nonneg _).trans hfar
    · refine le_trans (le_of_eq ?_) hfar
      simp [Env.dist, tolEnv, sqEnv, nrm1]
    · rw [show s.set.fac = [[1 / 10 ^ 4], [99 / 10 ^ 6]] by rw [s2], himp]
      norm_num
  · intro i
    rw [tol_glag _ _ _ _ hne t t5, o2]
    rw [abs_of_nonneg] <;> norm_num
  · intro r
    rcases r with r | r <;> exact r.elim0

theorem near_passes {v : Bool} {o o' : Orc ℝ (List (List ℝ))} {s0 s : MSt ℝ (List (List ℝ))} (h0 : CodeLagrange (tolEnv (1 / 10 ^ 5) v) kern o' s0)
    (h1 : CodeLagrange (tolEnv (1 / 10 ^ 5) v) kern o s) (hp : pass (tolEnv (1 / 10 ^ 5) v) o' s0 = .cont s) :
    mainLoop (tolEnv (1 / 10 ^ 5) v) [o'] s0 = .running s ∧ ∀ pre' o'' post u, [o'] ++ [o] = pre' ++ o'' :: post →
      mainLoop (tolEnv (1 / 10 ^ 5) v) pre' s0 = .running u → CodeLagrange (tolEnv (1 / 10 ^ 5) v) kern o'' u := by
  have hm : mainLoop (tolEnv (1 / 10 ^ 5) v) [o'] s0 = .running s := by
    simp only [mainLoop]
    rw [hp]
  refine ⟨hm, fun pre' o'' post u e1 e2 => ?_⟩
  match pre' with
  | [] => cases e1; cases e2; exact h0
  | [a] =>
    cases e1
    rw [hm] at e2
    cases e2
    exact h1
  | a :: b :: c => simp at e1

end Ex

/-- With lower verbosity status 0 says less: the improvement of the set reports the poisedness 0 if it replaces no point, and the second test
ignores the size of the set.  For the square function, tolerance `1/500`, points `0.499` and `-0.501`: the gradient of the model is `-1/500`, the
true gradient is `0.998`, the poisedness of the set is 1 in a ball of radius 1.  The bound that holds for verbosity 4 is `0.203`. -/
theorem C107_report_false : ∃ (e : Env ℝ (List (List ℝ))) (p : Prob e.n 0 e.ns) (k : Kern e.n) (x0 : List ℝ) (s0 t : MSt ℝ (List (List ℝ)))
    (o : Orc ℝ (List (List ℝ))), Starts e x0 1 1 [] s0 ∧ Computes e p ∧ UsesKern e k ∧ GoodQR k ∧ LinKer k.ms ∧ e.finalDeg = .linear ∧
    e.regression = false ∧ e.verbose4 = false ∧ CodeLagrange e k o s0 ∧ (∀ Y lr, poisOf k e.n Y = some lr → o.poisedness Y Y = lr) ∧
    pass e o s0 = .ret t ∧ t.ev.flag = 0 ∧ Measures e 0 o.k2 t 0 0 ∧ t.poised = 0 ∧ poisOf k e.n t.set.Y = some (1, 1) ∧
    ¬ Certified e p 0 0 (100 * e.tolGrad + (e.n / 2 + 1) * (1 / 10 ^ 3) * p.κ) (100 * e.tolFeas) t := by
  obtain ⟨o, s0, t, H, hC, hpo, t1, t2, -, -, -, t3, t4, -, -, t5, hM, -⟩ := Ex.far_run
  refine ⟨Ex.tolEnv (1 / 500) false, Ex.sqProb, Ex.kern, _, s0, t, o, H, Ex.tol_computes _ _, ⟨rfl, rfl⟩, Ex.kern_qr, Ex.realKer_lin, rfl, rfl, rfl, hC, hpo, t1, t2, hM,
    t5, ?_, ?_⟩
  · rw [t4]
    refine (Ex.two_pois _ _ (by norm_num)).trans ?_
    norm_num
  · intro h
    have := h.grad (0 : Fin 1)
    rw [t3] at this
    have h2 : |trueLag Ex.sqProb (vec 1 [499 / 1000]) (vec 1 Ex.sqEnv.lb) (vec 1 Ex.sqEnv.ub) 0 0 0| ≤
      100 * (1 / 500) + (((1 : ℕ) : ℝ) / 2 + 1) * (1 / 10 ^ 3) * 2 := this
    rw [Ex.tol_true, abs_of_nonneg (by norm_num)] at h2
    norm_num at h2

/-- The option `verbose` changes the result: the same pass with the same results of all kernels returns with status 0 for lower verbosity, and does not
for verbosity 4, because only there the poisedness of the set is computed again. -/
theorem C107_verbosity : ∃ (e e' : Env ℝ (List (List ℝ))) (k : Kern e.n) (s0 t : MSt ℝ (List (List ℝ))) (o : Orc ℝ (List (List ℝ))),
    e' = { e with verbose4 := true } ∧ (∃ x0, Starts e x0 1 1 [] s0) ∧ UsesKern e k ∧ CodeLagrange e k o s0 ∧
    (∀ Y lr, poisOf k e.n Y = some lr → o.poisedness Y Y = lr) ∧ pass e o s0 = .ret t ∧ t.ev.flag = 0 ∧
    ∀ t', pass e' o s0 = .ret t' → t'.ev.flag ≠ 0 := by
  obtain ⟨o, s0, t, H, hC, hpo, t1, t2, -, -, -, -, -, -, -, -, -, h⟩ := Ex.far_run
  exact ⟨Ex.tolEnv (1 / 500) false, Ex.tolEnv (1 / 500) true, Ex.kern, s0, t, o, rfl, ⟨_, H⟩, ⟨rfl, rfl⟩, hC, hpo, t1, t2, h⟩

/-- The hypotheses of `C107_quiet_partial` are met by the same run; the bound `0.2 + 3.6` holds. -/
example : ∃ t : MSt ℝ (List (List ℝ)), t.ev.flag = 0 ∧ t.x = [499 / 1000] ∧
    Certified (Ex.tolEnv (1 / 500) false) Ex.sqProb 0 0 (1 / 5 + 18 / 5) (1 / 10 ^ 3) t := by
  obtain ⟨o, s0, t, H, hC, hpo, t1, t2, hf, hρ, hr, t3, t4, t6, t7, t5, hM, -⟩ := Ex.far_run
  refine ⟨t, t2, t3, ?_⟩
  have := C107_quiet_partial (m := 0) (p := Ex.sqProb) (k := Ex.kern) (pre := []) H (fun h => absurd h (lt_irrefl _)) (Ex.tol_computes _ _) ⟨rfl, rfl⟩ Ex.kern_qr
    Ex.realKer_lin le_rfl (Ex.tol_euclid _ _) rfl rfl rfl (fun pre' o' post u h1 h2 => by
      match pre' with
      | [] => cases h1; cases h2; exact hC
      | a :: b => simp at h1) rfl t1 t2 hf (by
      rw [t6]
      intro y hy
      rcases List.mem_cons.1 hy with rfl | hy
      · rfl
      · rw [List.mem_singleton.1 hy]; rfl) (by rw [hr]; norm_num) 0 0 hM
  rw [hρ, t7] at this
  convert this using 1
  · show (1 / 5 + 18 / 5 : ℝ) = 100 * (1 / 500) + (((1 : ℕ) : ℝ) / 2 + 1) * (6 / 5 * (1 ^ 2 / 1)) * (2 + ∑ r : Fin 0 ⊕ Fin 0, _)
    norm_num
  · show (1 / 10 ^ 3 : ℝ) = 100 * (1 / 10 ^ 5)
    norm_num

/-- The hypotheses of `C107_verbose_partial` are met by a run of two passes that ends through the second test. -/
example : ∃ t : MSt ℝ (List (List ℝ)), t.ev.flag = 0 ∧ t.x = [1 / 10 ^ 4] ∧
    Certified (Ex.tolEnv (1 / 10 ^ 5) true) Ex.sqProb 0 0 (1 / 10 ^ 3 + 3 / 2 * (1 / 10 ^ 3) * 2) (1 / 10 ^ 3) t := by
  obtain ⟨o, o', s0, s, t, H, h0, h1, hpo, p0, p1, hfl, hf, hr, hfe, t3, t4, hM⟩ := Ex.near_run true
  obtain ⟨m1, m2⟩ := Ex.near_passes h0 h1 p0
  refine ⟨t, hfl, t3, ?_⟩
  have := C107_verbose_partial (m := 0) (p := Ex.sqProb) (k := Ex.kern) H (fun h => absurd h (lt_irrefl _)) (Ex.tol_computes _ _) ⟨rfl, rfl⟩ Ex.kern_qr
    Ex.realKer_lin le_rfl rfl rfl rfl (show (0 : ℝ) ≤ 1 / 10 ^ 5 by norm_num) (show (0 : ℝ) ≤ 1 / 10 ^ 5 by norm_num) m2 m1 p1 hfl hpo 0 0
    (fun h => absurd h hf) (fun _ => hM)
  convert this using 1
  · show (1 / 10 ^ 3 + 3 / 2 * (1 / 10 ^ 3) * 2 : ℝ) = 100 * (1 / 10 ^ 5) + (((1 : ℕ) : ℝ) / 2 + 1) * (1 / 10 ^ 3) * (2 + ∑ r : Fin 0 ⊕ Fin 0, _)
    norm_num
  · show (1 / 10 ^ 3 : ℝ) = 100 * (1 / 10 ^ 5)
    norm_num

/-- The hypotheses of `C107_defaults_partial` are met by the same run with lower verbosity. -/
example : ∃ t : MSt ℝ (List (List ℝ)), t.ev.flag = 0 ∧ t.x = [1 / 10 ^ 4] ∧
    Certified (Ex.tolEnv (1 / 10 ^ 5) false) Ex.sqProb 0 0 (1 / 10 ^ 3 + 3 / 2 * (5 / 4 * (1 / 10 ^ 3)) * 2) (1 / 10 ^ 3) t := by
  obtain ⟨o, o', s0, s, t, H, h0, h1, hpo, p0, p1, hfl, hf, hr, hfe, t3, t4, hM⟩ := Ex.near_run false
  obtain ⟨m1, m2⟩ := Ex.near_passes h0 h1 p0
  refine ⟨t, hfl, t3, ?_⟩
  have := C107_defaults_partial (m := 0) (p := Ex.sqProb) (k := Ex.kern) H (fun h => absurd h (lt_irrefl _)) (Ex.tol_computes _ _) ⟨rfl, rfl⟩ Ex.kern_qr
    Ex.realKer_lin le_rfl (Ex.tol_euclid _ _) rfl rfl rfl (show (1 / 10 ^ 5 : ℝ) ≤ 1 / 10 ^ 3 by norm_num) m2 m1 p1 hfl hf (by
      rw [t4]
      intro y hy
      simp only [List.mem_cons, List.not_mem_nil, or_false] at hy
      rcases hy with rfl | rfl | rfl <;> rfl) (by rw [hr]; norm_num) (fun _ => by
      rw [hfe]
      show (0 : ℝ) ≤ 1 / 10 ^ 5
      norm_num) 0 0 hM
  convert this using 1
  · show (1 / 10 ^ 3 + 3 / 2 * (5 / 4 * (1 / 10 ^ 3)) * 2 : ℝ) = 100 * (1 / 10 ^ 5) + (((1 : ℕ) : ℝ) / 2 + 1) * (5 / 4 * (1 / 10 ^ 3)) *
      (2 + ∑ r : Fin 0 ⊕ Fin 0, _)
    norm_num
  · show (1 / 10 ^ 3 : ℝ) = 100 * (1 / 10 ^ 5)
    norm_num

#print axioms C107_verbose_partial
#print axioms C107_quiet_partial
#print axioms C107_defaults_partial
#print axioms C107_report_false
#print axioms C107_verbosity

end Sqpdfo
