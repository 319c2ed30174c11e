import Verif.Model.Kernels
import Verif.Props.C22_C38_C41_Optimality
import Verif.Props.C55_C58_C64_Runs
import Verif.Props.C72_Gradients
import Verif.Props.C73_GradientError

/-! # C74: what status 0 says about the user's functions -/

set_option linter.unusedSectionVars false

namespace Sqpdfo
open Matrix Finset Spec

/-- The problem of a user: objective and constraints, their gradients and the Lipschitz constants of these. -/
structure Spec.Prob (n m ns : ℕ) where
  f : (Fin n → ℝ) → ℝ
  G : (Fin n → ℝ) → Fin n → ℝ
  κ : ℝ
  c : Fin m ⊕ Fin ns → (Fin n → ℝ) → ℝ
  J : Fin m ⊕ Fin ns → (Fin n → ℝ) → Fin n → ℝ
  κc : Fin m ⊕ Fin ns → ℝ
  smooth : Smooth f G κ
  smoothC : ∀ r, Smooth (c r) (J r) (κc r)

/-- The user's functions compute the problem: every finite answer is the exact value (and below the limit `1e25`);
elsewhere they may fail. -/
structure Spec.Computes (e : Env ℝ (List (List ℝ))) {m : ℕ} (p : Prob e.n m e.ns) : Prop where
  rows : e.me = m + e.ns
  obj : ∀ w y q, e.U.f w y = .num (.fin q) → q = p.f (vec e.n y) ∧ q ≤ 10 ^ 25
  con : ∀ w y (l : List ℝ), answerC e.U w y = some (.nums (l.map Fl.fin)) → ∀ r, l.getD (rowIx r) 0 = p.c r (vec e.n y)

/-- The factorisation and the models are those of the code. -/
structure Spec.UsesKern (e : Env ℝ (List (List ℝ))) (k : Kern e.n) : Prop where
  build : e.build = id
  model : e.model = modelOf k e.me

/-- The residual of the Lagrangian with the true gradients at `x`. -/
noncomputable def Spec.trueLag {n m ns : ℕ} (p : Prob n m ns) (x lb ub lmB : Fin n → ℝ) (lmE : Fin m ⊕ Fin ns → ℝ) (i : Fin n) : ℝ :=
  p.G x i + (if |lb i - x i| < 1 / 10 ^ 5 ∨ |ub i - x i| < 1 / 10 ^ 5 then lmB i else 0) + ∑ r, p.J r x i * lmE r

/-- The first convergence test of a pass holds (`sqpdfo_main.py` L281, L306-L309). -/
def Spec.FirstTest (e : Env ℝ (List (List ℝ))) (o : Orc ℝ (List (List ℝ))) (s : MSt ℝ (List (List ℝ))) : Prop :=
  o.k1.glagn ≤ e.tolGrad ∧ o.k1.feasn ≤ e.tolFeas ∧ o.k1.compl ≤ e.tolBnds ∧
    (o.poisedness s.set.fac s.set.Y).1 * (o.poisedness s.set.fac s.set.Y).2 ≤ 1 / 10 ^ 3

/-- The model gradients of this set have an error of at most `E` times the Lipschitz constant. -/
def Spec.GradAcc {n : ℕ} (k : Kern n) (p : ℕ) (Y : List (List ℝ)) (E : ℝ) : Prop :=
  ∀ f G κ, Smooth f G κ → ∀ x v, vec n x = ptsOf n p Y 0 → (∀ j, vec (p + 1) v j = f (ptsOf n p Y j)) →
    ∀ i, |vec n (gradOf k p Y x v) i - G (vec n x) i| ≤ κ * E

theorem abs_le_enorm2 {n : ℕ} (v : Fin n → ℝ) (i : Fin n) : |v i| ≤ enorm2 v := by
  unfold enorm2
  refine Real.abs_le_sqrt ?_
  rw [pow_two]
  exact Finset.single_le_sum (f := fun i => v i * v i) (fun j _ => mul_self_nonneg _) (Finset.mem_univ i)

theorem vec_ofFn {n : ℕ} (v : Fin n → ℝ) : vec n (List.ofFn v) = v := by
  funext i
  simp [vec]

/-- A pass that returns with status 0 although the first test holds, returns the state it started from. -/
theorem first_return {e : Env ℝ (List (List ℝ))} {o : Orc ℝ (List (List ℝ))} {s t : MSt ℝ (List (List ℝ))}
    (hlo : e.n + 1 ≤ s.cur) (hp : pass e o s = .ret t) (h0 : t.ev.flag = 0) (hf : FirstTest e o s) :
    t.x = s.x ∧ t.set = s.set ∧ t.infoCe = s.infoCe ∧ t.sl = s.sl ∧ t.infoG = s.infoG := by
  obtain ⟨f1, f2, f3, f4⟩ := hf
  have f4' : (o.poisedness s.set.fac s.set.Y).1 * (o.poisedness s.set.fac s.set.Y).2 / cFactorCV ≤ (cEps : ℝ) := by
    rw [div_le_iff₀ (by norm_num [cFactorCV])]
    norm_num [cFactorCV, cEps] at f4 ⊢
    linarith
  unfold pass at hp
  split at hp
  · cases hp; exact ⟨rfl, rfl, rfl, rfl, rfl⟩
  · split at hp
    · cases hp; exact ⟨rfl, rfl, rfl, rfl, rfl⟩
    · split at hp
      · cases hp; exact ⟨rfl, rfl, rfl, rfl, rfl⟩
      · have key : ∀ u : MSt ℝ (List (List ℝ)), u.glagn = o.k1.glagn → u.feasn = o.k1.feasn → u.compl = o.k1.compl →
            u.set = s.set → u.cur = s.cur → u.x = s.x → u.infoCe = s.infoCe → u.sl = s.sl → u.infoG = s.infoG →
            ((if (u.glagn ≤ e.tolGrad ∧ u.feasn ≤ e.tolFeas ∧ u.compl ≤ e.tolBnds) ∨
              u.delta < 1 / 10 ^ 10 ∨ u.pred = -1 then improve e o u else .cont u).bind (stepStage e o)) = .ret t →
            t.x = s.x ∧ t.set = s.set ∧ t.infoCe = s.infoCe ∧ t.sl = s.sl ∧ t.infoG = s.infoG := by
          intro u u1 u2 u3 u4 u5 u6 u7 u8 u9 hp
          rw [← u1] at f1
          rw [← u2] at f2
          rw [← u3] at f3
          rw [← u4] at f4'
          rw [← u5] at hlo
          rw [if_pos (Or.inl ⟨f1, f2, f3⟩)] at hp
          unfold improve at hp
          dsimp only at hp
          rw [if_pos hlo, if_pos ⟨f1, f2, f3, f4'⟩] at hp
          cases hp
          exact ⟨u6, u4, u7, u8, u9⟩
        exact key { s.measure o.k1 with ev := { s.ev with flag := Status.success } } rfl rfl rfl rfl rfl rfl rfl rfl rfl hp

/-- The values in use are those of the problem. -/
theorem values_ok {e : Env ℝ (List (List ℝ))} {m : ℕ} {p : Prob e.n m e.ns} (hc : Computes e p)
    {s : MSt ℝ (List (List ℝ))} (h : Core e [] s) :
    ∀ j : Fin (s.set.Y.length - 1 + 1),
      vec (s.set.Y.length - 1 + 1) s.set.fY j = p.f (ptsOf e.n (s.set.Y.length - 1) s.set.Y j) := by
  intro j
  have hj : (j : ℕ) < s.cur := by have := j.2; have := h.lo; have := h.Ylen; omega
  obtain ⟨i, y, f, -, b2, b3, b4, b5⟩ := h.link j hj (by simp)
  obtain ⟨y', w, q, r, c1, -, c3, c4, c5⟩ := h.hist i _ b5
  rw [b4] at c1
  cases c1
  cases c4
  obtain ⟨d1, d2⟩ := hc.obj _ _ _ c3
  have : f = q := c5.1 d2
  subst this
  simp only [vec, ptsOf, List.getD_eq_getElem?_getD, b3, b2, Option.getD_some]
  exact d1

theorem rows_lt {m ns : ℕ} (r : Fin m ⊕ Fin ns) : rowIx r < m + ns := by
  cases r with
  | inl i => exact Nat.lt_of_lt_of_le i.2 (Nat.le_add_right _ _)
  | inr j => exact Nat.add_lt_add_left j.2 m

theorem values_ce {e : Env ℝ (List (List ℝ))} {m : ℕ} {p : Prob e.n m e.ns} (hc : Computes e p)
    {s : MSt ℝ (List (List ℝ))} (h : Core e [] s) (hC : CeConsistent e s) (r : Fin m ⊕ Fin e.ns) :
    (∀ j : Fin (s.set.Y.length - 1 + 1), vec (s.set.Y.length - 1 + 1) (s.set.ceY.map fun c => c.getD (rowIx r) 0) j =
      p.c r (ptsOf e.n (s.set.Y.length - 1) s.set.Y j)) ∧
    s.infoCe.getD (rowIx r) 0 = p.c r (vec e.n s.x) := by
  have key : ∀ j < s.cur, ∃ y c, s.set.Y[j]? = some y ∧ s.set.ceY[j]? = some c ∧
      c.getD (rowIx r) 0 = p.c r (vec e.n y) := by
    intro j hj
    obtain ⟨i, y, c, w, -, b2, -, b4, -, -, b7⟩ := hC.1 j hj
    exact ⟨y, c, b2, b4, hc.con _ _ _ b7 r⟩
  constructor
  · intro j
    have hj : (j : ℕ) < s.cur := by have := j.2; have := h.lo; have := h.Ylen; omega
    obtain ⟨y, c, b2, b4, b7⟩ := key j hj
    simp only [vec, ptsOf, List.getD_eq_getElem?_getD, List.getElem?_map, b4, b2, Option.map_some, Option.getD_some]
    simpa only [vec, List.getD_eq_getElem?_getD] using b7
  · obtain ⟨y, c, b2, b4, b7⟩ := key 0 (by have := h.lo; omega)
    rw [hC.2.1] at b2
    rw [hC.2.2] at b4
    cases b2
    cases b4
    exact b7

/-- The certificate for any accuracy of the model gradients. -/
theorem certificate_of_acc {e : Env ℝ (List (List ℝ))} {x0 : List ℝ} {fuel : ℕ} {Δ : ℝ} {sl : List ℝ}
    {s0 : MSt ℝ (List (List ℝ))} (H : Starts e x0 fuel Δ sl s0) (hT : 0 < e.me → e.Tame) {m : ℕ} {p : Prob e.n m e.ns}
    (hc : Computes e p) {k : Kern e.n} (hk : UsesKern e k) {pre : List (Orc ℝ (List (List ℝ)))} {s t : MSt ℝ (List (List ℝ))}
    {o : Orc ℝ (List (List ℝ))} (hs : mainLoop e pre s0 = .running s) (hp : pass e o s = .ret t) (h0 : t.ev.flag = 0)
    (hf : FirstTest e o s) {E : ℝ} (hE : GradAcc k (t.set.Y.length - 1) t.set.Y E) (lmB : Fin e.n → ℝ)
    (lmE : Fin m ⊕ Fin e.ns → ℝ) (hg : ∀ i, |glag (optimIn e m s lmB lmE) i| ≤ o.k1.glagn)
    (hfe : ∀ r, |feas (optimIn e m s lmB lmE) r| ≤ o.k1.feasn) :
    (∀ i, |trueLag p (vec e.n t.x) (vec e.n e.lb) (vec e.n e.ub) lmB lmE i| ≤
      e.tolGrad + E * (p.κ + ∑ r, |lmE r| * p.κc r)) ∧
    (∀ r, |p.c (.inl r) (vec e.n t.x)| ≤ e.tolFeas) ∧
    ∀ j, |p.c (.inr j) (vec e.n t.x) - vec e.ns t.sl j ^ 2| ≤ e.tolFeas := by
  have hcore : Core e [] s := by
    have key := mainLoop_sat H pre
    rw [hs] at key
    exact key.toCore
  have hfresh := mainLoop_fresh e pre s0 (startState_fresh e x0 fuel Δ sl s0 H.state) s (Or.inl hs)
  obtain ⟨t1, t2, t3, t4, t5⟩ := first_return hcore.lo hp h0 hf
  rw [t2] at hE
  have hC : ∀ r : Fin m ⊕ Fin e.ns, CeConsistent e s := fun r => by
    have hme : 0 < e.me := by
      rw [hc.rows]
      exact lt_of_le_of_lt (Nat.zero_le _) (rows_lt r)
    have := C64_constraint_data H (hT hme) pre
    rw [hs] at this
    exact this
  have hx : vec e.n s.x = ptsOf e.n (s.set.Y.length - 1) s.set.Y 0 := by
    simp only [ptsOf, List.getD_eq_getElem?_getD, Fin.val_zero, hcore.Y0, Option.getD_some]
  have hG : s.infoG = modelOf k e.me s.set.Y s.x s.set.fY s.set.ceY := by
    rw [hfresh.info, hfresh.gx, hfresh.fac, hk.build, hk.model]
    rfl
  have e0 : ∀ i, |vec e.n s.infoG.g i - p.G (vec e.n s.x) i| ≤ p.κ * E := by
    rw [hG]
    exact hE _ _ _ p.smooth _ _ hx (values_ok hc hcore)
  have er : ∀ r i, |vec e.n (s.infoG.a.getD (rowIx r) []) i - p.J r (vec e.n s.x) i| ≤ p.κc r * E := by
    intro r
    have hr : rowIx r < e.me := by rw [hc.rows]; exact rows_lt r
    have : s.infoG.a.getD (rowIx r) [] =
        gradOf k (s.set.Y.length - 1) s.set.Y s.x (s.set.ceY.map fun c => c.getD (rowIx r) 0) := by
      rw [hG]
      simp [modelOf, List.getD_eq_getElem?_getD, hr]
    rw [this]
    exact hE _ _ _ (p.smoothC r) _ _ hx (values_ce hc hcore (hC r) r).1
  obtain ⟨g1, g2, g3⟩ := C41_kkt_residuals (optimIn e m s lmB lmE)
  obtain ⟨f1, f2, -⟩ := hf
  refine ⟨fun i => ?_, fun r => ?_, fun j => ?_⟩
  · rw [t1]
    have hgi := hg i
    rw [g1 i] at hgi
    have hdiff : trueLag p (vec e.n s.x) (vec e.n e.lb) (vec e.n e.ub) lmB lmE i =
        ((optimIn e m s lmB lmE).g i + (if |(optimIn e m s lmB lmE).lb i - (optimIn e m s lmB lmE).x i| < 1 / 10 ^ 5 ∨
          |(optimIn e m s lmB lmE).ub i - (optimIn e m s lmB lmE).x i| < 1 / 10 ^ 5
          then (optimIn e m s lmB lmE).lmB i else 0) +
          ∑ r, (optimIn e m s lmB lmE).ae r i * (optimIn e m s lmB lmE).lmE r) -
        ((vec e.n s.infoG.g i - p.G (vec e.n s.x) i) +
          ∑ r, (vec e.n (s.infoG.a.getD (rowIx r) []) i - p.J r (vec e.n s.x) i) * lmE r) := by
      simp only [trueLag, optimIn, sub_mul, Finset.sum_sub_distrib]
      ring_nf
    rw [hdiff]
    refine le_trans (abs_sub _ _) ?_
    have hsum : |∑ r, (vec e.n (s.infoG.a.getD (rowIx r) []) i - p.J r (vec e.n s.x) i) * lmE r| ≤
        ∑ r, E * (|lmE r| * p.κc r) := by
      refine le_trans (Finset.abs_sum_le_sum_abs _ _) (Finset.sum_le_sum fun r _ => ?_)
      rw [abs_mul]
      calc _ ≤ (p.κc r * E) * |lmE r| := mul_le_mul_of_nonneg_right (er r i) (abs_nonneg _)
        _ = _ := by ring
    have h1 := abs_add_le (vec e.n s.infoG.g i - p.G (vec e.n s.x) i)
      (∑ r, (vec e.n (s.infoG.a.getD (rowIx r) []) i - p.J r (vec e.n s.x) i) * lmE r)
    rw [← Finset.mul_sum] at hsum
    have := e0 i
    rw [mul_add]
    linarith
  · have := hfe (.inl r)
    rw [g2 r] at this
    have hv := (values_ce hc hcore (hC (.inl r)) (.inl r)).2
    rw [t1, ← hv]
    exact le_trans this f2
  · have := hfe (.inr j)
    rw [g3 j] at this
    have hv := (values_ce hc hcore (hC (.inr j)) (.inr j)).2
    rw [t1, t4, ← hv]
    exact le_trans this f2

/-! ### Accuracy of the models in use -/

/-- `numpy.linalg.qr` is exact for matrices with independent columns. -/
def Spec.GoodQR {n : ℕ} (k : Kern n) : Prop :=
  ∀ q p (Z : Matrix (Fin q) (Fin p) ℝ), Poised Z → IsQR (k.qr q p Z).1 (k.qr q p Z).2 Z

theorem acc_of_error {n : ℕ} (k : Kern n) (p : ℕ) (Y : List (List ℝ)) (E : ℝ)
    (h : ∀ (f : (Fin n → ℝ) → ℝ) (G : (Fin n → ℝ) → Fin n → ℝ) (κ : ℝ), Smooth f G κ →
      ∃ P, computeP (facOf k p Y).1 (facOf k p Y).2 (fun j => f (ptsOf n p Y j)) = some P ∧
        enorm2 (gradP P (ptsOf n p Y 0) (frameOf n p Y).xbase (frameOf n p Y).scale true - G (ptsOf n p Y 0)) ≤ κ * E) :
    GradAcc k p Y E := by
  intro f G κ hf x v hx hv i
  obtain ⟨P, hP, hb⟩ := h f G κ hf
  have hv' : vec (p + 1) v = fun j => f (ptsOf n p Y j) := funext hv
  unfold gradOf
  rw [hv', hP]
  simp only [vec_ofFn, hx]
  exact le_trans (abs_le_enorm2 (gradP P (ptsOf n p Y 0) (frameOf n p Y).xbase (frameOf n p Y).scale true - G (ptsOf n p Y 0)) i) hb

theorem acc_linear {n : ℕ} {k : Kern n} (hq : GoodQR k) (hk : LinKer k.ms) (hn : 1 ≤ n) (Y : List (List ℝ))
    (hp : Poised (zMat (n + 1) (frameOf n n Y).pts)) {lam r : ℝ} (hl : poisOf k n Y = some (lam, r)) :
    GradAcc k n Y (n / 2 * (lam * r)) := by
  refine acc_of_error k n Y _ fun f G κ hf => ?_
  obtain ⟨lam', r', P, h1, h2, h3⟩ := C73_linear hk hn (ptsOf n n Y) _ _ (hq _ _ _ hp) hp (1 / 10 ^ 3) (by norm_num) f G κ hf
  have : some (lam, r) = some (lam', r') := hl.symm.trans h1
  cases this
  exact ⟨P, h2, le_trans h3 (le_of_eq (by ring))⟩

theorem smooth_nonneg {n : ℕ} (hn : 1 ≤ n) {f : (Fin n → ℝ) → ℝ} {G : (Fin n → ℝ) → Fin n → ℝ} {κ : ℝ} (h : Smooth f G κ) :
    0 ≤ κ := by
  have h1 := le_trans (abs_nonneg _) (h 0 (Pi.single ⟨0, hn⟩ 1))
  rw [enorm2_sq, sub_zero] at h1
  have : (Pi.single ⟨0, hn⟩ 1 : Fin n → ℝ) ⬝ᵥ Pi.single ⟨0, hn⟩ 1 = 1 := by simp
  rw [this] at h1
  linarith

/-- The largest possible number of points. -/
theorem cap_le (e : Env ℝ (List (List ℝ))) (hr : e.regression = false) : e.cap ≤ (e.n + 1) * (e.n + 2) / 2 := by
  unfold Env.cap Env.pfinal
  rw [hr]
  simp only [Bool.false_eq_true, if_false]
  have h1 : 2 * (2 * e.n + 1) ≤ (e.n + 1) * (e.n + 2) := by
    rcases Nat.eq_zero_or_pos e.n with h | h
    · rw [h]
    · nlinarith
  have h2 : 2 * (e.n + 1) ≤ (e.n + 1) * (e.n + 2) := by nlinarith
  cases e.finalDeg <;> simp only <;> omega

/-- C74, linear models (`final_degree = linear`).  A run that ends with status 0 through the first convergence test returns a
point at which the constraints hold within `tol_feas` and the Lagrangian with the multipliers in use has a true gradient of at most
`tol_grad` plus `n/2 * 1e-3` times the Lipschitz constant of that gradient. -/
theorem C74_linear {e : Env ℝ (List (List ℝ))} {x0 : List ℝ} {fuel : ℕ} {Δ : ℝ} {sl : List ℝ}
    {s0 : MSt ℝ (List (List ℝ))} (H : Starts e x0 fuel Δ sl s0) (hT : 0 < e.me → e.Tame) {m : ℕ} {p : Prob e.n m e.ns}
    (hc : Computes e p) {k : Kern e.n} (hk : UsesKern e k) (hq : GoodQR k) (hms : LinKer k.ms) (hn : 1 ≤ e.n)
    (hlin : e.finalDeg = .linear) (hreg : e.regression = false)
    {pre : List (Orc ℝ (List (List ℝ)))} {s t : MSt ℝ (List (List ℝ))} {o : Orc ℝ (List (List ℝ))}
    (hs : mainLoop e pre s0 = .running s) (hp : pass e o s = .ret t) (h0 : t.ev.flag = 0) (hf : FirstTest e o s)
    (hY : Poised (zMat (e.n + 1) (frameOf e.n e.n t.set.Y).pts))
    (hpo : poisOf k e.n s.set.Y = some (o.poisedness s.set.fac s.set.Y)) (lmB : Fin e.n → ℝ)
    (lmE : Fin m ⊕ Fin e.ns → ℝ) (hg : ∀ i, |glag (optimIn e m s lmB lmE) i| ≤ o.k1.glagn)
    (hfe : ∀ r, |feas (optimIn e m s lmB lmE) r| ≤ o.k1.feasn) :
    (∀ i, |trueLag p (vec e.n t.x) (vec e.n e.lb) (vec e.n e.ub) lmB lmE i| ≤
      e.tolGrad + e.n / 2 * (1 / 10 ^ 3) * (p.κ + ∑ r, |lmE r| * p.κc r)) ∧
    (∀ r, |p.c (.inl r) (vec e.n t.x)| ≤ e.tolFeas) ∧
    ∀ j, |p.c (.inr j) (vec e.n t.x) - vec e.ns t.sl j ^ 2| ≤ e.tolFeas := by
  have hcore : Core e [] s := by
    have key := mainLoop_sat H pre
    rw [hs] at key
    exact key.toCore
  obtain ⟨-, t2, -⟩ := first_return hcore.lo hp h0 hf
  have hlen : t.set.Y.length - 1 = e.n := by
    have h1 := hcore.hi
    have h2 := hcore.lo
    have h3 := hcore.Ylen
    unfold Env.cap Env.pfinal at h1
    rw [hreg, hlin] at h1
    simp only [Bool.false_eq_true, if_false] at h1
    rw [t2]
    omega
  rw [← t2] at hpo
  have hacc := acc_linear hq hms hn t.set.Y hY (hpo.trans (by rw [Prod.mk.eta]))
  have hacc' : GradAcc k (t.set.Y.length - 1) t.set.Y
      (e.n / 2 * ((o.poisedness t.set.fac t.set.Y).1 * (o.poisedness t.set.fac t.set.Y).2)) := by
    rw [hlen]
    exact hacc
  obtain ⟨c1, c2⟩ := certificate_of_acc H hT hc hk hs hp h0 hf hacc' lmB lmE hg hfe
  refine ⟨fun i => le_trans (c1 i) ?_, c2⟩
  have hκ : 0 ≤ p.κ + ∑ r, |lmE r| * p.κc r :=
    add_nonneg (smooth_nonneg hn p.smooth)
      (Finset.sum_nonneg fun r _ => mul_nonneg (abs_nonneg _) (smooth_nonneg hn (p.smoothC r)))
  rw [t2]
  have h4 := hf.2.2.2
  gcongr

/-- C74 for the other degrees.  The set may have any size between `n + 1` and the quadratic one; the bound holds if the hard case does not
occur when the poisedness is measured (`r` is the radius of the set). Missing: the hard case, and runs that end through the second
convergence test. -/
theorem C74_subbasis_partial {e : Env ℝ (List (List ℝ))} {x0 : List ℝ} {fuel : ℕ} {Δ : ℝ} {sl : List ℝ}
    {s0 : MSt ℝ (List (List ℝ))} (H : Starts e x0 fuel Δ sl s0) (hT : 0 < e.me → e.Tame) {m : ℕ} {p : Prob e.n m e.ns}
    (hc : Computes e p) {k : Kern e.n} (hk : UsesKern e k) (hq : GoodQR k) (hms : GoodKer k.ms) (hn : 1 ≤ e.n)
    (hreg : e.regression = false)
    {pre : List (Orc ℝ (List (List ℝ)))} {s t : MSt ℝ (List (List ℝ))} {o : Orc ℝ (List (List ℝ))}
    (hs : mainLoop e pre s0 = .running s) (hp : pass e o s = .ret t) (h0 : t.ev.flag = 0) (hf : FirstTest e o s)
    (hY : Poised (zMat (t.set.Y.length - 1 + 1) (frameOf e.n (t.set.Y.length - 1) t.set.Y).pts))
    (hhard : ∀ j ≠ 0, ∀ L g H, computeLj (facOf k (t.set.Y.length - 1) t.set.Y).1 (facOf k (t.set.Y.length - 1) t.set.Y).2 j = some L →
      gradP L 0 (frameOf e.n (t.set.Y.length - 1) t.set.Y).xbase (frameOf e.n (t.set.Y.length - 1) t.set.Y).scale false = g →
      hessP e.n L (frameOf e.n (t.set.Y.length - 1) t.set.Y).scale false = H →
      1 / 10 ^ 12 ≤ g ⬝ᵥ g →
      (g ⬝ᵥ H *ᵥ g ≤ 0 → (trms k.ms g H 1 (1 / 10 ^ 3)).hard = false) ∧
        (0 ≤ g ⬝ᵥ H *ᵥ g → (trms k.ms (-g) (-H) 1 (1 / 10 ^ 3)).hard = false))
    {lam r : ℝ} (hlr : o.poisedness s.set.fac s.set.Y = (lam, r))
    (hpo : poisOf k (s.set.Y.length - 1) s.set.Y = some (lam, r)) (lmB : Fin e.n → ℝ)
    (lmE : Fin m ⊕ Fin e.ns → ℝ) (hg : ∀ i, |glag (optimIn e m s lmB lmE) i| ≤ o.k1.glagn)
    (hfe : ∀ r, |feas (optimIn e m s lmB lmE) r| ≤ o.k1.feasn) :
    (∀ i, |trueLag p (vec e.n t.x) (vec e.n e.lb) (vec e.n e.ub) lmB lmE i| ≤
      e.tolGrad + (t.set.Y.length - 1 : ℕ) / 2 * max (r / 10 ^ 6) ((1 / 10 ^ 3 + r / 10 ^ 12) / (1 - 1 / 10 ^ 3)) *
        (p.κ + ∑ r, |lmE r| * p.κc r)) ∧
    (∀ r, |p.c (.inl r) (vec e.n t.x)| ≤ e.tolFeas) ∧
    ∀ j, |p.c (.inr j) (vec e.n t.x) - vec e.ns t.sl j ^ 2| ≤ e.tolFeas := by
  have hcore : Core e [] s := by
    have key := mainLoop_sat H pre
    rw [hs] at key
    exact key.toCore
  obtain ⟨-, t2, -⟩ := first_return hcore.lo hp h0 hf
  have hlo : e.n ≤ t.set.Y.length - 1 := by
    have h2 := hcore.lo
    have h3 := hcore.Ylen
    rw [t2]
    omega
  have hhi : t.set.Y.length - 1 + 1 ≤ (e.n + 1) * (e.n + 2) / 2 := by
    have h1 := hcore.hi
    have h2 := hcore.lo
    have h3 := hcore.Ylen
    have h4 := cap_le e hreg
    rw [t2]
    omega
  rw [← t2] at hpo
  have hr : 0 ≤ r := by
    unfold poisOf poisednessY at hpo
    obtain ⟨l, -, h2⟩ := Option.map_eq_some_iff.1 hpo
    cases h2
    exact (yRadius_spec _).1
  have hbnd : r * max (1 / 10 ^ 6) ((lam + 1 / 10 ^ 12 / 2) / (1 - 1 / 10 ^ 3)) ≤
      max (r / 10 ^ 6) ((1 / 10 ^ 3 + r / 10 ^ 12) / (1 - 1 / 10 ^ 3)) := by
    have h4 := hf.2.2.2
    rw [hlr] at h4
    rw [mul_max_of_nonneg _ _ hr]
    refine max_le_max (le_of_eq (by ring)) ?_
    rw [← mul_div_assoc]
    refine div_le_div_of_nonneg_right ?_ (by norm_num)
    simp only at h4
    nlinarith
  have hacc : GradAcc k (t.set.Y.length - 1) t.set.Y
      ((t.set.Y.length - 1 : ℕ) / 2 * max (r / 10 ^ 6) ((1 / 10 ^ 3 + r / 10 ^ 12) / (1 - 1 / 10 ^ 3))) := by
    refine acc_of_error k _ _ _ fun f G κ hfs => ?_
    obtain ⟨lam', r', P, h1, h2, h3⟩ := C73_subbasis_partial _ _ _ hms hn hlo hhi (hq _ _ _ hY) hY (1 / 10 ^ 3) (by norm_num)
      (by norm_num) hhard f G κ hfs
    have : some (lam, r) = some (lam', r') := hpo.symm.trans h1
    cases this
    refine ⟨P, h2, le_trans h3 ?_⟩
    have hκ := smooth_nonneg hn hfs
    calc _ = κ * ((t.set.Y.length - 1 : ℕ) / 2 * (r * max (1 / 10 ^ 6) ((lam + 1 / 10 ^ 12 / 2) / (1 - 1 / 10 ^ 3)))) := by ring
      _ ≤ _ := by gcongr
  exact certificate_of_acc H hT hc hk hs hp h0 hf hacc lmB lmE hg hfe

/-- A run that returns, ends in a pass. -/
theorem done_pass {e : Env ℝ (List (List ℝ))} : ∀ (os : List (Orc ℝ (List (List ℝ)))) (s t : MSt ℝ (List (List ℝ))),
    mainLoop e os s = .done t →
    ∃ pre o post u, os = pre ++ o :: post ∧ mainLoop e pre s = .running u ∧ pass e o u = .ret t
  | [], s, t, h => by cases h
  | o :: os, s, t, h => by
    unfold mainLoop at h
    cases hp : pass e o s with
    | cont u =>
      rw [hp] at h
      obtain ⟨pre, o', post, v, h1, h2, h3⟩ := done_pass os u t h
      refine ⟨o :: pre, o', post, v, by rw [h1]; rfl, ?_, h3⟩
      unfold mainLoop
      rw [hp]
      exact h2
    | ret u =>
      rw [hp] at h
      cases h
      exact ⟨[], o, os, s, rfl, rfl, hp⟩
    | crash c => rw [hp] at h; cases h

/-! ### A run -/

namespace Ex

open Classical in
/-- Exact kernels. -/
noncomputable def kern : Kern 1 where
  qr := fun _ _ Z => if h : ∃ QR : _ × _, IsQR QR.1 QR.2 Z then h.choose else 0
  ms := realKer

theorem kern_qr : GoodQR kern := by
  intro q p Z hZ
  obtain ⟨Q, R, h⟩ := exists_qr Z hZ
  have : ∃ QR : Matrix (Fin q) (Fin p) ℝ × Matrix (Fin p) (Fin p) ℝ, IsQR QR.1 QR.2 Z := ⟨(Q, R), h⟩
  have hk : kern.qr q p Z = this.choose := dif_pos this
  rw [hk]
  exact this.choose_spec

/-- Objective `x^2` of one variable, linear models, the default tolerances. -/
noncomputable def sqEnv : Env ℝ (List (List ℝ)) where
  miter := .fin 1000
  msimul := .fin 1000
  tolGrad := 1 / 10 ^ 5
  tolFeas := 1 / 10 ^ 5
  tolBnds := 1 / 10 ^ 5
  verbose4 := false
  n := 1
  me := 0
  ns := 0
  finalDeg := .linear
  regression := false
  lb := [-10 ^ 30]
  ub := [10 ^ 30]
  nrm := nrm1
  sqrt := Real.sqrt
  trunc := id
  order := descOrder
  build := id
  model := modelOf kern 0
  U := ⟨fun _ y => if (y.getD 0 0) ^ 2 ≤ 10 ^ 25 then .num (.fin (y.getD 0 0 ^ 2)) else .raised, none⟩

/-- The problem. -/
noncomputable def sqProb : Prob 1 0 0 where
  f := fun x => x 0 ^ 2
  G := fun x => ![2 * x 0]
  κ := 2
  c := fun _ _ => 0
  J := fun _ _ => 0
  κc := fun _ => 0
  smooth := sq_smooth
  smoothC := fun r => by rcases r with r | r <;> exact r.elim0

theorem sq_computes : Computes (m := 0) sqEnv sqProb where
  rows := rfl
  obj := by
    intro w y q h
    simp only [sqEnv] at h
    split at h
    · cases h; exact ⟨rfl, by assumption⟩
    · cases h
  con := by intro w y l _ r; rcases r with r | r <;> exact r.elim0

/-- Measures of the first pass: the model gradient vanishes. -/
noncomputable def sqOrc : Orc ℝ (List (List ℝ)) where
  k1 := ⟨false, 0, 0, 0⟩
  normgx := 1
  poisedness := fun _ _ => (1, 1 / 1000)
  propose := fun _ _ _ => ([0], 0)
  k2 := ⟨false, 1, 0, 0⟩
  tfail := false
  xnew := []
  rpred := 0
  active := false
  slplus := []
  qcost := 0
  gTs := -1
  lval1 := fun _ => 1
  lval2 := fun _ => 1
  lval3 := fun _ => 1

theorem sq_eval (y : List ℝ) (m : ℕ) (s : EvSt (List ℝ) ℝ) (h : y.getD 0 0 ^ 2 ≤ 10 ^ 25) :
    augmX sqEnv.U (.fin big) y m s = some ⟨setOrAppend s.X m y, setOrAppend s.fX m (.fin (y.getD 0 0 ^ 2)), s.ceX, s.nsimul + 1,
      .fin (y.getD 0 0 ^ 2), s.flag, ⟨s.w.logF ++ [y], s.w.logC⟩⟩ := by
  have hu : sqEnv.U.f s.w y = .num (.fin (y.getD 0 0 ^ 2)) := if_pos h
  have hc : sqEnv.U.c = none := rfl
  have hm : (Fl.fin (big : ℝ)).fmin (.fin (y.getD 0 0 ^ 2)) = .fin (y.getD 0 0 ^ 2) := by
    by_cases hle : (big : ℝ) ≤ y.getD 0 0 ^ 2
    · have : y.getD 0 0 ^ 2 = (big : ℝ) := le_antisymm h hle
      rw [this]
      simp [Fl.fmin, Fl.isNan]
    · simp only [Fl.fmin, Fl.isNan, Fl.le, decide_eq_true_eq, if_neg hle, Bool.false_eq_true, if_false]
  unfold augmX sqpdfoFunc
  simp only [hu, hc, Fl.isNan, Fl.isInf, Bool.false_eq_true, if_false, List.any_nil, List.map_nil, List.isEmpty_nil, if_true, hm]

theorem sq_start : ∃ s0, Starts sqEnv [1 / 2000] 1 (1 / 1000) [] s0 ∧ s0.set.Y = [[1 / 2000], [-1 / 2000]] ∧
    s0.set.fY = [(1 / 2000) ^ 2, (1 / 2000) ^ 2] ∧ s0.x = [1 / 2000] ∧ s0.niter = 0 ∧ s0.ev.nsimul = 2 ∧ s0.cur = 2 ∧
    s0.infoG = modelOf kern 0 [[1 / 2000], [-1 / 2000]] [1 / 2000] [(1 / 2000) ^ 2, (1 / 2000) ^ 2] [] ∧ s0.infoCe = [] := by
  have hsx : simplex ([1 / 2000] : List ℝ) (1 / 1000) = [[1 / 2000], [-1 / 2000]] := by
    simp only [simplex, List.length_cons, List.length_nil]
    norm_num [List.range_succ]
  have hb : ∀ q : ℝ, q = (1 / 2000) ^ 2 → tooBig (.fin q) = false := by
    rintro q rfl
    simp only [tooBig, big]
    norm_num
  have hl : initLoop sqEnv.U [1 / 2000] (sqEnv.nrm [1 / 2000]) 1 (1 / 1000) emptyEv = .done (1 / 1000)
      ⟨[[1 / 2000], [-1 / 2000]], [.fin ((1 / 2000) ^ 2), .fin ((1 / 2000) ^ 2)], [], 2, .fin ((1 / 2000) ^ 2), 0,
        ⟨[[1 / 2000], [-1 / 2000]], []⟩⟩ := by
    have h1 : ([1 / 2000] : List ℝ).getD 0 0 ^ 2 = (1 / 2000) ^ 2 := rfl
    have h2 : ([-1 / 2000] : List ℝ).getD 0 0 ^ 2 = (1 / 2000) ^ 2 := by
      simp only [List.getD_cons_zero]
      norm_num
    unfold initLoop
    dsimp only
    rw [hsx]
    unfold samplePass
    rw [sq_eval _ _ _ (by rw [h1]; norm_num)]
    simp only [emptyEv, setOrAppend, List.length_nil, lt_irrefl, if_false, List.nil_append, ne_eq, not_true_eq_false,
      List.getElem?_cons_zero, h1, hb _ rfl, Bool.false_eq_true]
    unfold samplePass
    rw [sq_eval _ _ _ (by rw [h2]; norm_num)]
    simp only [h2, setOrAppend, List.length_cons, List.length_nil, zero_add, lt_irrefl, if_false, List.cons_append,
      List.nil_append, ne_eq, not_true_eq_false, List.getElem?_cons_succ, List.getElem?_cons_zero, hb _ rfl, Bool.false_eq_true,
      samplePass]
    rfl
  have h : ∃ s0, startState sqEnv [1 / 2000] 1 (1 / 1000) [] = some s0 ∧ s0.set.Y = [[1 / 2000], [-1 / 2000]] ∧
      s0.set.fY = [(1 / 2000) ^ 2, (1 / 2000) ^ 2] ∧ s0.x = [1 / 2000] ∧ s0.niter = 0 ∧ s0.ev.nsimul = 2 ∧ s0.cur = 2 ∧
      s0.infoG = modelOf kern 0 [[1 / 2000], [-1 / 2000]] [1 / 2000] [(1 / 2000) ^ 2, (1 / 2000) ^ 2] [] ∧ s0.infoCe = [] := by
    unfold startState
    rw [hl]
    exact ⟨_, rfl, rfl, rfl, rfl, rfl, rfl, rfl, rfl, rfl⟩
  obtain ⟨s0, h1, h2⟩ := h
  exact ⟨s0, ⟨⟨nrm1_nonneg, descOrder_sorted⟩, ⟨fun _ => rfl, fun _ h => by cases h⟩, rfl, by norm_num, h1⟩, h2⟩

theorem two_pts (a b : ℝ) : ptsOf 1 1 [[a], [b]] = ![![a], ![b]] := by
  funext j i
  rw [Subsingleton.elim i 0]
  fin_cases j <;> rfl

theorem sq_radius (a b : ℝ) : yRadius (![![a], ![b]] : Fin 2 → Fin 1 → ℝ) = |b - a| := by
  unfold yRadius
  have : (List.finRange (1 + 1)).tail = [(1 : Fin 2)] := rfl
  rw [this]
  simp only [List.foldl_cons, List.foldl_nil, enorm2, dotProduct, Finset.univ_unique, Fin.default_eq_zero, Finset.sum_singleton,
    Pi.sub_apply, cons_val_zero, cons_val_one]
  rw [Real.sqrt_mul_self_eq_abs, max_eq_right (abs_nonneg _)]

theorem two_pois (a b : ℝ) (hab : a ≠ b) : poisOf kern 1 [[a], [b]] = some (1, |b - a|) := by
  unfold poisOf poisednessY facOf frameOf
  rw [two_pts, sq_radius]
  have h1 := C71_two_points (realKer_lin (n := 1)) a b hab _ _ (kern_qr _ _ _ (two_poised a b hab)) |b - a| (1 / 10 ^ 3)
    (abs_pos.2 (sub_ne_zero.2 hab.symm)) (by norm_num)
  have : (List.finRange (1 + 1)).tail = [(1 : Fin 2)] := rfl
  rw [this]
  simp only [List.foldlM_cons, List.foldlM_nil]
  have h2 : kern.ms = realKer := rfl
  rw [h2]
  rw [h1]
  have h3 : |b - a| / |b - a| = 1 := div_self (abs_pos.2 (sub_ne_zero.2 hab.symm)).ne'
  simp [linProp, h3]

/-- The model gradient is the difference quotient. -/
theorem two_grad (a b : ℝ) (hab : a ≠ b) (v : List ℝ) : vec 1 (gradOf kern 1 [[a], [b]] [a] v) =
    ![(v.getD 1 0 - v.getD 0 0) / (b - a)] := by
  have hz : Poised (zMat (1 + 1) (frameOf 1 1 [[a], [b]]).pts) := by
    unfold frameOf
    rw [two_pts]
    exact two_poised a b hab
  have hacc := acc_linear kern_qr realKer_lin le_rfl _ hz (two_pois a b hab)
  have hs : Smooth (fun x : Fin 1 → ℝ => v.getD 0 0 + (v.getD 1 0 - v.getD 0 0) / (b - a) * (x 0 - a))
      (fun _ => ![(v.getD 1 0 - v.getD 0 0) / (b - a)]) 0 := by
    intro x y
    simp only [dotProduct, Finset.univ_unique, Fin.default_eq_zero, Finset.sum_singleton, cons_val_zero, Pi.sub_apply]
    refine le_of_eq ?_
    rw [abs_eq_zero.2 (by ring)]
    ring
  have h := hacc _ _ 0 hs [a] v (by rw [two_pts]; funext i; rw [Subsingleton.elim i 0]; rfl) (fun j => by
    rw [two_pts]
    have hb : b - a ≠ 0 := sub_ne_zero.2 hab.symm
    fin_cases j
    · simp [vec]
    · simp [vec, hb])
  funext i
  have h2 := h i
  rw [zero_mul] at h2
  have h3 := abs_eq_zero.1 (le_antisymm h2 (abs_nonneg _))
  linarith

/-- The hard case does not occur for two points. -/
theorem two_hard (scale L : Fin 2 → ℝ) (g : Fin 1 → ℝ) (H : Matrix (Fin 1) (Fin 1) ℝ) (hH : hessP 1 L scale false = H)
    (hg : 1 / 10 ^ 12 ≤ g ⬝ᵥ g) : (g ⬝ᵥ H *ᵥ g ≤ 0 → (trms kern.ms g H 1 (1 / 10 ^ 3)).hard = false) ∧
      (0 ≤ g ⬝ᵥ H *ᵥ g → (trms kern.ms (-g) (-H) 1 (1 / 10 ^ 3)).hard = false) := by
  rw [← hH, hess_linear, neg_zero]
  exact ⟨fun _ => (trms_linear realKer_lin g 1 _ one_pos (by norm_num) hg).2.2,
    fun _ => (trms_linear realKer_lin (-g) 1 _ one_pos (by norm_num) (by rw [neg_dotProduct_neg]; exact hg)).2.2⟩

/-- A complete run of one pass. -/
theorem sq_run : ∃ s0 t, Starts sqEnv [1 / 2000] 1 (1 / 1000) [] s0 ∧ mainLoop sqEnv [] s0 = .running s0 ∧
    pass sqEnv sqOrc s0 = .ret t ∧ t.ev.flag = 0 ∧ FirstTest sqEnv sqOrc s0 ∧ t.x = [1 / 2000] ∧
    t.set.Y = [[1 / 2000], [-1 / 2000]] ∧ s0.set.Y = t.set.Y ∧ 
    (∀ i, glag (optimIn sqEnv 0 s0 0 0) i = 0) := by
  obtain ⟨s0, H, h1, h2, h3, h4, h5, h6, h7, h8⟩ := sq_start
  have hf : FirstTest sqEnv sqOrc s0 := by
    refine ⟨?_, ?_, ?_, ?_⟩ <;> norm_num [sqEnv, sqOrc]
  have hlo : sqEnv.n + 1 ≤ s0.cur := by rw [h6]; rfl
  have hp : ∃ t, pass sqEnv sqOrc s0 = .ret t ∧ t.ev.flag = 0 := by
    unfold pass
    have e1 : sqEnv.miter.le (.fin (s0.niter : ℝ)) = false := by rw [h4]; norm_num [sqEnv, Fl.le]
    have e2 : sqEnv.msimul.le (.fin (s0.ev.nsimul : ℝ)) = false := by rw [h5]; norm_num [sqEnv, Fl.le]
    have e3 : sqOrc.k1.fail = false := rfl
    rw [e1, e2, e3]
    simp only [Bool.false_eq_true, if_false]
    rw [if_pos (Or.inl ⟨hf.1, hf.2.1, hf.2.2.1⟩)]
    unfold improve
    dsimp only
    rw [if_pos (show sqEnv.n + 1 ≤ (s0.measure sqOrc.k1).cur from hlo), if_pos]
    · exact ⟨_, rfl, rfl⟩
    · refine ⟨hf.1, hf.2.1, hf.2.2.1, ?_⟩
      norm_num [sqOrc, cFactorCV, cEps]
  obtain ⟨t, ht, ht0⟩ := hp
  obtain ⟨t1, t2, -⟩ := first_return hlo ht ht0 hf
  refine ⟨s0, t, H, rfl, ht, ht0, hf, by rw [t1, h3], by rw [t2, h1], by rw [t2], fun i => ?_⟩
  have hab : (1 / 2000 : ℝ) ≠ -1 / 2000 := by norm_num
  have hg : vec 1 s0.infoG.g = ![0] := by
    rw [h7]
    have := two_grad _ _ hab [(1 / 2000) ^ 2, (1 / 2000) ^ 2]
    refine this.trans ?_
    simp
  have hi : glag (optimIn sqEnv 0 s0 0 0) i = vec 1 s0.infoG.g i := by
    unfold glag
    rw [if_neg (show ¬ (0 + sqEnv.ns > 0) from lt_irrefl 0)]
    unfold glagBounds
    simp only [optimIn, Pi.zero_apply, add_zero, ite_self]
    rfl
  rw [hi, hg]
  have : i = (0 : Fin 1) := Subsingleton.elim (α := Fin 1) i 0
  rw [this]
  rfl

end Ex

/-- The naive claim: with status 0 the true gradient satisfies the tolerance too.  It fails by a factor of 100 for the square function: the
two points `±1/2000` have the same value, so that the model gradient is zero, and the set is small enough. -/
theorem C74_tolerance_false : ∃ (e : Env ℝ (List (List ℝ))) (p : Prob e.n 0 e.ns) (k : Kern e.n) (x0 : List ℝ) (Δ : ℝ)
    (s0 t : MSt ℝ (List (List ℝ))) (o : Orc ℝ (List (List ℝ))),
    Starts e x0 1 Δ [] s0 ∧ Computes e p ∧ UsesKern e k ∧ GoodQR k ∧ LinKer k.ms ∧ e.finalDeg = .linear ∧ e.regression = false ∧
    pass e o s0 = .ret t ∧ t.ev.flag = 0 ∧ FirstTest e o s0 ∧
    Poised (zMat (e.n + 1) (frameOf e.n e.n t.set.Y).pts) ∧
    poisOf k e.n s0.set.Y = some (o.poisedness s0.set.fac s0.set.Y) ∧
    (∀ i, |glag (optimIn e 0 s0 0 0) i| ≤ o.k1.glagn) ∧ (∀ r, |feas (optimIn e 0 s0 0 0) r| ≤ o.k1.feasn) ∧
    ∃ i, |trueLag p (vec e.n t.x) (vec e.n e.lb) (vec e.n e.ub) 0 0 i| = 100 * e.tolGrad := by
  obtain ⟨s0, t, H, -, h1, h2, h3, h4, h5, h6, h7⟩ := Ex.sq_run
  have hab : (1 / 2000 : ℝ) ≠ -1 / 2000 := by norm_num
  refine ⟨Ex.sqEnv, Ex.sqProb, Ex.kern, _, _, s0, t, Ex.sqOrc, H, Ex.sq_computes, ⟨rfl, rfl⟩, Ex.kern_qr, Ex.realKer_lin, rfl, rfl, h1, h2, h3, ?_, ?_, ?_, ?_, (0 : Fin 1), ?_⟩
  · rw [h5]
    show Poised (zMat (1 + 1) (frameOf 1 1 _).pts)
    unfold frameOf
    rw [Ex.two_pts]
    exact two_poised _ _ hab
  · rw [h6, h5]
    show poisOf Ex.kern 1 _ = _
    rw [Ex.two_pois _ _ hab]
    norm_num [Ex.sqOrc]
  · intro i
    rw [h7 i, abs_zero]
    rfl
  · intro r
    rcases r with r | r <;> exact r.elim0
  · rw [h4]
    unfold trueLag
    simp [Ex.sqProb, Ex.sqEnv, vec]
    norm_num

/-- The hypotheses of `C74_linear` are met, and its bound is attained up to `tol_grad`. -/
example : ∃ t : MSt ℝ (List (List ℝ)), t.x = [1 / 2000] ∧
    ∀ i, |trueLag Ex.sqProb (vec 1 t.x) (vec 1 Ex.sqEnv.lb) (vec 1 Ex.sqEnv.ub) 0 0 i| ≤ 1 / 10 ^ 5 + 1 / 2 * (1 / 10 ^ 3) * 2 := by
  obtain ⟨s0, t, H, h0, h1, h2, h3, h4, h5, h6, h7⟩ := Ex.sq_run
  have hab : (1 / 2000 : ℝ) ≠ -1 / 2000 := by norm_num
  refine ⟨t, h4, fun i => ?_⟩
  have := (C74_linear (m := 0) (p := Ex.sqProb) (k := Ex.kern) (lmB := 0) (lmE := 0) H (fun h => absurd h (lt_irrefl _)) Ex.sq_computes ⟨rfl, rfl⟩ Ex.kern_qr Ex.realKer_lin le_rfl
    rfl rfl h0 h1 h2 h3 (by
      rw [h5]
      show Poised (zMat (1 + 1) (frameOf 1 1 _).pts)
      unfold frameOf
      rw [Ex.two_pts]
      exact two_poised _ _ hab) (by
      rw [h6, h5]
      show poisOf Ex.kern 1 _ = _
      rw [Ex.two_pois _ _ hab]
      norm_num [Ex.sqOrc]) (fun i => by rw [h7 i, abs_zero]; rfl) (fun r => by rcases r with r | r <;> exact r.elim0)).1 i
  refine le_trans this (le_of_eq ?_)
  simp [Ex.sqEnv, Ex.sqProb]

/-- The hypotheses of `C74_subbasis_partial` are met by the same run. -/
example : ∃ t : MSt ℝ (List (List ℝ)), t.x = [1 / 2000] ∧
    ∀ i, |trueLag Ex.sqProb (vec 1 t.x) (vec 1 Ex.sqEnv.lb) (vec 1 Ex.sqEnv.ub) 0 0 i| ≤
      1 / 10 ^ 5 + (t.set.Y.length - 1 : ℕ) / 2 *
        max (1 / 10 ^ 3 / 10 ^ 6) ((1 / 10 ^ 3 + 1 / 10 ^ 3 / 10 ^ 12) / (1 - 1 / 10 ^ 3)) * 2 := by
  obtain ⟨s0, t, H, h0, h1, h2, h3, h4, h5, h6, h7⟩ := Ex.sq_run
  have hab : (1 / 2000 : ℝ) ≠ -1 / 2000 := by norm_num
  refine ⟨t, h4, fun i => ?_⟩
  have := (C74_subbasis_partial (m := 0) (p := Ex.sqProb) (k := Ex.kern) (lmB := 0) (lmE := 0) (lam := 1) (r := 1 / 10 ^ 3) H
    (fun h => absurd h (lt_irrefl _)) Ex.sq_computes ⟨rfl, rfl⟩ Ex.kern_qr (Ex.realKer_good (ι := Fin 1)) le_rfl rfl h0 h1 h2 h3 (by
      rw [h5]
      show Poised (zMat (1 + 1) (frameOf 1 1 _).pts)
      unfold frameOf
      rw [Ex.two_pts]
      exact two_poised _ _ hab) (by
      rw [h5]
      intro j _ L g H _ _ hH hg
      exact Ex.two_hard _ L g H hH hg) (by norm_num [Ex.sqOrc]) (by
      rw [h6, h5]
      show poisOf Ex.kern 1 _ = _
      rw [Ex.two_pois _ _ hab]
      norm_num) (fun i => by rw [h7 i, abs_zero]; rfl) (fun r => by rcases r with r | r <;> exact r.elim0)).1 i
  refine le_trans this (le_of_eq ?_)
  simp [Ex.sqEnv, Ex.sqProb]

#print axioms C74_linear
#print axioms C74_subbasis_partial
#print axioms C74_tolerance_false

end Sqpdfo
