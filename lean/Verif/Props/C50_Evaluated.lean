import Verif.Lemmas.MainLog
import Verif.Lemmas.MainStart
import Verif.Lemmas.MainExample
import Verif.Props.C04_C05_Bounds
import Verif.Props.C44_C67_SolveTR
import Verif.Props.C71_Linear

/-! # C50: the points at which the user's functions are evaluated -/

set_option linter.unusedSectionVars false

namespace Sqpdfo
open Spec
variable {K F : Type} [Field K] [LinearOrder K] [IsStrictOrderedRing K]

/-- The point `y` has the right length and violates no bound by more than `θ`. -/
def Spec.InBounds (θ : K) (lb ub y : List K) : Prop :=
  y.length = lb.length ∧ ∀ (i : ℕ) (a b t : K), lb[i]? = some a → ub[i]? = some b → y[i]? = some t →
    a - θ ≤ t ∧ t ≤ b + θ

/-- The point `y` violates a bound by more than `θ`. -/
def Spec.Violates (θ : K) (lb ub y : List K) : Prop :=
  ∃ (i : ℕ) (a b t : K), lb[i]? = some a ∧ ub[i]? = some b ∧ y[i]? = some t ∧ (t < a - θ ∨ b + θ < t)

/-- All points at which the objective or the constraints were evaluated violate no bound by more than `θ`. -/
def Spec.AllInBounds (θ : K) (lb ub : List K) (w : World (List K)) : Prop :=
  ∀ y, y ∈ w.logF ∨ y ∈ w.logC → InBounds θ lb ub y

/-- `R` relates the current state and the kernel results of each pass at the time the step is
computed. -/
def Spec.TrialsBy (e : Env K F) (R : MSt K F → Orc K F → Prop) : List (Orc K F) → MSt K F → Prop
  | [], _ => True
  | o :: os, s => (∀ v, beforeStep e o s = .cont v → R v o) ∧ ∀ t, pass e o s = .cont t → TrialsBy e R os t

/-- The trial point is a result of the step solver (with the threshold `1e-8` of the code, for the current
iterate and the bounds of the problem) with any Hessian, gradient, constraints, radius and kernels. -/
inductive Spec.FromSolver (e : Env K F) (v : MSt K F) (o : Orc K F) : Prop where
  | constrained {n m q : ℕ} (k : STKer K n m q) (I : STIn K n m q) (r : STOut K n m q)
      (h0 : k.bc.sq 0 = 0) (hsq : ∀ a, 0 ≤ a → 0 ≤ k.bc.sq a ∧ a ≤ k.bc.sq a * k.bc.sq a)
      (hthr : I.thr = 1 / 10 ^ 8) (hsl : ∀ j, I.lb (.inr j) ≤ I.ub (.inr j))
      (hx : v.x = List.ofFn I.x) (hlb : e.lb = List.ofFn fun i => I.lb (.inl i))
      (hub : e.ub = List.ofFn fun i => I.ub (.inl i))
      (h : solveTR k I = some r) (hnew : o.xnew = List.ofFn r.xnew)
  | unconstrained {n : ℕ} (k : BCKer K n) (x lb ub g y : Fin n → K) (M : Matrix (Fin n) (Fin n) K) (δ : K)
      (a : Bool) (hx : v.x = List.ofFn x) (hlb : e.lb = List.ofFn lb) (hub : e.ub = List.ofFn ub)
      (h : solveTR0 k x lb ub g M δ = some (y, a)) (hnew : o.xnew = List.ofFn y)

theorem inBounds_ofFn {n : ℕ} {θ : K} {lb ub y : Fin n → K} :
    InBounds θ (List.ofFn lb) (List.ofFn ub) (List.ofFn y) ↔ Near θ lb ub y := by
  constructor
  · rintro ⟨-, h⟩ i
    exact h i _ _ _ (by simp) (by simp) (by simp)
  · refine fun h => ⟨by simp, fun i a b t ha hb ht => ?_⟩
    rw [List.getElem?_ofFn] at ha hb ht
    split at ha
    · rename_i hi
      rw [dif_pos hi] at hb ht
      cases ha; cases hb; cases ht
      exact h ⟨i, hi⟩
    · cases ha

theorem Spec.InBounds.mono {θ θ' : K} {lb ub y : List K} (h : InBounds θ lb ub y) (hθ : θ ≤ θ') :
    InBounds θ' lb ub y :=
  ⟨h.1, fun i a b t ha hb ht => ⟨by linarith [(h.2 i a b t ha hb ht).1],
    by linarith [(h.2 i a b t ha hb ht).2]⟩⟩

theorem inBounds_or_violates (θ : K) (lb ub y : List K) (hl : y.length = lb.length) :
    InBounds θ lb ub y ∨ Violates θ lb ub y := by
  by_cases h : Violates θ lb ub y
  · exact Or.inr h
  · refine Or.inl ⟨hl, fun i a b t ha hb ht => ⟨?_, ?_⟩⟩
    · by_contra hc
      exact h ⟨i, a, b, t, ha, hb, ht, Or.inl (not_le.1 hc)⟩
    · by_contra hc
      exact h ⟨i, a, b, t, ha, hb, ht, Or.inr (not_le.1 hc)⟩

theorem insideBy_inBounds {vs : List (Var K)} {y : List K} (h : InsideBy 0 vs y) :
    InBounds 0 (vs.map (·.lb)) (vs.map (·.ub)) y := by
  rw [InsideBy, List.forall₂_iff_get] at h
  refine ⟨by simp [h.1], fun i a b t ha hb ht => ?_⟩
  obtain ⟨hi, rfl⟩ := List.getElem?_eq_some_iff.1 ht
  have hv : i < vs.length := h.1 ▸ hi
  rw [List.getElem?_map, List.getElem?_eq_getElem hv] at ha hb
  simp only [Option.map_some, Option.some.injEq] at ha hb
  subst ha; subst hb
  have := h.2 i hv hi
  simp only [List.get_eq_getElem] at this
  exact ⟨by linarith [this.1], by linarith [this.2]⟩

/-! ### Initial points -/

theorem samplePass_grew {P : Type} (U : User P K) : ∀ (ys : List P) (i : ℕ) (s s' : EvSt P K),
    (samplePass U ys i s).st? = some s' → ∃ l, Grew s.w s'.w l ∧ ∀ y ∈ l, y ∈ ys := by
  intro ys
  induction ys with
  | nil => intro i s s' h; simp [samplePass, SampleRes.st?] at h; subst h; exact ⟨[], Grew.refl _, by simp⟩
  | cons y ys ih =>
    intro i s s' h
    simp only [samplePass] at h
    split at h
    · simp [SampleRes.st?] at h
    · rename_i t ht
      have hg := augmX_grew U _ y i s t ht
      split at h
      · simp only [SampleRes.st?, Option.some.injEq] at h; subst h
        exact ⟨[y], hg, by simp⟩
      · split at h
        · simp [SampleRes.st?] at h
        · split at h
          · simp only [SampleRes.st?, Option.some.injEq] at h; subst h
            exact ⟨[y], hg, by simp⟩
          · obtain ⟨l, h1, h2⟩ := ih _ _ _ h
            refine ⟨[y] ++ l, hg.trans h1, fun z hz => ?_⟩
            rcases List.mem_append.1 hz with hz | hz
            · simp only [List.mem_singleton] at hz; simp [hz]
            · simp [h2 z hz]

theorem insideBy_anti {vs : List (Var K)} {y : List K} {D D' : K} (h : InsideBy D vs y) (hD : D' ≤ D) :
    InsideBy D' vs y :=
  List.Forall₂.imp (fun v t ht => ⟨by linarith [ht.1], by linarith [ht.2]⟩) h

theorem initLoop_grew (U : User (List K) K) (x0 : List K) (nx : K) (vs : List (Var K)) :
    ∀ (N : ℕ) (Δ : K) (s s' : EvSt (List K) K), 0 ≤ Δ → InsideBy Δ vs x0 →
      (initLoop U x0 nx N Δ s).st? = some s' → ∃ l, Grew s.w s'.w l ∧ ∀ y ∈ l, InsideBy 0 vs y := by
  intro N
  induction N with
  | zero => intro Δ s s' _ _ h; simp [initLoop, InitRes.st?] at h
  | succ N ih =>
    intro Δ s s' hΔ hin h
    have hc := samplePass_grew U (simplex x0 Δ) 0 ({ s with X := [], fX := [], ceX := [] } : EvSt (List K) K)
    have hs := simplex_inside hΔ hin
    simp only [initLoop] at h
    cases hp : samplePass U (simplex x0 Δ) 0
        ({ s with X := [], fX := [], ceX := [] } : EvSt (List K) K) with
    | crash => rw [hp] at h; simp [InitRes.st?] at h
    | failed t =>
      rw [hp] at h
      simp only [InitRes.st?, Option.some.injEq] at h; subst h
      obtain ⟨l, h1, h2⟩ := hc t (by rw [hp]; rfl)
      exact ⟨l, h1, fun y hy => hs y (h2 y hy)⟩
    | full t =>
      rw [hp] at h
      obtain ⟨l, h1, h2⟩ := hc t (by rw [hp]; rfl)
      simp only at h
      split at h
      · simp [InitRes.st?] at h
      · split at h
        · simp [InitRes.st?] at h
        · simp only [InitRes.st?, Option.some.injEq] at h; subst h
          exact ⟨l, h1, fun y hy => hs y (h2 y hy)⟩
    | broke t =>
      rw [hp] at h
      obtain ⟨l, h1, h2⟩ := hc t (by rw [hp]; rfl)
      simp only at h
      split at h
      · simp [InitRes.st?] at h
      · split at h
        · simp [InitRes.st?] at h
        · split at h
          · simp only [InitRes.st?, Option.some.injEq] at h; subst h
            exact ⟨l, h1, fun y hy => hs y (h2 y hy)⟩
          · obtain ⟨l', g1, g2⟩ := ih _ _ _ (by linarith) (insideBy_anti hin (by linarith)) h
            refine ⟨l ++ l', Grew.trans (w' := t.w) h1 g1, fun y hy => ?_⟩
            rcases List.mem_append.1 hy with hy | hy
            · exact hs y (h2 y hy)
            · exact g2 y hy

/-- C50, initial points: if all `lb < ub`, every point at which a function is evaluated by the initial sampling,
repeated with smaller radii or not and whatever its outcome, satisfies the bounds. -/
theorem C50_initial (U : User (List K) K) (nx : K) (vs : List (Var K)) (h : ∀ v ∈ vs, v.lb < v.ub)
    (D : K) (ys : List (K × Bool)) (hc : checkBounds vs = .ok D ys) (N : ℕ) (s : EvSt (List K) K)
    (hs : (initLoop U (ys.map (·.1)) nx N D emptyEv).st? = some s) :
    AllInBounds 0 (vs.map (·.lb)) (vs.map (·.ub)) s.w := by
  obtain ⟨D', ys', e, d0, -, din, -⟩ := C04_initial_points vs h
  rw [hc] at e
  cases e
  obtain ⟨l, h1, h2⟩ := initLoop_grew U _ nx vs N D emptyEv s d0.le din hs
  rintro y (hy | hy)
  · rw [h1.logF] at hy
    simp only [emptyEv, List.nil_append] at hy
    exact insideBy_inBounds (h2 y hy)
  · rcases h1.logC y hy with hy | hy
    · simp [emptyEv] at hy
    · exact insideBy_inBounds (h2 y hy)

/-! ### Trial points -/

theorem solveTR0_near {n : ℕ} (k : BCKer K n) (x lb ub g y : Fin n → K) (M : Matrix (Fin n) (Fin n) K) (δ : K)
    (a : Bool) (h : solveTR0 k x lb ub g M δ = some (y, a)) (hb : ∀ i, lb i ≤ ub i) {θ : K} (hθ : 0 ≤ θ)
    (hx : Near θ lb ub x) : Near θ lb ub y := by
  obtain ⟨o, ho, hs, _⟩ := C43_components k
    ⟨g, M, fun i => lb i - x i, fun i => ub i - x i, δ, 1 / 10 ^ 7⟩ (fun i => by simpa using hb i)
  unfold solveTR0 at h
  rw [ho] at h
  simp only [Option.some.injEq, Prod.mk.injEq] at h
  obtain ⟨rfl, -⟩ := h
  intro i
  have h1 := hx i
  rw [Pi.add_apply]
  rcases hs i with h2 | ⟨h2, h3⟩
  · rw [h2]; exact ⟨by linarith [h1.1], by linarith [h1.2]⟩
  · simp only at h2 h3
    exact ⟨by linarith, by linarith⟩

theorem fromSolver_inBounds (e : Env K F) (v : MSt K F) (o : Orc K F)
    (hgap : ∀ (i : ℕ) (a b : K), e.lb[i]? = some a → e.ub[i]? = some b → a + 9 / 10 ^ 8 ≤ b)
    {θ : K} (hθ : 1 / 10 ^ 8 ≤ θ) (hx : InBounds θ e.lb e.ub v.x) (h : FromSolver e v o) :
    InBounds (θ + 1 / 10 ^ 16) e.lb e.ub o.xnew := by
  have h8 : (0 : K) < 1 / 10 ^ 8 := by positivity
  have h9 : (0 : K) < 9 / 10 ^ 8 := by positivity
  have h16 : (0 : K) < 1 / 10 ^ 16 := by positivity
  cases h with
  | constrained k I r h0 hsq hthr hsl hx' hlb hub h hnew =>
    rw [hx', hlb, hub, inBounds_ofFn] at hx
    rw [hnew, hlb, hub, inBounds_ofFn]
    have hg : ∀ i, I.lb (.inl i) + 9 / 10 ^ 8 ≤ I.ub (.inl i) := fun i =>
      hgap i _ _ (by rw [hlb]; simp) (by rw [hub]; simp)
    obtain ⟨r', a, -, c⟩ := C44_near k I h0 hsq
      (fun v => by
        rcases v with i | j
        · linarith [hg i]
        · exact hsl j)
      (fun i => le_trans (by rw [hthr]; norm_num) (hg i)) (h8.le.trans hθ) hx
    rw [h] at a; cases a
    rwa [hthr, max_eq_right (by linarith)] at c
  | unconstrained k x lb ub g y M δ a hx' hlb hub h hnew =>
    rw [hx', hlb, hub, inBounds_ofFn] at hx
    rw [hnew, hlb, hub]
    refine Spec.InBounds.mono (θ := θ) (inBounds_ofFn.2 ?_) (by linarith)
    have hg : ∀ i, lb i + 9 / 10 ^ 8 ≤ ub i := fun i =>
      hgap i _ _ (by rw [hlb]; simp) (by rw [hub]; simp)
    exact solveTR0_near k x lb ub g y M δ a h (fun i => by linarith [hg i]) (h8.le.trans hθ) hx

/-- An improvement point proposed in one of the passes was evaluated and violates a bound by more than
`1e-8`. -/
def Spec.ImprovedOutside (e : Env K F) (os : List (Orc K F)) (w : World (List K)) : Prop :=
  ∃ o ∈ os, ∃ y ∈ w.logF, o.Proposed y ∧ Violates (1 / 10 ^ 8) e.lb e.ub y

theorem AllInBounds.grew {θ θ' : K} {lb ub : List K} {w w' : World (List K)} {l : List (List K)}
    (h : AllInBounds θ lb ub w) (hθ : θ ≤ θ') (hg : Grew w w' l) (hl : ∀ y ∈ l, InBounds θ' lb ub y) :
    AllInBounds θ' lb ub w' := by
  rintro y (hy | hy)
  · rw [hg.logF] at hy
    rcases List.mem_append.1 hy with hy | hy
    · exact (h y (Or.inl hy)).mono hθ
    · exact hl y hy
  · rcases hg.logC y hy with hy | hy
    · exact (h y (Or.inr hy)).mono hθ
    · exact hl y hy

theorem improved_inBounds (e : Env K F) (o : Orc K F) {s t : MSt K F} (h : ImprovedBy o s t)
    (hlen : ∀ y, o.Proposed y → y.length = e.lb.length) {θ : K} (hθ : 1 / 10 ^ 8 ≤ θ)
    (hs : AllInBounds θ e.lb e.ub s.ev.w) :
    AllInBounds θ e.lb e.ub t.ev.w ∨ ImprovedOutside e [o] t.ev.w := by
  obtain ⟨l, h1, h2⟩ := h
  by_cases hv : ∃ y ∈ l, Violates (1 / 10 ^ 8) e.lb e.ub y
  · obtain ⟨y, hy, hv⟩ := hv
    exact Or.inr ⟨o, by simp, y, by rw [h1.logF]; exact List.mem_append_right _ hy, h2 y hy, hv⟩
  · refine Or.inl (AllInBounds.grew hs le_rfl h1 fun y hy => ?_)
    rcases inBounds_or_violates (1 / 10 ^ 8) e.lb e.ub y (hlen y (h2 y hy)) with h | h
    · exact h.mono hθ
    · exact absurd ⟨y, hy, h⟩ hv

/-- One pass: only points of the box are added, or an improvement point outside. -/
theorem pass_inBounds (e : Env K F) (he : e.Ok) (o : Orc K F) (s : MSt K F) (hI : Inv e [] s)
    (hgap : ∀ (i : ℕ) (a b : K), e.lb[i]? = some a → e.ub[i]? = some b → a + 9 / 10 ^ 8 ≤ b)
    (hlen : ∀ y, o.Proposed y → y.length = e.lb.length)
    (htr : ∀ v, beforeStep e o s = .cont v → FromSolver e v o)
    {θ : K} (hθ : 1 / 10 ^ 8 ≤ θ) (hs : AllInBounds θ e.lb e.ub s.ev.w) :
    (pass e o s).Sat
      (fun t => AllInBounds (θ + 1 / 10 ^ 16) e.lb e.ub t.ev.w ∨ ImprovedOutside e [o] t.ev.w)
      (fun t => AllInBounds (θ + 1 / 10 ^ 16) e.lb e.ub t.ev.w ∨ ImprovedOutside e [o] t.ev.w)
      (fun _ => True) := by
  have h16 : (0 : K) < 1 / 10 ^ 16 := by positivity
  have up : ∀ {w : World (List K)}, AllInBounds θ e.lb e.ub w → AllInBounds (θ + 1 / 10 ^ 16) e.lb e.ub w :=
    fun h y hy => (h y hy).mono (by linarith)
  rw [pass_eq]
  have hb := beforeStep_grew e o s
  have hi := beforeStep_inv e he o s hI
  cases hr : beforeStep e o s with
  | crash c => trivial
  | ret t =>
    rw [hr] at hb
    rcases improved_inBounds e o hb hlen hθ hs with h | h
    · exact Or.inl (up h)
    · exact Or.inr h
  | cont v =>
    rw [hr] at hb hi
    have hi : Inv e [] v := hi
    have hst := stepStage_grew e o v
    show (stepStage e o v).Sat _ _ _
    have mono : ∀ {t : MSt K F}, (∃ l, Grew v.ev.w t.ev.w l ∧ ∀ y ∈ l, y = o.xnew) →
        AllInBounds (θ + 1 / 10 ^ 16) e.lb e.ub t.ev.w ∨ ImprovedOutside e [o] t.ev.w := by
      rintro t ⟨l, h1, h2⟩
      rcases improved_inBounds e o hb hlen hθ hs with h | ⟨o', h3, y, h4, h5⟩
      · have hx := h v.x (Or.inl (hi.toCore.x_mem (by simp)))
        have hn := fromSolver_inBounds e v o hgap hθ hx (htr v hr)
        exact Or.inl (AllInBounds.grew h (by linarith) h1 fun y hy => by rw [h2 y hy]; exact hn)
      · exact Or.inr ⟨o', h3, y, by rw [h1.logF]; exact List.mem_append_left _ h4, h5⟩
    refine hst.mono (fun t h => mono ⟨_, h, by simp⟩) (fun t h => ?_) (fun _ h => h)
    rcases h with h | h
    · exact mono ⟨[], by rw [show t.ev.w = v.ev.w from h]; exact Grew.refl _, by simp⟩
    · exact mono ⟨_, h, by simp⟩

theorem pass_logF (e : Env K F) (o : Orc K F) (s : MSt K F) :
    (pass e o s).Sat (fun t => ∀ y ∈ s.ev.w.logF, y ∈ t.ev.w.logF)
      (fun t => ∀ y ∈ s.ev.w.logF, y ∈ t.ev.w.logF) (fun _ => True) := by
  rw [pass_eq]
  have key : ∀ {w w' : World (List K)} {l}, Grew w w' l → ∀ y ∈ w.logF, y ∈ w'.logF :=
    fun h y hy => by rw [h.logF]; exact List.mem_append_left _ hy
  refine PassRes.Sat.bind (Q := fun t => ∀ y ∈ s.ev.w.logF, y ∈ t.ev.w.logF)
    ((beforeStep_grew e o s).mono (fun t ⟨l, h, _⟩ => key h) (fun t ⟨l, h, _⟩ => key h) (fun _ h => h)) ?_
  intro t ht
  refine (stepStage_grew e o t).mono (fun u h y hy => key h y (ht y hy)) ?_ (fun _ h => h)
  rintro u (h | h) y hy
  · rw [show u.ev.w = t.ev.w from h]; exact ht y hy
  · exact key h y (ht y hy)

theorem mainLoop_inBounds (e : Env K F) (he : e.Ok)
    (hgap : ∀ (i : ℕ) (a b : K), e.lb[i]? = some a → e.ub[i]? = some b → a + 9 / 10 ^ 8 ≤ b) :
    ∀ (os : List (Orc K F)) (s : MSt K F) (θ : K), Inv e [] s →
      (∀ o ∈ os, ∀ y, o.Proposed y → y.length = e.lb.length) → TrialsBy e (FromSolver e) os s →
      1 / 10 ^ 8 ≤ θ → AllInBounds θ e.lb e.ub s.ev.w →
      (mainLoop e os s).Sat
        (fun t => AllInBounds (θ + (os.length : K) / 10 ^ 16) e.lb e.ub t.ev.w ∨ ImprovedOutside e os t.ev.w)
        (fun t => AllInBounds (θ + (os.length : K) / 10 ^ 16) e.lb e.ub t.ev.w ∨ ImprovedOutside e os t.ev.w)
        (fun _ => True) := by
  intro os
  induction os with
  | nil => intro s θ _ _ _ _ h; left; simpa using h
  | cons o os ih =>
    intro s θ hI hlen htr hθ hs
    have hp := pass_inBounds e he o s hI hgap (hlen o (by simp)) htr.1 hθ hs
    have hi := pass_sat e he o s hI
    have h16 : (0 : K) < 1 / 10 ^ 16 := by positivity
    have hadd : θ + 1 / 10 ^ 16 + (os.length : K) / 10 ^ 16 = θ + ((o :: os).length : ℕ) / 10 ^ 16 := by
      rw [List.length_cons]; push_cast; ring
    have hle : θ + 1 / 10 ^ 16 ≤ θ + ((o :: os).length : ℕ) / 10 ^ 16 := by
      rw [← hadd]; have : (0 : K) ≤ (os.length : K) / 10 ^ 16 := by positivity
      linarith
    have wide : ∀ {l : List (Orc K F)} {w : World (List K)}, (∀ a ∈ l, a ∈ o :: os) →
        ImprovedOutside e l w → ImprovedOutside e (o :: os) w :=
      fun hl ⟨a, h1, h2⟩ => ⟨a, hl a h1, h2⟩
    simp only [mainLoop]
    cases hr : pass e o s with
    | crash c => trivial
    | ret t =>
      rw [hr] at hp
      rcases hp with h | h
      · exact Or.inl fun y hy => (h y hy).mono hle
      · exact Or.inr (wide (by simp) h)
    | cont t =>
      rw [hr] at hp hi
      rcases hp with h | ⟨o', g1, y, g2, g3⟩
      · have := ih t (θ + 1 / 10 ^ 16) hi.1 (fun a ha => hlen a (by simp [ha])) (htr.2 t hr)
          (by linarith) h
        rw [hadd] at this
        show MainRes.Sat (mainLoop e os t) _ _ _
        revert this
        cases mainLoop e os t with
        | crash c => exact fun h => h
        | done u => exact fun h => h.imp_right (wide fun a ha => by simp [ha])
        | running u => exact fun h => h.imp_right (wide fun a ha => by simp [ha])
      · have hlog := mainLoop_induct e (fun u => y ∈ u.ev.w.logF) (fun u => y ∈ u.ev.w.logF)
          (fun _ => True) (fun a u hu => (pass_logF e a u).mono (fun v hv => hv y hu)
            (fun v hv => hv y hu) (fun _ h => h)) os t g2
        show MainRes.Sat (mainLoop e os t) _ _ _
        revert hlog
        cases mainLoop e os t with
        | crash c => exact fun h => h
        | done u => exact fun h => Or.inr ⟨o', by simp at g1; simp [g1], y, h, g3⟩
        | running u => exact fun h => Or.inr ⟨o', by simp at g1; simp [g1], y, h, g3⟩

/-- C50, the part that holds.  Bounds at least `9e-8` apart; trial points are results of the step solver.  Then
after any number of passes, finished or not, all points at which the objective or the constraints were
evaluated satisfy the bounds up to `1e-8` plus `1e-16` per pass, unless a point of the geometry improvement
was evaluated which violates a bound by more than `1e-8`.  Missing: the improvement points
(`C50_false`), the term `1e-16` per pass, and points evaluated in a pass that raises an exception. -/
theorem C50_partial (e : Env K F) (he : e.Ok) (hC : e.Constr) (vs : List (Var K)) (hn : vs.length = e.n)
    (hlb : e.lb = vs.map (·.lb)) (hub : e.ub = vs.map (·.ub)) (hgap : ∀ v ∈ vs, v.lb + 9 / 10 ^ 8 ≤ v.ub)
    (D : K) (ys : List (K × Bool)) (hc : checkBounds vs = .ok D ys) (fuel : ℕ) (sl : List K) (s : MSt K F)
    (hs : startState e (ys.map (·.1)) fuel D sl = some s) (os : List (Orc K F))
    (hlen : ∀ o ∈ os, ∀ y, o.Proposed y → y.length = e.n) (htr : TrialsBy e (FromSolver e) os s) :
    (mainLoop e os s).Sat
      (fun t => AllInBounds (1 / 10 ^ 8 + (os.length : K) / 10 ^ 16) e.lb e.ub t.ev.w ∨ ImprovedOutside e os t.ev.w)
      (fun t => AllInBounds (1 / 10 ^ 8 + (os.length : K) / 10 ^ 16) e.lb e.ub t.ev.w ∨ ImprovedOutside e os t.ev.w)
      (fun _ => True) := by
  have h9 : (0 : K) < 9 / 10 ^ 8 := by positivity
  have hlt : ∀ v ∈ vs, v.lb < v.ub := fun v hv => by linarith [hgap v hv]
  obtain ⟨D', ys', e', d0, -, din, -⟩ := C04_initial_points vs hlt
  rw [hc] at e'
  cases e'
  have hl : (ys.map (·.1)).length = e.n := by rw [← hn, ← din.length_eq]
  have hst := startState_ok e hC _ hl fuel D d0 sl s hs
  have hin : AllInBounds 0 e.lb e.ub s.ev.w := by
    unfold startState at hs
    cases hi : initLoop e.U (ys.map (·.1)) (e.nrm (ys.map (·.1))) fuel D emptyEv with
    | done Δ ev =>
      rw [hi] at hs
      have h0 := C50_initial e.U _ vs hlt D ys hc fuel ev (by rw [hi]; rfl)
      rw [← hlb, ← hub] at h0
      simp only [mainInit] at hs
      split at hs
      · split at hs
        · cases hs
        · simp only [Option.some.injEq] at hs
          subst hs
          exact h0
      · cases hs
    | crash => rw [hi] at hs; cases hs
    | failed t => rw [hi] at hs; cases hs
    | stalled t => rw [hi] at hs; cases hs
    | running => rw [hi] at hs; cases hs
  refine mainLoop_inBounds e he ?_ os s _ hst.inv ?_ htr le_rfl
    (fun y hy => (hin y hy).mono (by positivity))
  · intro i a b ha hb
    rw [hlb, List.getElem?_map] at ha
    rw [hub, List.getElem?_map] at hb
    cases hv : vs[i]? with
    | none => rw [hv] at ha; cases ha
    | some v =>
      rw [hv] at ha hb
      cases ha; cases hb
      exact hgap v (List.mem_of_getElem? hv)
  · intro o ho y hy
    rw [hlen o ho y hy, hlb, List.length_map, hn]

/-! ### Improvement points -/

/-- The states and kernel results with which a step is computed, pass by pass. -/
def visits (e : Env K F) : List (Orc K F) → MSt K F → List (MSt K F × Orc K F)
  | [], _ => []
  | o :: os, s =>
    (match beforeStep e o s with
      | .cont v => [(v, o)]
      | _ => []) ++
    match pass e o s with
      | .cont t => visits e os t
      | _ => []

theorem trialsBy_of_visits (e : Env K F) (R : MSt K F → Orc K F → Prop) : ∀ (os : List (Orc K F)) (s : MSt K F),
    (∀ p ∈ visits e os s, R p.1 p.2) → TrialsBy e R os s := by
  intro os
  induction os with
  | nil => intro s _; trivial
  | cons o os ih =>
    intro s h
    refine ⟨fun v hv => ?_, fun t ht => ih t fun p hp => ?_⟩
    · exact h (v, o) (by simp [visits, hv])
    · exact h p (by simp [visits, ht, hp])

namespace Ex

/-- One variable with the bounds `[-2, 3/2]`, objective `-x`. -/
def boxEnv : Env ℚ Unit := { Ex.env Ex.down .pinf .pinf with lb := [-2], ub := [3 / 2] }

/-- The start point `1/2`. -/
def boxVars : List (Var ℚ) := [⟨-2, 3 / 2, 1 / 2⟩]

/-- The improvement procedure for one variable and radius `1e-5` (`C71_two_points`). -/
def boxPropose (Y : List (List ℚ)) (j : ℕ) : List ℚ × ℚ :=
  match Y with
  | [[a], [b]] => if j < 1 then ([0], 0) else ([(linProp (1 / 10 ^ 5) a b).1], (linProp (1 / 10 ^ 5) a b).2)
  | _ => ([0], 0)

/-- Trial point `3/2`, norm of the gradient of the Lagrangian `g`, predicted reduction `p`. -/
def boxOrc (g p : ℚ) : Orc ℚ Unit := { Ex.orc [3 / 2] p with
  k1 := ⟨false, g, 0, 0⟩
  k2 := ⟨false, g, 0, 0⟩
  propose := fun _ Y j => boxPropose Y j
  poisedness := fun _ Y =>
    match Y with
    | [[a], [b]] => (1, |b - a|)
    | _ => (0, 0) }

/-- Two passes: a step to the upper bound, where the tolerances are met (with a multiplier of the bound). -/
def boxRun : List (Orc ℚ Unit) := [boxOrc 1 1, boxOrc 0 0]

/-- Kernels for one variable and linear models. -/
def linBC : BCKer ℚ 1 where
  ms := fun fr h => { (Ex.diagBC (n := 1)).ms fr h with hb := fun _ => 0 }
  sq := Ex.sqDown
  hb := fun _ => 0

theorem boxEnv_ok : boxEnv.Ok := ⟨nrm1_nonneg, descOrder_sorted⟩

theorem boxEnv_constr : boxEnv.Constr := ⟨fun _ => rfl, fun _ h => by cases h⟩

theorem boxOrc_len (g p : ℚ) (y : List ℚ) (h : (boxOrc g p).Proposed y) : y.length = 1 := by
  obtain ⟨fac, Y, j, rfl⟩ := h
  show (boxPropose Y j).1.length = 1
  unfold boxPropose
  split
  · split <;> rfl
  · rfl

theorem box_step : ∃ a, solveTR0 linBC ![1 / 2] ![-2] ![3 / 2] ![-1] 0 1 = some (![3 / 2], a) := by
  have h : (solveTR0 linBC ![1 / 2] ![-2] ![3 / 2] ![-1] 0 1).map (fun p => p.1 0) = some (3 / 2) := by
    decide +kernel
  cases hs : solveTR0 linBC ![1 / 2] ![-2] ![3 / 2] ![-1] 0 1 with
  | none => rw [hs] at h; cases h
  | some p =>
    rw [hs] at h
    refine ⟨p.2, ?_⟩
    have h : p.1 0 = 3 / 2 := Option.some.inj h
    rw [← h]
    congr 1
    refine Prod.ext ?_ rfl
    funext i
    rw [Subsingleton.elim i 0]; rfl

/-- What is logged. -/
def boxLog (s : MSt ℚ Unit) : Option (List (List ℚ) × ℕ) :=
  match mainLoop boxEnv boxRun s with
  | .done t => some (t.ev.w.logF, t.ev.flag)
  | _ => none

end Ex

/-- C50 is false for improvement points.  The bounds are `[-2, 3/2]`, the start point is `1/2`, the objective `-x`.
All hypotheses of `C50_partial` hold (the trial point is the one of the step solver), and the proposals
are those of `bcdfo_find_new_yj_` (`C71_two_points`).  The run ends with status 0 after evaluating the
objective at `1.50001`. -/
theorem C50_false : ∃ (D : ℚ) (ys : List (ℚ × Bool)) (s t : MSt ℚ Unit),
    checkBounds Ex.boxVars = .ok D ys ∧ Ex.boxEnv.lb = Ex.boxVars.map (·.lb) ∧
    Ex.boxEnv.ub = Ex.boxVars.map (·.ub) ∧ (∀ v ∈ Ex.boxVars, v.lb + 9 / 10 ^ 8 ≤ v.ub) ∧
    startState Ex.boxEnv (ys.map (·.1)) 1 D [] = some s ∧ TrialsBy Ex.boxEnv (FromSolver Ex.boxEnv) Ex.boxRun s ∧
    (∀ o ∈ Ex.boxRun, ∀ y, o.Proposed y → y.length = 1) ∧
    (∀ o ∈ Ex.boxRun, ∀ fac a b, a ≠ b → o.propose fac [[a], [b]] 1 =
      ([(linProp (1 / 10 ^ 5) a b).1], (linProp (1 / 10 ^ 5) a b).2)) ∧
    mainLoop Ex.boxEnv Ex.boxRun s = .done t ∧ t.ev.flag = Status.success ∧
    ∃ y ∈ t.ev.w.logF, Violates (9 / 10 ^ 6) Ex.boxEnv.lb Ex.boxEnv.ub y := by
  have hstart : ∃ s, startState Ex.boxEnv [1 / 2] 1 1 [] = some s := by
    have h : (startState Ex.boxEnv [1 / 2] 1 1 []).isSome = true := by decide +kernel
    exact Option.isSome_iff_exists.1 h
  obtain ⟨s, hs⟩ := hstart
  have hlog : (startState Ex.boxEnv [1 / 2] 1 1 []).bind Ex.boxLog =
      some ([[1 / 2], [-1 / 2], [3 / 2], [150001 / 100000]], 0) := by decide +kernel
  rw [hs] at hlog
  have hlog : Ex.boxLog s = some ([[1 / 2], [-1 / 2], [3 / 2], [150001 / 100000]], 0) := hlog
  have hvis : (startState Ex.boxEnv [1 / 2] 1 1 []).map (fun s =>
      (visits Ex.boxEnv Ex.boxRun s).map fun p => (p.1.x, p.2.xnew)) =
      some [([1 / 2], [3 / 2])] := by decide +kernel
  rw [hs] at hvis
  have hvis : (visits Ex.boxEnv Ex.boxRun s).map (fun p => (p.1.x, p.2.xnew)) = [([1 / 2], [3 / 2])] :=
    Option.some.inj hvis
  cases hm : mainLoop Ex.boxEnv Ex.boxRun s with
  | crash c => unfold Ex.boxLog at hlog; rw [hm] at hlog; cases hlog
  | running t => unfold Ex.boxLog at hlog; rw [hm] at hlog; cases hlog
  | done t =>
    unfold Ex.boxLog at hlog
    rw [hm] at hlog
    simp only [Option.some.injEq, Prod.mk.injEq] at hlog
    refine ⟨1, [(1 / 2, false)], s, t, ?_, rfl, rfl, ?_, hs, ?_, ?_, ?_, hm, hlog.2, [150001 / 100000], ?_, ?_⟩
    · simp [Ex.boxVars, checkBounds, boundsLoop, newDelta, moveInside]; norm_num
    · intro v hv; simp [Ex.boxVars] at hv; rw [hv]; norm_num
    · refine trialsBy_of_visits _ _ _ _ fun p hp => ?_
      have h1 : (p.1.x, p.2.xnew) ∈ (visits Ex.boxEnv Ex.boxRun s).map fun p => (p.1.x, p.2.xnew) :=
        List.mem_map.2 ⟨p, hp, rfl⟩
      rw [hvis, List.mem_singleton, Prod.mk.injEq] at h1
      obtain ⟨a, ha⟩ := Ex.box_step
      exact .unconstrained Ex.linBC ![1 / 2] ![-2] ![3 / 2] ![-1] ![3 / 2] 0 1 a (by rw [h1.1]; rfl) rfl rfl ha
        (by rw [h1.2]; rfl)
    · intro o ho y hy
      simp only [Ex.boxRun, List.mem_cons, List.not_mem_nil, or_false] at ho
      rcases ho with rfl | rfl <;> exact Ex.boxOrc_len _ _ y hy
    · intro o ho fac a b _
      simp only [Ex.boxRun, List.mem_cons, List.not_mem_nil, or_false] at ho
      rcases ho with rfl | rfl <;> rfl
    · rw [hlog.1]; simp
    · exact ⟨0, -2, 3 / 2, 150001 / 100000, rfl, rfl, rfl, Or.inr (by norm_num)⟩

/-- Before the improvement all points of the run are within the bounds, up to and including the upper bound. -/
example : (startState Ex.boxEnv [1 / 2] 1 1 []).map (fun s =>
    match mainLoop Ex.boxEnv (Ex.boxRun.take 1) s with
    | .running t => t.ev.w.logF
    | _ => []) = some [[1 / 2], [-1 / 2], [3 / 2]] := by decide +kernel

/-- Repeated sampling: the first radius gives a value below `-1e25`, the second does not; five evaluations,
all within the bounds. -/
example : (initLoop (K := ℚ) ⟨fun _ x => .num (.fin (if x.sum < -1 / 4 then -10 ^ 26 else x.sum)), none⟩ [1 / 2] (1 / 2) 3 1
    emptyEv).st?.map (fun s => s.w.logF) = some [[1 / 2], [-1 / 2], [1 / 2], [49 / 100]] := by decide +kernel

#print axioms C50_initial
#print axioms C50_partial
#print axioms C50_false

end Sqpdfo
