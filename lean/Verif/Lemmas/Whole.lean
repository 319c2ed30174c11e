import Verif.Spec.Whole
import Verif.Props.C03_C20_C21_C23_Entry
import Verif.Props.C12_C16_Results

/-! # From the set-up to the main loop -/

set_option linter.unusedSectionVars false

namespace Sqpdfo
open Spec
variable {K F : Type} [Field K] [LinearOrder K] [IsStrictOrderedRing K]

/-- What the set-up has done if it hands over to the main part. -/
theorem setup_go (U : User (List K) K) (sqrt : K → K) (nrm : List K → K) (fuel : ℕ) (a : Args K) (g : Globals K)
    (hw : WellFormed a) (i : MainIn K) (h : (setup U sqrt nrm fuel a g).res = .go i) :
    ¬ BadArg a ∧ ¬ BadBounds (boxes a) ∧ validate (userOpts a.opts) = .ok i.opts ∧ boxes a ≠ [] ∧
      ∃ Δ ys, checkBounds (boxes a) = .ok Δ ys ∧ (∀ y ∈ ys, y.2 = false) ∧
        initLoop U (ys.map (·.1)) (nrm (ys.map (·.1))) fuel Δ emptyEv = .done i.Δ i.ev := by
  obtain ⟨hA, hB, -⟩ := C03_bad_arguments_reported U sqrt nrm fuel a g hw
  have hnA : ¬ BadArg a := fun hb => by rw [(hA hb).1] at h; cases h
  have hnB : ¬ BadBounds (boxes a) := fun hb => by rw [(hB hnA hb).1] at h; cases h
  have h1 : a.f ≠ .missing := fun h => hnA (Or.inl h)
  have hf : a.f = .fn := by
    cases h : a.f with
    | missing => exact absurd h h1
    | notFn => exact absurd h hw.f
    | fn => rfl
  have h2 : ¬ (a.c = .missing ∧ 0 < a.me + a.mi) := fun h => hnA (Or.inr (Or.inl h))
  refine ⟨hnA, hnB, ?_⟩
  cases hx : a.x0 with
  | missing => exact absurd (Or.inr (Or.inr (Or.inl hx))) hnA
  | mat r c d =>
    obtain ⟨L, V, e1, e2, g', hca, hLV⟩ := checkArgs_ok hw g hf h2 hx
    have hd := hw.data _ _ _ hx
    have hvec : r * c ≠ 0 ∧ (r = 1 ∨ c = 1) := by
      by_contra hv; exact hnA (Or.inr (Or.inr (Or.inr (Or.inl ⟨r, c, d, hx, hv⟩))))
    obtain ⟨hL, hV, hlL, hlV⟩ := hLV hvec.1 hvec.2
    have hr' : (if r = 1 ∧ c > 1 then c else r) = d.length := by
      rw [hd]
      rcases hvec.2 with rfl | rfl
      · by_cases h : c > 1
        · simp [h]
        · have h0 := hvec.1
          have : c = 1 := by
            have : c ≠ 0 := fun h => h0 (by simp [h])
            omega
          simp [this]
      · simp
    have hc' : (if r = 1 ∧ c > 1 then r else c) = 1 := by
      rcases hvec.2 with rfl | rfl
      · by_cases h : c > 1
        · simp [h]
        · have h0 := hvec.1
          have : c = 1 := by
            have : c ≠ 0 := fun h => h0 (by simp [h])
            omega
          simp [this]
      · simp
    have hdne : d.length ≠ 0 := by rw [hd]; exact hvec.1
    have hbox : boxes a = List.zipWith (fun b x => ⟨b.1, b.2, x⟩) (List.zip L V) d := by
      simp [boxes, hx, hL, hV]
    have hbp := boundsPart_eq d L V e1 e2 hlL hlV
    rw [← hbox] at hbp
    have hne : boxes a ≠ [] := by
      intro h
      have := congrArg List.length h
      rw [hbox] at this
      simp [hlL, hlV] at this
      exact hdne (by simp [this])
    have hlt : ¬ d.length < 1 := by omega
    cases hv : validate a.opts.dict with
    | error e =>
      exfalso
      cases e with
      | rejected o => simp [setup, hca, hv] at h
      | crash o => simp [setup, hca, hv] at h
    | ok o =>
      simp only [setup, hca, hv, hr', hc', hbp, hlt, ne_eq, not_true_eq_false, if_false] at h
      cases hcb' : checkBounds (boxes a) with
      | flag2 => rw [hcb'] at h; cases h
      | ok Δ ys =>
        rw [hcb'] at h
        simp only at h
        split at h
        · cases h
        · rename_i hany
          have hall : ∀ y ∈ ys, y.2 = false := by
            intro y hy
            by_contra hyt
            exact hany (List.any_eq_true.2 ⟨y, hy, by simpa using hyt⟩)
          split at h
          · cases h
          · cases h
          · cases h
          · cases h
          · rename_i D s hs
            have key : i.opts = o ∧ i.Δ = D ∧ i.ev = s := by
              split at h
              · split at h
                · cases h
                · cases h; exact ⟨rfl, rfl, rfl⟩
              · cases h; exact ⟨rfl, rfl, rfl⟩
            obtain ⟨k1, k2, k3⟩ := key
            rw [← dict_eq]
            refine ⟨by rw [k1]; exact hv, hne, Δ, ys, rfl, hall, ?_⟩
            rw [k2, k3]
            exact hs

/-- The bounds of all variables are proper if no variable is marked as fixed. -/
theorem proper_bounds (vs : List (Var K)) (Δ : K) (ys : List (K × Bool)) (h : checkBounds vs = .ok Δ ys)
    (hy : ∀ y ∈ ys, y.2 = false) : ∀ v ∈ vs, v.lb < v.ub := by
  unfold checkBounds at h
  cases hb : boundsLoop vs 1 with
  | none => rw [hb] at h; cases h
  | some p =>
    obtain ⟨D, zs⟩ := p
    rw [hb] at h
    simp only at h
    have hz : zs = ys := by
      split at h
      · split at h
        · cases h
        · cases h; rfl
      · cases h; rfl
    subst hz
    have hm := boundsLoop_marks vs 1 D zs one_pos hb
    have hn : ¬ ∃ v ∈ vs, v.ub < v.lb := by rw [← boundsLoop_none vs 1, hb]; simp
    have hlen := hm.length_eq
    rw [List.forall₂_iff_get] at hm
    intro v hv
    obtain ⟨j, hj, rfl⟩ := List.getElem_of_mem hv
    have h1 := hm.2 j hj (hlen ▸ hj)
    have h2 := hy _ (List.getElem_mem (hlen ▸ hj))
    have h3 : vs[j].lb ≠ vs[j].ub := fun he => by
      have := h1.2 he
      simp only [List.get_eq_getElem] at this
      rw [this] at h2; cases h2
    exact lt_of_le_of_ne (not_lt.1 fun hlt => hn ⟨_, hv, hlt⟩) h3

/-- A column of `m` finite values. -/
def ColOk (m : ℕ) (c : List (Fl K)) : Prop := c.length = m ∧ ∀ v ∈ c, ∃ q, v = Fl.fin q

theorem augmX_cols (U : User (List K) K) (m : ℕ) (hC : Counts U m) (y : List K) (i : ℕ) (s s' : EvSt (List K) K)
    (hf : s.fX.length ≤ i) (hc : s.ceX.length ≤ i) (h : augmX U (.fin big) y i s = some s') (hs : ∀ c ∈ s.ceX, ColOk m c) :
    (∀ c ∈ s'.ceX, ColOk m c) ∧ s'.ceX.length ≤ i + 1 ∧ s'.fX.length ≤ i + 1 ∧
      (s'.flag = 3 ∨ s'.flag = s.flag ∧ ∀ v, s'.fX.getLast? = some v → ∃ q, v = Fl.fin q) := by
  have ho : answerF U s.w y ≠ .other := by
    intro ho; rw [C06_nonnumber_raises U y _ s ho] at h; cases h
  obtain ⟨t, ht, he⟩ := C06_failures_reported_not_recorded U y i s hf hc ho
  rw [h] at ht; cases ht
  cases he with
  | fail _ g1 g2 g3 => exact ⟨by rw [g3]; exact hs, by rw [g3]; omega, by rw [g2]; omega, Or.inl g1⟩
  | good q r ce ce' hnf _ _ g1 g2 g3 g4 g5 =>
    refine ⟨?_, ?_, by rw [g4]; simp; omega, Or.inr ⟨g3, fun v hv => by rw [g4] at hv; simp at hv; exact ⟨r, hv.symm⟩⟩⟩
    · rcases g5 with ⟨_, g5⟩ | ⟨hne, g5⟩
      · rw [g5]; exact hs
      · rw [g5]
        intro c hc'
        rcases List.mem_append.1 hc' with hc' | hc'
        · exact hs c hc'
        · have hce : answerC U s.w y = some (.nums ce) := by
            rcases g1 with ⟨-, g1⟩ | g1
            · exact absurd g1 hne
            · exact g1
          rw [List.mem_singleton] at hc'
          subst hc'
          have hl : ce.length = m := by
            unfold answerC at hce
            rw [Option.map_eq_some_iff] at hce
            obtain ⟨c, e1, e2⟩ := hce
            exact hC.some c e1 _ _ _ e2
          refine ⟨by rw [← g2.length_eq]; exact hl, ?_⟩
          intro v hv
          obtain ⟨j, hj, rfl⟩ := List.getElem_of_mem hv
          rw [List.forall₂_iff_get] at g2
          have hj' : j < ce.length := by rw [g2.1]; exact hj
          have := g2.2 j hj' hj
          simp only [List.get_eq_getElem] at this
          cases hv' : ce[j] with
          | nan =>
            exact absurd (Or.inr (Or.inr (Or.inr (Or.inr (Or.inr ⟨ce, hce, by rw [← hv']; exact List.getElem_mem _⟩))))) hnf
          | pinf => exact ⟨_, this.1 hv'⟩
          | ninf => exact ⟨_, this.2.1 hv'⟩
          | fin q =>
            have h3 := this.2.2 q hv'
            rcases lt_or_ge (10 ^ 25 : K) q with h4 | h4
            · exact ⟨_, h3.1 h4⟩
            · rcases lt_or_ge q (-10 ^ 25 : K) with h5 | h5
              · exact ⟨_, h3.2.1 h5⟩
              · exact ⟨_, h3.2.2 h5 h4⟩
    · rcases g5 with ⟨_, g5⟩ | ⟨hne, g5⟩
      · rw [g5]; omega
      · rw [g5]; simp; omega

theorem samplePass_cols (U : User (List K) K) (m : ℕ) (hC : Counts U m) : ∀ (ys : List (List K)) (i : ℕ) (s s' : EvSt (List K) K),
    (samplePass U ys i s).st? = some s' → s.fX.length ≤ i → s.ceX.length ≤ i → (∀ c ∈ s.ceX, ColOk m c) → ∀ c ∈ s'.ceX, ColOk m c := by
  intro ys
  induction ys with
  | nil => intro i s s' h _ _ hs; simp [samplePass, SampleRes.st?] at h; subst h; exact hs
  | cons y ys ih =>
    intro i s s' h h1 h2 hs
    simp only [samplePass] at h
    split at h
    · simp [SampleRes.st?] at h
    · rename_i t ht
      obtain ⟨g1, g2, g3, -⟩ := augmX_cols U m hC y i s t h1 h2 ht hs
      split at h
      · simp only [SampleRes.st?, Option.some.injEq] at h; subst h; exact g1
      · split at h
        · simp [SampleRes.st?] at h
        · split at h
          · simp only [SampleRes.st?, Option.some.injEq] at h; subst h; exact g1
          · exact ih _ _ _ h g3 g2 g1

theorem mapCol_ok (m : ℕ) (f : Fl K → Fl K) (hf : ∀ q, ∃ r, f (.fin q) = .fin r) (ce : List (List (Fl K)))
    (h : ∀ c ∈ ce, ColOk m c) : ∀ c ∈ ce.map (·.map f), ColOk m c := by
  intro c hc
  obtain ⟨d, hd, rfl⟩ := List.mem_map.1 hc
  obtain ⟨h1, h2⟩ := h d hd
  refine ⟨by simpa using h1, fun v hv => ?_⟩
  obtain ⟨u, hu, rfl⟩ := List.mem_map.1 hv
  obtain ⟨q, rfl⟩ := h2 u hu
  exact hf q

theorem replaceHuge_cols (m : ℕ) (ce c' : List (List (Fl K))) (h : ∀ c ∈ ce, ColOk m c)
    (hr : replaceHuge ce = some c') : ∀ c ∈ c', ColOk m c := by
  unfold replaceHuge at hr
  split at hr
  · split at hr
    · cases hr
    · simp only [Option.some.injEq] at hr
      subst hr
      refine mapCol_ok m _ (fun q => ?_) ce h
      simp only
      split <;> exact ⟨_, rfl⟩
  · cases hr; exact h

theorem replaceHugeNeg_cols (m : ℕ) (ce c' : List (List (Fl K))) (h : ∀ c ∈ ce, ColOk m c)
    (hr : replaceHugeNeg ce = some c') : ∀ c ∈ c', ColOk m c := by
  unfold replaceHugeNeg at hr
  split at hr
  · split at hr
    · cases hr
    · simp only [Option.some.injEq] at hr
      subst hr
      refine mapCol_ok m _ (fun q => ?_) ce h
      simp only
      split <;> exact ⟨_, rfl⟩
  · cases hr; exact h

/-- The recorded constraint columns after the sampling. -/
theorem initLoop_cols (U : User (List K) K) (m : ℕ) (hC : Counts U m) (x0 : List K) (nx : K) :
    ∀ (N : ℕ) (Δ D : K) (s s' : EvSt (List K) K), initLoop U x0 nx N Δ s = .done D s' → ∀ c ∈ s'.ceX, ColOk m c := by
  intro N
  induction N with
  | zero => intro Δ D s s' h; simp [initLoop] at h
  | succ N ih =>
    intro Δ D s s' h
    simp only [initLoop] at h
    cases hp : samplePass U (simplex x0 Δ) 0
        ({ s with X := [], fX := [], ceX := [] } : EvSt (List K) K) with
    | crash => rw [hp] at h; simp at h
    | failed t => rw [hp] at h; simp at h
    | full t =>
      rw [hp] at h
      simp only at h
      have := samplePass_cols U m hC _ _ _ t (by rw [hp]; rfl) (by simp) (by simp) (by simp)
      split at h
      · cases h
      · rename_i c hc
        split at h
        · cases h
        · rename_i c' hc'
          cases h
          exact replaceHugeNeg_cols m _ _ (replaceHuge_cols m _ _ this hc) hc'
    | broke t =>
      rw [hp] at h
      simp only at h
      split at h
      · cases h
      · split at h
        · cases h
        · split at h
          · cases h
          · exact ih _ _ _ _ h

/-- An environment of which only the user's functions and the number of constraints matter. -/
def bareEnv (k : Kernels K F) (U : User (List K) K) (m : ℕ) : Env K F where
  miter := .pinf
  msimul := .pinf
  tolGrad := 0
  tolFeas := 0
  tolBnds := 0
  verbose4 := false
  n := 0
  me := m
  ns := 0
  finalDeg := .linear
  regression := false
  lb := []
  ub := []
  nrm := k.nrm
  sqrt := k.sqrt
  trunc := k.trunc
  order := k.order
  build := k.build
  model := k.model
  U := U

theorem ceRows_eq (k : Kernels K F) (U : User (List K) K) (m : ℕ) (hC : Counts U m) (x0 : List K) (nx : K) (N : ℕ) (Δ D : K)
    (ev : EvSt (List K) K) (h : initLoop U x0 nx N Δ emptyEv = .done D ev) : ceRows ev = m := by
  have h1 := initLoop_start (bareEnv k U m) ⟨hC.none, hC.some⟩ x0 nx N Δ D emptyEv ev rfl h
  have h2 := initLoop_cols U m hC x0 nx N Δ D emptyEv ev h
  obtain ⟨-, b1, b2, -⟩ := h1
  have b1 : m = 0 → ev.ceX = [] := b1
  have b2 : 0 < m → ev.ceX.length = x0.length + 1 := b2
  unfold ceRows
  rcases Nat.eq_zero_or_pos m with rfl | hm
  · rw [b1 rfl]
  · have := b2 hm
    cases hce : ev.ceX with
    | nil => rw [hce] at this; simp at this
    | cons c cs =>
      simp only
      exact (h2 c (by rw [hce]; simp)).1

/-- The options after the validation. -/
theorem envOf_some {k : Kernels K F} {U : User (List K) K} {ex : Extra} {i : MainIn K} {e : Env K F} (h : envOf k U ex i = some e) :
    (∃ mi, i.opts.miter = some mi ∧ e.miter = mi.cast) ∧ (∃ ms, i.opts.msimul = some ms ∧ e.msimul = ms.cast) ∧
    (∃ q, i.opts.tolGrad = some (.fin q) ∧ e.tolGrad = (q : K)) ∧ (∃ q, i.opts.tolFeas = some (.fin q) ∧ e.tolFeas = (q : K)) ∧
    (∃ q, i.opts.tolBnds = some (.fin q) ∧ e.tolBnds = (q : K)) ∧ finalDegOf i.opts.finalDegree = some e.finalDeg ∧
    e.regression = decide (i.opts.whichmodel = some (.code 3)) ∧
    e.n = dimOf i.ev ∧ e.me = ceRows i.ev ∧ e.nrm = k.nrm ∧ e.order = k.order ∧ e.U = U ∧ hessRaise i.opts ex = none := by
  have tol : ∀ {v : Option (Fl ℚ)} {t : K}, tolOf v = some t → ∃ q, v = some (.fin q) ∧ t = (q : K) := by
    intro v t h
    unfold tolOf at h
    split at h
    · rename_i q; cases h; exact ⟨q, rfl, rfl⟩
    · cases h
  unfold envOf at h
  split at h
  · rename_i tg tf tb mi ms fd h1 h2 h3 h4 h5 h6 h7
    cases h
    exact ⟨⟨mi, h4, rfl⟩, ⟨ms, h5, rfl⟩, tol h1, tol h2, tol h3, h6, rfl, rfl, rfl, rfl, rfl, rfl, h7⟩
  · cases h

/-- **The theorems on the main loop apply to every call**: data handed over by the set-up start the main loop as assumed there. -/
theorem call_starts (k : Kernels K F) (hn : ∀ v, 0 ≤ k.nrm v) (ho : ∀ d, SortedDesc d (k.order d)) (U : User (List K) K) (m : ℕ)
    (hC : Counts U m) (fuel : ℕ) (a : Args K) (ex : Extra) (g : Globals K) (hw : WellFormed a) (i : MainIn K)
    (h : (setup U k.sqrt k.nrm fuel a g).res = .go i) (e : Env K F) (he : envOf k U ex i = some e) (s0 : MSt K F)
    (hs : mainInit e i.Δ i.slacks i.ev = some s0) :
    ∃ x Δ, Starts e x fuel Δ i.slacks s0 ∧ IsFit (boxes a) Δ ∧
      (InsideBy Δ (boxes a) x ∧ ((∀ v ∈ boxes a, v.lb + Δ < v.x0 ∧ v.x0 < v.ub - Δ) → x = (boxes a).map (·.x0))) ∧
      e.n = (boxes a).length := by
  obtain ⟨-, -, -, -, Δ, ys, h1, h2, h3⟩ := setup_go U _ _ _ _ _ hw i h
  obtain ⟨D, zs, d1, d2, d3, d4, -, -, d5⟩ := C04_initial_points (boxes a) (proper_bounds _ _ _ h1 h2)
  rw [h1] at d1
  cases d1
  obtain ⟨-, -, -, -, -, -, -, e1, e2, e3, e4, e5, -⟩ := envOf_some he
  have hX := (C48_done_complete U _ _ _ _ _ _ _ rfl h3).2.1
  have hdim : e.n = (ys.map (·.1)).length := by
    rw [e1]; unfold dimOf; rw [hX]; simp [simplex]
  refine ⟨ys.map (·.1), Δ, ⟨⟨by rw [e3]; exact hn, by rw [e4]; exact ho⟩, ?_, hdim.symm, d2, ?_⟩, ?_, ⟨d4, d5⟩, ?_⟩
  · have hme : e.me = m := by rw [e2]; exact ceRows_eq k U m hC _ _ _ _ _ _ h3
    exact ⟨by rw [e5, hme]; exact hC.none, by rw [e5, hme]; exact hC.some⟩
  · unfold startState
    rw [e5, e3, h3]
    exact hs
  · exact d3
  · rw [hdim]; exact d4.length_eq.symm

theorem mapM_fin {α β : Type} (f : α → Option β) : ∀ l : List α, (∀ v ∈ l, ∃ q, f v = some q) → ∃ r, l.mapM f = some r := by
  intro l
  induction l with
  | nil => intro _; exact ⟨[], rfl⟩
  | cons a l ih =>
    intro h
    obtain ⟨q, hq⟩ := h a (by simp)
    obtain ⟨r, hr⟩ := ih (fun v hv => h v (by simp [hv]))
    exact ⟨q :: r, by simp [List.mapM_cons, hq, hr]⟩

/-- The state for the first pass exists: all recorded values are numbers. -/
theorem mainInit_some (k : Kernels K F) (U : User (List K) K) (m : ℕ) (hC : Counts U m) (x0 : List K) (nx : K) (N : ℕ) (Δ D : K)
    (ev : EvSt (List K) K) (h : initLoop U x0 nx N Δ emptyEv = .done D ev) (e : Env K F) (sl : List K) :
    ∃ s0, mainInit e D sl ev = some s0 := by
  obtain ⟨a1, a2, a3, -, -⟩ := C48_done_complete U x0 nx N Δ D emptyEv ev rfl h
  obtain ⟨-, -, -, b4⟩ := initLoop_start (bareEnv k U m) ⟨hC.none, hC.some⟩ x0 nx N Δ D emptyEv ev rfl h
  have h2 := initLoop_cols U m hC x0 nx N Δ D emptyEv ev h
  obtain ⟨fY, hf⟩ := mapM_fin (Fl.val? (K := K)) ev.fX (by
    intro v hv
    obtain ⟨j, hj, rfl⟩ := List.getElem_of_mem hv
    obtain ⟨_, _, _, r, _, _, _, h4, _⟩ := b4 j _ (List.getElem?_eq_getElem hj)
    exact ⟨r, by rw [h4]; rfl⟩)
  obtain ⟨ceY, hce⟩ := mapM_fin (colK (K := K)) ev.ceX (by
    intro c hc
    obtain ⟨r, hr⟩ := mapM_fin (Fl.val? (K := K)) c (fun v hv => by
      obtain ⟨q, rfl⟩ := (h2 c hc).2 v hv
      exact ⟨q, rfl⟩)
    exact ⟨r, hr⟩)
  have hl := (mapM_some_getElem _ _ _ hf).1
  have hx : ev.X[0]? = some x0 := by rw [a2]; simp [simplex]
  unfold mainInit
  rw [hf, hce, hx]
  cases hfY : fY with
  | nil => rw [hfY, a3] at hl; simp at hl
  | cons f fs => exact ⟨_, rfl⟩

/-- A failed sampling: the last evaluation failed. -/
theorem samplePass_lastFailed (U : User (List K) K) : ∀ (ys : List (List K)) (i : ℕ) (s s' : EvSt (List K) K),
    samplePass U ys i s = .failed s' → s.flag = 0 → s.fX.length ≤ i → s.ceX.length ≤ i → LastFailed U s'.w := by
  intro ys
  induction ys with
  | nil => intro i s s' h; simp [samplePass] at h
  | cons y ys ih =>
    intro i s s' h h0 h1 h2
    simp only [samplePass] at h
    split at h
    · cases h
    · rename_i t ht
      have hlog := (augmX_count U y i s t ht).2.1
      have ho : answerF U s.w y ≠ .other := by
        intro ho; rw [C06_nonnumber_raises U y _ s ho] at ht; cases ht
      obtain ⟨t', ht', he⟩ := C06_failures_reported_not_recorded U y i s h1 h2 ho
      rw [ht] at ht'; cases ht'
      split at h
      · rename_i hfl
        cases h
        cases he with
        | fail hf _ _ _ => exact ⟨s.w, y, hlog, hf⟩
        | good q r ce ce' _ _ _ _ _ g _ _ => exact absurd (g.trans h0) hfl
      · rename_i hfl
        have hfl : t.flag = 0 := by simpa using hfl
        split at h
        · cases h
        · split at h
          · cases h
          · cases he with
            | fail _ g _ _ => rw [hfl] at g; cases g
            | good q r ce ce' _ _ _ _ _ _ g4 g5 =>
              refine ih _ _ _ h hfl (by rw [g4]; simp; omega) ?_
              rcases g5 with ⟨_, g5⟩ | ⟨_, g5⟩
              · rw [g5]; omega
              · rw [g5]; simp; omega

theorem initLoop_lastFailed (U : User (List K) K) (x0 : List K) (nx : K) :
    ∀ (N : ℕ) (Δ : K) (s s' : EvSt (List K) K), initLoop U x0 nx N Δ s = .failed s' → s.flag = 0 → LastFailed U s'.w := by
  intro N
  induction N with
  | zero => intro Δ s s' h; simp [initLoop] at h
  | succ N ih =>
    intro Δ s s' h h0
    simp only [initLoop] at h
    cases hp : samplePass U (simplex x0 Δ) 0
        ({ s with X := [], fX := [], ceX := [] } : EvSt (List K) K) with
    | crash => rw [hp] at h; simp at h
    | failed t => rw [hp] at h; cases h; exact samplePass_lastFailed U _ _ _ _ hp h0 (by simp) (by simp)
    | full t =>
      rw [hp] at h
      simp only at h
      split at h
      · cases h
      · split at h <;> cases h
    | broke t =>
      rw [hp] at h
      simp only at h
      have hflt : t.flag = 0 := samplePass_broke_flag U _ _ _ _ hp
      split at h
      · cases h
      · split at h
        · cases h
        · split at h
          · cases h
          · exact ih _ _ _ h (by exact hflt)

end Sqpdfo
