import Verif.Lemmas.MainPass
import Verif.Props.C48_InitSet

/-! # The invariant holds at the first pass -/

set_option linter.unusedSectionVars false

namespace Sqpdfo
open Spec
variable {K F : Type} [Field K] [LinearOrder K] [IsStrictOrderedRing K]

/-- The constraint function always returns `e.me` values. -/
structure Env.Constr (e : Env K F) : Prop where
  none : e.U.c = none → e.me = 0
  some : ∀ c, e.U.c = some c → ∀ w y vs, c w y = .nums vs → vs.length = e.me

theorem augmX_ce (e : Env K F) (hC : e.Constr) (y : List K) (m : ℕ)
    (s s' : EvSt (List K) K) (hf : s.fX.length ≤ m) (hc : s.ceX.length ≤ m)
    (h : augmX e.U (.fin big) y m s = some s') (hfl : s'.flag = 0) :
    (e.me = 0 → s'.ceX = s.ceX) ∧ (0 < e.me → s'.ceX.length = s.ceX.length + 1) := by
  have ho : answerF e.U s.w y ≠ .other := by
    intro ho; rw [C06_nonnumber_raises e.U y _ s ho] at h; cases h
  obtain ⟨t, ht, he⟩ := C06_failures_reported_not_recorded e.U y m s hf hc ho
  rw [h] at ht; cases ht
  cases he with
  | fail _ g _ _ => rw [g] at hfl; cases hfl
  | good q r ce ce' _ _ _ g1 _ _ _ g2 =>
    have hl : ce.length = e.me := by
      rcases g1 with ⟨g1, rfl⟩ | g1
      · unfold answerC at g1
        rw [Option.map_eq_none_iff] at g1
        rw [hC.none g1]; rfl
      · unfold answerC at g1
        rw [Option.map_eq_some_iff] at g1
        obtain ⟨c, g1, g3⟩ := g1
        exact hC.some c g1 _ _ _ g3
    rcases g2 with ⟨g2, g3⟩ | ⟨g2, g3⟩
    · refine ⟨fun _ => g3, fun h0 => ?_⟩
      rw [g2] at hl; simp at hl; omega
    · refine ⟨fun h0 => ?_, fun _ => by rw [g3]; simp⟩
      rw [h0] at hl; exact absurd (List.length_eq_zero_iff.1 hl) g2

theorem samplePass_start (e : Env K F) (hC : e.Constr) :
    ∀ (ys : List (List K)) (i : ℕ) (s s' : EvSt (List K) K),
    samplePass e.U ys i s = .full s' → s.X.length = i → s.fX.length = i → s.flag = 0 →
    (e.me = 0 → s.ceX = []) → (0 < e.me → s.ceX.length = i) → Recorded e.U s.w s.X s.fX →
    s'.w.logF = s.w.logF ++ ys ∧ (e.me = 0 → s'.ceX = []) ∧
      (0 < e.me → s'.ceX.length = i + ys.length) ∧ Recorded e.U s'.w s'.X s'.fX := by
  intro ys
  induction ys with
  | nil =>
    intro i s s' h h1 h2 h3 h4 h5 h6
    simp only [samplePass, SampleRes.full.injEq] at h; subst h
    exact ⟨by simp, h4, by simpa using h5, h6⟩
  | cons y ys ih =>
    intro i s s' h h1 h2 h3 h4 h5 h6
    have hcl : s.ceX.length ≤ i := by
      rcases Nat.eq_zero_or_pos e.me with h0 | h0
      · rw [h4 h0]; simp
      · exact (h5 h0).le
    simp only [samplePass] at h
    split at h
    · cases h
    · rename_i t ht
      split at h
      · cases h
      · rename_i hfl
        have hfl : t.flag = 0 := by simpa using hfl
        split at h
        · cases h
        · split at h
          · cases h
          · obtain ⟨a1, a2, a3, a4, a5⟩ := augmX_main e.U _ _ _ _ h1 h2 hcl ht
            obtain ⟨c1, c2⟩ := augmX_ce e hC y i s t h2.le hcl ht hfl
            rcases a5 with ⟨b, -⟩ | ⟨-, q, r, -, b, a5⟩
            · rw [hfl] at b; cases b
            · obtain ⟨d1, d2, d3, d4⟩ := ih (i + 1) t s' h (by rw [a1]; simp [h1])
                (by rw [a5]; simp [h2]) hfl (fun h0 => (c1 h0).trans (h4 h0))
                (fun h0 => by rw [c2 h0, h5 h0])
                (by rw [a1, a5]; exact h6.append (by rw [h1, h2]) a3 b)
              refine ⟨by rw [d1, a3]; simp, d2, fun h0 => ?_, d4⟩
              rw [d3 h0]; simp; omega

theorem initLoop_start (e : Env K F) (hC : e.Constr) (x0 : List K) (nx : K) :
    ∀ (N : ℕ) (Δ D : K) (s s' : EvSt (List K) K), s.flag = 0 →
      initLoop e.U x0 nx N Δ s = .done D s' →
      (∃ p, s'.w.logF = p ++ s'.X) ∧ (e.me = 0 → s'.ceX = []) ∧
        (0 < e.me → s'.ceX.length = x0.length + 1) ∧ Recorded e.U s'.w s'.X s'.fX := by
  intro N
  induction N with
  | zero => intro Δ D s s' _ h; simp [initLoop] at h
  | succ N ih =>
    intro Δ D s s' hfl h
    simp only [initLoop] at h
    cases hp : samplePass e.U (simplex x0 Δ) 0
        ({ s with X := [], fX := [], ceX := [] } : EvSt (List K) K) with
    | crash => rw [hp] at h; simp at h
    | failed t => rw [hp] at h; simp at h
    | full t =>
      rw [hp] at h
      simp only at h
      obtain ⟨f1, -, -, -⟩ := samplePass_full e.U _ _ _ _ hp rfl rfl hfl
      obtain ⟨e1, e2, e3, e4⟩ := samplePass_start e hC _ _ _ _ hp rfl rfl hfl (fun _ => rfl)
        (fun _ => rfl) (by intro i v hv; simp at hv)
      split at h
      · cases h
      · rename_i c hc
        split at h
        · cases h
        · rename_i c' hc'
          cases h
          have hl : c'.length = t.ceX.length := replaceHuge_length (by rw [hc]; exact hc')
          refine ⟨⟨s.w.logF, by rw [e1, f1]; simp⟩, fun h0 => ?_, fun h0 => ?_, e4⟩
          · rw [e2 h0] at hl; exact List.length_eq_zero_iff.1 hl
          · rw [hl, e3 h0]; simp [simplex]
    | broke t =>
      rw [hp] at h
      simp only at h
      have hflt : t.flag = 0 := samplePass_broke_flag e.U _ _ _ _ hp
      split at h
      · cases h
      · split at h
        · cases h
        · split at h
          · cases h
          · exact ih _ _ _ _ (by exact hflt) h

theorem le_cap (e : Env K F) : e.n + 1 ≤ e.cap := by
  have h1 : e.n + 1 ≤ e.pfinal := by
    unfold Env.pfinal
    cases e.finalDeg with
    | linear => exact le_refl _
    | diagonal => simp only; omega
    | quadratic =>
      simp only
      rw [Nat.le_div_iff_mul_le (by norm_num)]
      nlinarith
  unfold Env.cap
  split <;> omega

/-- What is known at the first pass. -/
structure Started (e : Env K F) (s : MSt K F) : Prop where
  inv : Inv e [] s
  niter : s.niter = 0
  cur : s.cur = e.n + 1
  sigma : s.sigma = 1
  nsimul : e.n + 1 ≤ s.ev.nsimul

theorem startState_ok (e : Env K F) (hC : e.Constr) (x0 : List K) (hx : x0.length = e.n)
    (fuel : ℕ) (Δ : K) (hΔ : 0 < Δ) (sl : List K) (s : MSt K F)
    (h : startState e x0 fuel Δ sl = some s) : Started e s := by
  unfold startState at h
  cases hi : initLoop e.U x0 (e.nrm x0) fuel Δ emptyEv with
  | crash => rw [hi] at h; cases h
  | failed t => rw [hi] at h; cases h
  | stalled t => rw [hi] at h; cases h
  | running => rw [hi] at h; cases h
  | done D ev =>
    rw [hi] at h
    simp only at h
    obtain ⟨a1, a2, a3, -, k, hk⟩ := C48_done_complete e.U x0 _ _ _ _ _ _ rfl hi
    obtain ⟨⟨p, b1⟩, b2, b3, b4⟩ := initLoop_start e hC x0 _ _ _ _ _ _ rfl hi
    have hcnt := (initLoop_count e.U x0 (e.nrm x0) fuel Δ emptyEv ev (by rw [hi]; rfl)).2
    have hX : ev.X.length = e.n + 1 := by rw [a2, ← hx]; simp [simplex]
    unfold mainInit at h
    split at h
    · rename_i fY ceY x hf hce hx0
      obtain ⟨f1, f2⟩ := mapM_some_getElem _ _ _ hf
      have c1 := (mapM_some_getElem _ _ _ hce).1
      split at h
      · cases h
      · rename_i f hf0
        simp only [Option.some.injEq] at h
        have hfX : ∀ v ∈ ev.fX, ∃ q, v = Fl.fin q := by
          intro v hv
          obtain ⟨i, hi', rfl⟩ := List.getElem_of_mem hv
          obtain ⟨_, _, _, r, _, _, _, h4, _⟩ := b4 i _ (List.getElem?_eq_getElem hi')
          exact ⟨r, h4⟩
        have hcount : ev.nsimul = ev.w.logF.length := by
          simp [emptyEv] at hcnt; exact hcnt
        have hD : 0 < D := by rw [hk]; positivity
        subst h
        refine ⟨?_, rfl, rfl, rfl, ?_⟩
        · exact {
            Xlen := by simp only; omega
            Ylen := hX
            indlen := by simp [hX]
            flen := by simp only; rw [f1, a3, hx]
            ciY := rfl
            ceY0 := fun h0 => by
              simp only; rw [b2 h0] at c1; exact List.length_eq_zero_iff.1 c1
            ceY1 := fun h0 => by simp only; rw [c1, b3 h0, hx]
            lo := le_refl _
            hi := le_cap e
            link := by
              intro j hj _
              have hj : j < e.n + 1 := hj
              have hjX : j < ev.X.length := by omega
              have hjf : j < ev.fX.length := by rw [a3, hx]; exact hj
              obtain ⟨r, hr⟩ := hfX _ (List.getElem_mem hjf)
              have e1 : ev.fX[j]? = some (.fin r) := by rw [List.getElem?_eq_getElem hjf, hr]
              exact ⟨j, ev.X[j], r, by simp [hjX], List.getElem?_eq_getElem hjX,
                by rw [f2 j _ e1]; rfl, List.getElem?_eq_getElem hjX, e1⟩
            ind0 := by simp [hX]
            Y0 := hx0
            f0 := hf0
            log := ⟨p, b1.symm⟩
            count := hcount
            hist := b4
            fXlen := by simp only; rw [a3, hx, hX]; simp
            cXlen := by
              simp only
              rcases Nat.eq_zero_or_pos e.me with h0 | h0
              · rw [b2 h0]; simp
              · rw [b3 h0, hx, hX]; simp
            fin := hfX
            infoF := ⟨_, rfl⟩
            flag := a1
            delta := hD
            eps := cEps_pos
            sigma := le_refl _ }
        · show e.n + 1 ≤ ev.nsimul
          rw [hcount, b1, List.length_append]; omega
    · cases h

end Sqpdfo
