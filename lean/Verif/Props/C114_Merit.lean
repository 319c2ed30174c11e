import Verif.Props.C113_Complexity

/-! # C114: the predicted decreases of constrained runs -/

set_option linter.unusedSectionVars false

namespace Sqpdfo
open Spec
variable {K F : Type} [Field K] [LinearOrder K] [IsStrictOrderedRing K]

/-- The predicted decreases of the merit function over the penalty parameter, for the passes of a run after which `p` holds. -/
def Spec.shares (p : MSt K F → Prop) [DecidablePred p] (e : Env K F) : List (Orc K F) → MSt K F → List K
  | [], _ => []
  | o :: os, s =>
    match pass e o s with
    | .cont t => if p t then t.pred / t.sigma :: shares p e os t else shares p e os t
    | _ => []

theorem shares_append (p : MSt K F → Prop) [DecidablePred p] (e : Env K F) (o : Orc K F) : ∀ (os : List (Orc K F)) (s u t : MSt K F),
    mainLoop e os s = .running u → pass e o u = .cont t →
    shares p e (os ++ [o]) s = shares p e os s ++ if p t then [t.pred / t.sigma] else [] := by
  intro os
  induction os with
  | nil =>
    intro s u t h1 h2
    cases h1
    simp only [List.nil_append, shares, h2]
  | cons a os ih =>
    intro s u t h1 h2
    simp only [mainLoop] at h1
    simp only [List.cons_append, shares]
    cases hp : pass e a s with
    | ret r => rw [hp] at h1; cases h1
    | crash c => rw [hp] at h1; cases h1
    | cont r =>
      rw [hp] at h1
      have := ih r u t h1 h2
      dsimp only at h1 ⊢
      rw [this]
      split_ifs <;> simp

/-- The norm does not decrease with the sizes of the entries, and, for problems with slacks, `sqrt` of a value above
0.01 is at least as close to a square root as 0. -/
structure Spec.Sizes (e : Env K F) : Prop where
  mono : ∀ r r' : List K, r'.length = r.length → (∀ (i : ℕ) (a b : K), r[i]? = some a → r'[i]? = some b → |b| ≤ |a|) → e.nrm r' ≤ e.nrm r
  sqrt : 0 < e.ns → ∀ c, 1 / 100 < c → |c - e.sqrt c ^ 2| ≤ c

/-- The residual does not get larger by the move of the slacks away from zero. -/
theorem moved_residual {e : Env K F} {x0 : List K} {fuel : ℕ} {Δ : K} {sl : List K} {s0 : MSt K F} (H : Starts e x0 fuel Δ sl s0)
    (os : List (Orc K F)) (s : MSt K F) (h : mainLoop e os s0 = .running s) (o : Orc K F) (t : MSt K F) (ht : pass e o s = .cont t)
    (hacc : t.ixbest = t.m) (hme : 0 < e.me) (hns : 0 < e.ns) (hN : Sizes e) (r r' : List K)
    (hr : Residual e.ns t.infoCe o.slplus r) (hr' : Residual e.ns t.infoCe t.sl r') : e.nrm r' ≤ e.nrm r := by
  obtain ⟨h1, h2, h3, h4, -, h5⟩ := ((C82_slacks H os s h o t ht).2 hacc).2 hme hns
  refine hN.mono r r' (by rw [hr.length, hr'.length]) fun i a b ha hb => ?_
  have hi : i < e.me := by
    rw [← h1, ← hr.length]; exact (List.getElem?_eq_some_iff.1 ha).1
  by_cases hn : i + e.ns < e.me
  · rw [hr.equations i (by rw [h1]; exact hn)] at ha
    rw [hr'.equations i (by rw [h1]; exact hn), ha] at hb
    simp only [Option.some.injEq] at hb
    rw [hb]
  · obtain ⟨j, rfl⟩ : ∃ j, i = e.me - e.ns + j := ⟨i - (e.me - e.ns), by omega⟩
    have hj : j < e.ns := by omega
    obtain ⟨c, hc⟩ : ∃ c, t.infoCe[e.me - e.ns + j]? = some c := ⟨_, List.getElem?_eq_getElem (by omega)⟩
    obtain ⟨x, hs⟩ : ∃ x, o.slplus[j]? = some x := ⟨_, List.getElem?_eq_getElem (by omega)⟩
    obtain ⟨a', k1, k2, k3⟩ := h5 j x c hs hc
    have q1 := hr.slacks j _ _ (by rw [h1]; exact hc) hs
    have q2 := hr'.slacks j _ _ (by rw [h1]; exact hc) k1
    rw [h1, ha] at q1
    rw [h1, hb] at q2
    simp only [Option.some.injEq] at q1 q2
    rw [q1, q2]
    by_cases hz : x = 0 ∧ 1 / 100 < c
    · have h0 : (0 : K) < 1 / 100 := by positivity
      rw [k2 hz.1 hz.2, hz.1, zero_pow two_ne_zero, sub_zero, abs_of_pos (h0.trans hz.2)]
      exact hN.sqrt hns c hz.2
    · rw [k3 hz]

/-- The invariant: the scaled merit values `(f - low)/sigma + |c|` of the iterate and of the memorised data are at most `b`. -/
structure MeritLevel (e : Env K F) (low b : K) (s : MSt K F) : Prop where
  sigma : 1 ≤ s.sigma
  above : low ≤ s.fx
  cur : ∃ c, e.resNorm s.infoCe s.sl = some c ∧ (s.fx - low) / s.sigma + c ≤ b
  old : s.rejected = true → (s.f0 - low) / s.sigma + s.ce0n ≤ b ∧ low ≤ s.f0
  new : s.rejected = false → s.pred ≠ -1 → s.ev.infoF = .fin s.fx

theorem scaled_anti {f low σ σ' : K} (h : low ≤ f) (h1 : 1 ≤ σ) (h2 : σ ≤ σ') : (f - low) / σ' ≤ (f - low) / σ :=
  div_le_div_of_nonneg_left (by linarith) (by linarith) h2

/-- One pass without improvement of the set. -/
theorem MeritLevel.pass {e : Env K F} {x0 : List K} {fuel : ℕ} {Δ : K} {sl : List K} {s0 : MSt K F}
    (H : Starts e x0 fuel Δ sl s0) (hme : 0 < e.me) (hN : Sizes e) {os : List (Orc K F)} {s : MSt K F}
    (h : mainLoop e os s0 = .running s) {o : Orc K F} {t : MSt K F} (ht : pass e o s = .cont t) (hni : ¬ Improves e o s)
    {low b : K} (hq : ∀ q, .fin q ∈ t.ev.fX → low ≤ q ∧ q < 10 ^ 25) (hs : MeritLevel e low b s) :
    MeritLevel e low b t ∧ (Taken t → 0 < t.pred) ∧ (Regular t → MeritLevel e low (b - 1 / 10 ^ 4 * (t.pred / t.sigma)) t) := by
  have hM := H.memory os s h
  have htI : Inv e [] t := (hM.pass H.ok ht).inv
  obtain ⟨v, u, w, vi, vsig, vrej, vf0, vce, vm, vsl, -, -, vcase, B, -, -, hd⟩ := pass_before e H.ok o s t hM.inv ht
  obtain ⟨d1, vfx, vix, vinf, vic⟩ : s.pred ≠ -1 ∧ v.fx = s.fx ∧ v.ixbest = s.ixbest ∧ v.ev.infoF = s.ev.infoF ∧ v.infoCe = s.infoCe := by
    rcases vcase with ⟨-, d1, -, -, c2, c3, -, -, -, c7, c8, -⟩ | ⟨c, -⟩
    · exact ⟨d1, c2, c3, c7, c8⟩
    · exact absurd c hni
  obtain ⟨fr, f, c, hf, hc, out⟩ := decideStep_outcome e o _ u t B.inv hd
  have hts : t.sigma = u.sigma := fr.sigma
  have hus : s.sigma ≤ u.sigma := by rw [← vsig]; exact B.sigma
  have hu1 : 1 ≤ u.sigma := hs.sigma.trans hus
  have hu0 : 0 < u.sigma := by linarith
  obtain ⟨c0, hc0, hcb⟩ := hs.cur
  -- the memorised data
  have hu : (u.f0 - low) / u.sigma + u.ce0n ≤ b ∧ low ≤ u.f0 := by
    have key : (u.f0 - low) / s.sigma + u.ce0n ≤ b ∧ low ≤ u.f0 := by
      cases hr : v.rejected with
      | true =>
        obtain ⟨k1, k2⟩ := B.kept hr
        rw [k1, k2, vf0, vce]
        exact hs.old (vrej ▸ hr)
      | false =>
        obtain ⟨c', k1, k2, k3⟩ := B.fresh hr
        rw [vinf, hs.new (vrej ▸ hr) d1] at k1
        rw [vic, vsl, hc0] at k2
        simp only [Fl.fin.injEq, Option.some.injEq] at k1 k2
        rw [k3, ← k1, ← k2]
        exact ⟨hcb, hs.above⟩
    exact ⟨by linarith [scaled_anti key.2 hs.sigma hus], key.2⟩
  have hmem : Memorised u := B.merit fun hr => by
    have := hM.old (vrej ▸ hr)
    unfold Memorised at *
    rw [vm, vf0, vsig, vce]; exact this
  have hfin : low ≤ f ∧ f < 10 ^ 25 := hq f (by rw [fr.fX]; exact List.mem_of_getElem? hf)
  have info : u.ev.infoF = .fin f := by
    obtain ⟨q, r, i1, i2, i3⟩ := B.info
    rw [hf] at i2
    simp only [Option.some.injEq, Fl.fin.injEq] at i2
    subst i2
    rcases le_or_gt q (10 ^ 25) with hq' | hq'
    · rw [i1, i3.1 hq']
    · have := hfin.2
      rw [i3.2 hq'] at this
      exact absurd this (lt_irrefl _)
  have hold : t.rejected = true → (t.f0 - low) / t.sigma + t.ce0n ≤ b ∧ low ≤ t.f0 := fun _ => by
    rw [fr.f0, fr.sigma, fr.ce0n]; exact hu
  -- the iterate stays
  have stay : Stays u t → t.infoCe = u.infoCe → t.sl = u.sl → ∃ c, e.resNorm t.infoCe t.sl = some c ∧ (t.fx - low) / t.sigma + c ≤ b := by
    rintro ⟨-, k1, -⟩ k2 k3
    refine ⟨c0, by rw [k2, k3, B.infoCe, B.sl, vic, vsl]; exact hc0, ?_⟩
    rw [k1, B.fx, vfx, hts]
    linarith [scaled_anti hs.above hs.sigma hus]
  have staylow : Stays u t → low ≤ t.fx := fun k => by rw [k.2.1, B.fx, vfx]; exact hs.above
  have hvm : v.ixbest < u.m := by
    have hm : u.m = v.m + 1 := B.m
    obtain ⟨i, y, f, a, -, -, d, -⟩ := vi.link 0 (by have := vi.lo; omega) (by simp)
    rw [vi.ind0] at a
    simp only [Option.some.injEq] at a
    subst a
    have := (List.getElem?_eq_some_iff.1 d).1
    rw [vi.Xlen] at this
    omega
  have hTm : Taken t ↔ t.ixbest = t.m := by
    unfold Taken
    rw [htI.Xlen]; omega
  have notTaken : t.ixbest = u.ixbest → ¬ Taken t := fun k h1 => by
    rw [hTm, k, B.ixbest, fr.m] at h1
    simp only at h1
    omega
  by_cases hp : t.pred = -1
  · have hn := decideStep_null B.inv hd hp
    have hix : t.ixbest = u.ixbest := by rw [hn]
    have hst : Stays u t := by rw [hn]; exact ⟨rfl, rfl, rfl⟩
    exact ⟨⟨by rw [hts]; exact hu1, staylow hst, stay hst (by rw [hn]) (by rw [hn]), hold, fun _ h1 => absurd hp h1⟩,
      fun h1 => absurd h1 (notTaken hix), fun h1 => absurd h1.1 (notTaken hix)⟩
  have hppos : 0 < t.pred := by
    rcases out with ⟨o1, -⟩ | ⟨o1, -⟩ | ⟨o1, -⟩ | ⟨o1, -⟩
    · exact absurd o1 hp
    all_goals exact o1
  obtain ⟨f', -, hdet⟩ := decideStep_detail B.inv hd hp
  have keep : Keeps u t → MeritLevel e low b t ∧ (Taken t → 0 < t.pred) ∧
      (Regular t → MeritLevel e low (b - 1 / 10 ^ 4 * (t.pred / t.sigma)) t) := by
    intro k
    have hst : Stays u t ∧ t.rejected = true := by
      rcases out with ⟨o1, -⟩ | ⟨-, -, o3⟩ | ⟨-, -, o1⟩ | ⟨-, o1⟩
      · exact absurd o1 hp
      · have h1 := o3.1
        rw [k.ixbest, B.ixbest] at h1
        omega
      · exact ⟨o1.1, o1.2.2.1⟩
      · exact ⟨o1.1, o1.2.2.2.1⟩
    exact ⟨⟨by rw [hts]; exact hu1, staylow hst.1, stay hst.1 k.infoCe k.sl, hold, fun h1 => by rw [hst.2] at h1; cases h1⟩,
      fun _ => hppos, fun h1 => absurd h1.1 (notTaken k.ixbest)⟩
  rcases hdet with ⟨a, -⟩ | ⟨k, -⟩ | ⟨k, -⟩
  · obtain ⟨o2, o3⟩ : f + u.sigma * c ≤ u.merit0 - 1 / 10 ^ 4 * t.pred ∧ Succeeds u t f := by
      have ha := a.ixbest
      have hne : ¬ Stays u t := fun k => by
        have := k.2.2
        rw [ha, B.ixbest] at this
        omega
      rcases out with ⟨o1, -⟩ | ⟨-, o2, o3⟩ | ⟨-, -, o1⟩ | ⟨-, o1⟩
      · exact absurd o1 hp
      · exact ⟨o2, o3⟩
      · exact absurd o1.1 hne
      · exact absurd o1.1 hne
    have hix : t.ixbest = t.m := by rw [a.ixbest, fr.m]
    have e1 : t.infoCe = u.ceplus := by rw [a.infoCe, if_pos hme]
    -- the residual of the new iterate
    obtain ⟨c', hc', hcc⟩ : ∃ c', e.resNorm t.infoCe t.sl = some c' ∧ c' ≤ c := by
      rcases Nat.eq_zero_or_pos e.ns with hns | hns
      · refine ⟨c, ?_, le_refl _⟩
        rw [e1, resNorm_some hns, ← hc, resNorm_some hns]
      · obtain ⟨h1, h2, h3, h4, -, -⟩ := ((C82_slacks H os s h o t ht).2 hix).2 hme hns
        rw [← e1] at hc
        obtain ⟨r, hr, hrc⟩ := resNorm_residual hc
        obtain ⟨c', hc'⟩ : ∃ c', e.resNorm t.infoCe t.sl = some c' := by
          unfold Env.resNorm resid
          rw [if_neg (by omega), if_neg (by rw [not_or, not_lt, not_not]; exact ⟨by omega, h4⟩)]
          exact ⟨_, rfl⟩
        obtain ⟨r', hr', hrc'⟩ := resNorm_residual hc'
        refine ⟨c', hc', ?_⟩
        rw [hrc, hrc']
        exact moved_residual H os s h o t ht hix hme hns hN r r' hr hr'
    have hval : (t.fx - low) / t.sigma + c' ≤ b - 1 / 10 ^ 4 * (t.pred / t.sigma) := by
      have hm := hmem
      unfold Memorised at hm
      rw [hm] at o2
      rw [o3.2.1, hts]
      have h1 : f - low ≤ (u.f0 - low) + u.sigma * (u.ce0n - c) - 1 / 10 ^ 4 * t.pred := by linarith
      have h2 : (f - low) / u.sigma ≤ (u.f0 - low) / u.sigma + (u.ce0n - c) - 1 / 10 ^ 4 * (t.pred / u.sigma) := by
        have : (u.f0 - low) / u.sigma + (u.ce0n - c) - 1 / 10 ^ 4 * (t.pred / u.sigma) =
            ((u.f0 - low) + u.sigma * (u.ce0n - c) - 1 / 10 ^ 4 * t.pred) / u.sigma := by
          field_simp
        rw [this]
        exact div_le_div_of_nonneg_right h1 hu0.le
      linarith [hu.1]
    have hpp : 0 < 1 / 10 ^ 4 * (t.pred / t.sigma) := by
      rw [hts]
      have := div_pos hppos hu0
      positivity
    have hlow : low ≤ t.fx := by rw [o3.2.1]; exact hfin.1
    have hnew : t.rejected = false → t.pred ≠ -1 → t.ev.infoF = .fin t.fx := fun h1 _ => by
      rw [o3.2.2.2 h1, o3.2.1]; exact info
    refine ⟨⟨by rw [hts]; exact hu1, hlow, ⟨c', hc', by linarith⟩, hold, hnew⟩, fun _ => hppos, fun hr => ?_⟩
    exact ⟨by rw [hts]; exact hu1, hlow, ⟨c', hc', hval⟩, (fun h1 => by rw [hr.2] at h1; cases h1), hnew⟩
  · exact keep k
  · exact keep k

/-- At the first pass. -/
theorem start_merit {e : Env K F} {x0 : List K} {fuel : ℕ} {Δ : K} {sl : List K} {s0 : MSt K F}
    (H : Starts e x0 fuel Δ sl s0) (low c : K) (hc : e.resNorm s0.infoCe s0.sl = some c) (hlow : low ≤ s0.fx) :
    MeritLevel e low (s0.fx - low + c) s0 ∧ s0.sigma = 1 ∧ s0.ev.X[0]? = some x0 ∧ s0.ev.fX[0]? = some (.fin s0.fx) := by
  have hI0 := H.started.inv
  obtain ⟨hX0, hi0, hf0, hr0, hs0⟩ : s0.ev.X[0]? = some x0 ∧ s0.ixbest = 0 ∧
      s0.ev.infoF = .fin s0.fx ∧ s0.rejected = false ∧ s0.sigma = 1 := by
    have hs := H.state
    unfold startState at hs
    split at hs
    · rename_i D ev hi
      have hX := (C48_done_complete e.U x0 _ _ _ _ _ _ rfl hi).2.1
      unfold mainInit at hs
      split at hs
      · split at hs
        · cases hs
        · simp only [Option.some.injEq] at hs
          subst hs
          have hx : ev.X[0]? = some x0 := by rw [hX]; rfl
          exact ⟨hx, rfl, rfl, rfl, rfl⟩
      · cases hs
    · cases hs
  have hv0 : s0.ev.fX[0]? = some (.fin s0.fx) := by
    obtain ⟨i, y, f, b1, -, b3, -, b5⟩ := hI0.link 0 (by have := hI0.lo; omega) (by simp)
    rw [hI0.ind0, hi0] at b1
    rw [hI0.f0] at b3
    simp only [Option.some.injEq] at b1 b3
    rw [b3]; rw [← b1] at b5; exact b5
  refine ⟨⟨by rw [hs0], hlow, ⟨c, hc, ?_⟩, fun h1 => (by rw [hr0] at h1; cases h1), fun _ _ => hf0⟩, hs0, hX0, hv0⟩
  rw [hs0, div_one]

/-- No pass of the run improves the interpolation set. -/
def Spec.NoImprove (e : Env K F) (os : List (Orc K F)) (s0 : MSt K F) : Prop :=
  ∀ pre o post s, os = pre ++ o :: post → mainLoop e pre s0 = .running s → ¬ Improves e o s

theorem noImprove_init {e : Env K F} {os : List (Orc K F)} {o : Orc K F} {s0 : MSt K F} (h : NoImprove e (os ++ [o]) s0) :
    NoImprove e os s0 := fun pre o' post s h1 h2 => h pre o' (post ++ [o]) s (by rw [h1]; simp) h2

/-- Along a run. -/
theorem MeritLevel.run {e : Env K F} {x0 : List K} {fuel : ℕ} {Δ : K} {sl : List K} {s0 : MSt K F}
    (H : Starts e x0 fuel Δ sl s0) (hme : 0 < e.me) (hN : Sizes e) {low b : K} (h0 : MeritLevel e low b s0) (os : List (Orc K F)) :
    ∀ {t : MSt K F}, mainLoop e os s0 = .running t → NoImprove e os s0 → (∀ q, .fin q ∈ t.ev.fX → low ≤ q ∧ q < 10 ^ 25) →
    MeritLevel e low (b - 1 / 10 ^ 4 * (shares Regular e os s0).sum) t ∧ s0.sigma ≤ t.sigma ∧
      (∀ r ∈ shares Taken e os s0, 0 < r) ∧ ∀ p ∈ gains Taken e os s0, 0 < p := by
  induction os using List.reverseRecOn with
  | nil =>
    intro t h _ _
    simp only [mainLoop, MainRes.running.injEq] at h
    subst h
    refine ⟨by simpa [shares] using h0, le_refl _, by simp [shares], by simp [gains]⟩
  | append_singleton os o ih =>
    intro t h hI hq
    obtain ⟨s, h1, h2⟩ := running_snoc h
    have hst : ∀ q, .fin q ∈ s.ev.fX → low ≤ q ∧ q < 10 ^ 25 := by
      intro q hm
      obtain ⟨d, hd⟩ := mainLoop_added e [o] s t (H.memory os s h1).inv.hlen (Or.inl (by simp only [mainLoop, h2]))
      obtain ⟨l, hl⟩ := hd.fX
      exact hq q (by rw [← hl]; exact List.mem_append_left _ hm)
    obtain ⟨i1, i2, i3, i4⟩ := ih h1 (noImprove_init hI) hst
    obtain ⟨p1, p2, p3⟩ := i1.pass H hme hN h1 h2 (hI os o [] s rfl h1) hq
    have hst : s.sigma ≤ t.sigma := by
      obtain ⟨v, u, w, -, vsig, -, -, -, -, -, -, -, -, B, -, -, hd⟩ := pass_before e H.ok o s t (H.memory os s h1).inv h2
      have fr := (decideStep_outcome e o _ u t B.inv hd).1
      rw [fr.sigma, ← vsig]; exact B.sigma
    have hpos : 0 < t.sigma := lt_of_lt_of_le one_pos p1.sigma
    rw [shares_append _ _ _ _ _ _ _ h1 h2, shares_append _ _ _ _ _ _ _ h1 h2, gains_append _ _ _ _ _ _ _ h1 h2]
    refine ⟨?_, i2.trans hst, ?_, ?_⟩
    · by_cases hr : Regular t
      · have := p3 hr
        rw [if_pos hr, List.sum_append, List.sum_singleton]
        have e1 : b - 1 / 10 ^ 4 * ((shares Regular e os s0).sum + t.pred / t.sigma) =
            b - 1 / 10 ^ 4 * (shares Regular e os s0).sum - 1 / 10 ^ 4 * (t.pred / t.sigma) := by ring
        rw [e1]; exact this
      · rw [if_neg hr, List.append_nil]; exact p1
    · intro r hr
      rcases List.mem_append.1 hr with hr | hr
      · exact i3 r hr
      · split_ifs at hr with hT
        · rw [List.mem_singleton.1 hr]; exact div_pos (p2 hT) hpos
        · cases hr
    · intro r hr
      rcases List.mem_append.1 hr with hr | hr
      · exact i4 r hr
      · split_ifs at hr with hT
        · rw [List.mem_singleton.1 hr]; exact p2 hT
        · cases hr

/-! ### The properties -/

theorem residual_resNorm {e : Env K F} {ce sl r : List K} (h : Residual e.ns ce sl r) : e.resNorm ce sl = some (e.nrm r) := by
  obtain ⟨c, hc⟩ : ∃ c, e.resNorm ce sl = some c := by
    unfold Env.resNorm resid
    by_cases h0 : e.ns = 0
    · rw [if_pos h0]; exact ⟨_, rfl⟩
    · obtain ⟨h1, h2⟩ := h.shape (by omega)
      rw [if_neg h0, if_neg (by rw [not_or, not_lt, not_not]; exact ⟨h2, h1⟩)]
      exact ⟨_, rfl⟩
  obtain ⟨r', h1, h2⟩ := resNorm_residual hc
  rw [hc, h2, Residual.unique h1 h]

/-- The constraint data between the passes. -/
theorem ce_run {e : Env K F} {x0 : List K} {fuel : ℕ} {Δ : K} {sl : List K} {s0 : MSt K F} (H : Starts e x0 fuel Δ sl s0) (hT : e.Tame)
    (os : List (Orc K F)) (t : MSt K F) (h : mainLoop e os s0 = .running t) :
    Inv e [] t ∧ t.ev.ceX[t.ixbest]? = some (t.infoCe.map Fl.fin) := by
  have key := mainLoop_induct e (fun s => Inv e [] s ∧ Ce e [] s) (fun _ => True) (fun _ => True) (fun o s hs =>
    ((pass_sat e H.ok o s hs.1).and (pass_ce H.ok H.constr hT o s hs.2 hs.1)).mono
      (fun _ h => ⟨h.1.1, h.2⟩) (fun _ _ => trivial) (fun _ _ => trivial)) os s0
    ⟨H.started.1, startState_ce H.constr hT x0 fuel Δ sl s0 H.state⟩
  rw [h] at key
  obtain ⟨hI, hc⟩ : Inv e [] t ∧ Ce e [] t := key
  refine ⟨hI, ?_⟩
  obtain ⟨c, c1, c2⟩ := hc.pair.2 0 (by simp) _ hI.ind0
  have h3 := hc.info
  rw [c2] at h3
  simp only [Option.some.injEq] at h3
  rw [← h3]; exact c1

/-- **C114.**  Constrained runs without improvements of the interpolation set, recorded objective values in `[low, 1e25)`: the sum of the
quotients of predicted decrease and penalty parameter over the successful steps, times `1e-4`, plus the scaled merit value
`(f - low)/sigma + |residual|` of the iterate, is at most `f(x0) - low + |residual at x0|`; all summands are positive. -/
theorem C114_merit {e : Env K F} {x0 : List K} {fuel : ℕ} {Δ : K} {sl : List K} {s0 : MSt K F}
    (H : Starts e x0 fuel Δ sl s0) (hT : e.Tame) (hN : Sizes e) (os : List (Orc K F)) (t : MSt K F)
    (h : mainLoop e os s0 = .running t) (hI : NoImprove e os s0) (low : K) (hq : ∀ q, .fin q ∈ t.ev.fX → low ≤ q ∧ q < 10 ^ 25)
    (ce0 r0 : List K) (hce : s0.ev.ceX[0]? = some (ce0.map Fl.fin)) (hr0 : Residual e.ns ce0 sl r0) :
    ∃ (f0 f : K) (ce r : List K), t.ev.X[0]? = some x0 ∧ t.ev.fX[0]? = some (.fin f0) ∧
      t.ev.X[t.ixbest]? = some t.x ∧ t.ev.fX[t.ixbest]? = some (.fin f) ∧ t.ev.ceX[t.ixbest]? = some (ce.map Fl.fin) ∧
      Residual e.ns ce t.sl r ∧ low ≤ f ∧ 1 ≤ t.sigma ∧
      1 / 10 ^ 4 * (shares Regular e os s0).sum + ((f - low) / t.sigma + e.nrm r) ≤ f0 - low + e.nrm r0 ∧
      (∀ p ∈ shares Taken e os s0, 0 < p) ∧ ∀ p ∈ gains Taken e os s0, 0 < p := by
  obtain ⟨hsl, hix0⟩ : s0.sl = sl ∧ s0.ixbest = 0 := by
    have hs := H.state
    unfold startState at hs
    split at hs
    · unfold mainInit at hs
      split at hs
      · split at hs
        · cases hs
        · simp only [Option.some.injEq] at hs
          subst hs
          exact ⟨rfl, rfl⟩
      · cases hs
    · cases hs
  obtain ⟨hI0, hc0⟩ := ce_run H hT [] s0 rfl
  obtain ⟨hIt, hct⟩ := ce_run H hT os t h
  have hce0 : s0.infoCe = ce0 := by
    rw [hix0, hce] at hc0
    simp only [Option.some.injEq] at hc0
    exact (List.map_injective_iff.2 (fun a b h => by simpa using h) hc0).symm
  have hres : e.resNorm s0.infoCe s0.sl = some (e.nrm r0) := by rw [hce0, hsl]; exact residual_resNorm hr0
  have hX0 : s0.ev.fX[0]? = some (.fin s0.fx) ∧ s0.ev.X[0]? = some x0 :=
    let h1 := start_merit H s0.fx _ hres (le_refl _)
    ⟨h1.2.2.2, h1.2.2.1⟩
  obtain ⟨d, hd⟩ := mainLoop_added e os s0 t hI0.hlen (Or.inl h)
  have hX : t.ev.X[0]? = some x0 := by
    rw [hd.X, List.getElem?_append_left (List.getElem?_eq_some_iff.1 hX0.2).1]; exact hX0.2
  have hF : t.ev.fX[0]? = some (.fin s0.fx) := by
    obtain ⟨l, hl⟩ := hd.fX
    rw [← hl, List.getElem?_append_left (List.getElem?_eq_some_iff.1 hX0.1).1]; exact hX0.1
  obtain ⟨hL, hs1, -, -⟩ := start_merit H low _ hres (hq _ (List.mem_of_getElem? hF)).1
  obtain ⟨m1, -, m3, m4⟩ := hL.run H hT.pos hN os h hI hq
  obtain ⟨c, k1, k2⟩ := m1.cur
  obtain ⟨r, k3, k4⟩ := resNorm_residual k1
  obtain ⟨i, y, f, b1, b2, b3, b4, b5⟩ := hIt.link 0 (by have := hIt.lo; omega) (by simp)
  rw [hIt.ind0] at b1
  rw [hIt.f0] at b3
  rw [hIt.Y0] at b2
  simp only [Option.some.injEq] at b1 b2 b3
  subst b1 b2 b3
  exact ⟨s0.fx, t.fx, t.infoCe, r, hX, hF, b4, b5, hct, k3, m1.above, m1.sigma, by rw [← k4]; linarith, m3, m4⟩

theorem sum_nonneg_list (l : List K) (h : ∀ p ∈ l, 0 < p) : 0 ≤ l.sum := by
  induction l with
  | nil => simp
  | cons a l ih =>
    rw [List.sum_cons]
    linarith [h a List.mem_cons_self, ih fun p hp => h p (List.mem_cons_of_mem _ hp)]

theorem shares_sub (e : Env K F) : ∀ (os : List (Orc K F)) (s : MSt K F) (p : K), p ∈ shares Regular e os s → p ∈ shares Taken e os s := by
  intro os
  induction os with
  | nil => intro s p h; exact h
  | cons o os ih =>
    intro s p h
    simp only [shares] at h ⊢
    cases hp : pass e o s with
    | ret t => rw [hp] at h; exact h
    | crash c => rw [hp] at h; exact h
    | cont t =>
      rw [hp] at h
      dsimp only at h ⊢
      by_cases hr : Regular t
      · rw [if_pos hr] at h
        rw [if_pos hr.1]
        rcases List.mem_cons.1 h with rfl | h
        · exact List.mem_cons_self
        · exact List.mem_cons_of_mem _ (ih t p h)
      · rw [if_neg hr] at h
        by_cases ht : Taken t
        · rw [if_pos ht]; exact List.mem_cons_of_mem _ (ih t p h)
        · rw [if_neg ht]; exact ih t p h

/-- **C114** (violation).  The residual of each iterate of such a run is at most `f(x0) - low + |residual at x0|`. -/
theorem C114_violation {e : Env K F} {x0 : List K} {fuel : ℕ} {Δ : K} {sl : List K} {s0 : MSt K F}
    (H : Starts e x0 fuel Δ sl s0) (hT : e.Tame) (hN : Sizes e) (os : List (Orc K F)) (t : MSt K F)
    (h : mainLoop e os s0 = .running t) (hI : NoImprove e os s0) (low : K) (hq : ∀ q, .fin q ∈ t.ev.fX → low ≤ q ∧ q < 10 ^ 25)
    (ce0 r0 : List K) (hce : s0.ev.ceX[0]? = some (ce0.map Fl.fin)) (hr0 : Residual e.ns ce0 sl r0) :
    ∃ (f0 : K) (ce r : List K), t.ev.X[0]? = some x0 ∧ t.ev.fX[0]? = some (.fin f0) ∧ t.ev.X[t.ixbest]? = some t.x ∧
      t.ev.ceX[t.ixbest]? = some (ce.map Fl.fin) ∧ Residual e.ns ce t.sl r ∧ e.nrm r ≤ f0 - low + e.nrm r0 := by
  obtain ⟨f0, f, ce, r, h1, h2, h3, -, h5, h6, h7, h8, h9, h10, hpos⟩ := C114_merit H hT hN os t h hI low hq ce0 r0 hce hr0
  refine ⟨f0, ce, r, h1, h2, h3, h5, h6, ?_⟩
  have h11 := sum_nonneg_list _ fun p hp => h10 p (shares_sub e os s0 p hp)
  have h12 : 0 ≤ (f - low) / t.sigma := div_nonneg (by linarith) (by linarith)
  have h13 : 0 ≤ 1 / 10 ^ 4 * (shares Regular e os s0).sum := mul_nonneg (by positivity) h11
  linarith

theorem gains_shares {e : Env K F} {x0 : List K} {fuel : ℕ} {Δ : K} {sl : List K} {s0 : MSt K F} (H : Starts e x0 fuel Δ sl s0)
    (os : List (Orc K F)) : ∀ {t : MSt K F}, mainLoop e os s0 = .running t → 1 ≤ s0.sigma → (∀ p ∈ shares Taken e os s0, 0 < p) →
    1 ≤ t.sigma ∧ (gains Regular e os s0).sum ≤ t.sigma * (shares Regular e os s0).sum := by
  induction os using List.reverseRecOn with
  | nil =>
    intro t h h1 _
    simp only [mainLoop, MainRes.running.injEq] at h
    subst h
    exact ⟨h1, by simp [gains, shares]⟩
  | append_singleton os o ih =>
    intro t h h0 hpos
    obtain ⟨s, h1, h2⟩ := running_snoc h
    rw [shares_append _ _ _ _ _ _ _ h1 h2] at hpos
    obtain ⟨i1, i2⟩ := ih h1 h0 fun p hp => hpos p (List.mem_append_left _ hp)
    have hst : s.sigma ≤ t.sigma := by
      obtain ⟨v, u, w, -, vsig, -, -, -, -, -, -, -, -, B, -, -, hd⟩ := pass_before e H.ok o s t (H.memory os s h1).inv h2
      have fr := (decideStep_outcome e o _ u t B.inv hd).1
      rw [fr.sigma, ← vsig]; exact B.sigma
    have hsum := sum_nonneg_list _ fun p hp => hpos p (List.mem_append_left _ (shares_sub e os s0 p hp))
    have h3 := mul_le_mul_of_nonneg_right hst hsum
    rw [shares_append _ _ _ _ _ _ _ h1 h2, gains_append _ _ _ _ _ _ _ h1 h2, List.sum_append, List.sum_append]
    refine ⟨i1.trans hst, ?_⟩
    split_ifs
    · have ht : 0 < t.sigma := by linarith
      rw [List.sum_singleton, List.sum_singleton, mul_add, mul_div_cancel₀ _ ht.ne']
      linarith
    · simp only [List.sum_nil, add_zero]; linarith

/-- **C114** (number of steps).  At most `10^4 sigma (f(x0) - low + |residual at x0|) / ε` successful steps of such a run have a predicted
decrease of at least `ε`; `sigma` is the penalty parameter at the end. -/
theorem C114_count {e : Env K F} {x0 : List K} {fuel : ℕ} {Δ : K} {sl : List K} {s0 : MSt K F}
    (H : Starts e x0 fuel Δ sl s0) (hT : e.Tame) (hN : Sizes e) (os : List (Orc K F)) (t : MSt K F)
    (h : mainLoop e os s0 = .running t) (hI : NoImprove e os s0) (low : K) (hq : ∀ q, .fin q ∈ t.ev.fX → low ≤ q ∧ q < 10 ^ 25)
    (ce0 r0 : List K) (hce : s0.ev.ceX[0]? = some (ce0.map Fl.fin)) (hr0 : Residual e.ns ce0 sl r0) (ε : K) :
    ∃ f0, t.ev.X[0]? = some x0 ∧ t.ev.fX[0]? = some (.fin f0) ∧
      (gains Regular e os s0).sum ≤ 10 ^ 4 * t.sigma * (f0 - low + e.nrm r0) ∧
      (((gains Regular e os s0).filter fun p => decide (ε ≤ p)).length : K) * ε ≤ 10 ^ 4 * t.sigma * (f0 - low + e.nrm r0) := by
  obtain ⟨f0, f, ce, r, h1, h2, h3, -, h5, h6, h7, h8, h9, h10, hpos⟩ := C114_merit H hT hN os t h hI low hq ce0 r0 hce hr0
  have hs0 : s0.sigma = 1 := by
    have hs := H.state
    unfold startState at hs
    split at hs
    · unfold mainInit at hs
      split at hs
      · split at hs
        · cases hs
        · simp only [Option.some.injEq] at hs
          subst hs
          rfl
      · cases hs
    · cases hs
  obtain ⟨g1, g2⟩ := gains_shares H os h (by rw [hs0]) h10
  have h12 : 0 ≤ (f - low) / t.sigma := div_nonneg (by linarith) (by linarith)
  have hle : (shares Regular e os s0).sum ≤ 10 ^ 4 * (f0 - low + e.nrm r0) := by
    have := H.ok.nrm_nonneg r
    linarith
  have hsum : (gains Regular e os s0).sum ≤ 10 ^ 4 * t.sigma * (f0 - low + e.nrm r0) := by
    have := mul_le_mul_of_nonneg_left hle (show 0 ≤ t.sigma by linarith)
    linarith
  refine ⟨f0, h1, h2, hsum, le_trans ?_ hsum⟩
  exact count_le_sum (gains Regular e os s0) (fun p hp => hpos p (gains_sub e os s0 p hp)) ε

theorem noImprove_of {e : Env K F} {ε : K} {os : List (Orc K F)} {s0 t : MSt K F} (h : mainLoop e os s0 = .running t)
    (hD : DescendsAll e ε os s0) : NoImprove e os s0 := by
  intro pre o post s h1 h2
  rw [h1, mainLoop_append _ _ _ _ _ h2] at h
  simp only [mainLoop] at h
  cases hp : pass e o s with
  | ret r => rw [hp] at h; cases h
  | crash c => rw [hp] at h; cases h
  | cont u => exact (hD pre o post s u h1 h2 hp).noImprove

/-- **C114** (number of passes).  If in addition all passes have predicted decreases of at least `ε`, radii above `1e-5`, models good enough and
trial points that can enter the set, and there are no slacks, the number of passes is at most
`4·10^4 sigma (f(x0) - low + |c(x0)|) / ε + L`, where `10^5 Delta ≤ 2^L`. -/
theorem C114_complexity {e : Env K F} {x0 : List K} {fuel : ℕ} {Δ : K} {sl : List K} {s0 : MSt K F}
    (H : Starts e x0 fuel Δ sl s0) (hT : e.Tame) (hN : Sizes e) (hns : e.ns = 0) {ε : K} (hε : 0 < ε) (os : List (Orc K F)) (t : MSt K F)
    (h : mainLoop e os s0 = .running t) (hD : DescendsAll e ε os s0)
    (hE : ∀ pre o post u, os = pre ++ o :: post → mainLoop e pre s0 = .running u → ∀ v, beforeStep e o u = .cont v → Enters e o v)
    (L : ℕ) (hL : s0.delta * 10 ^ 5 ≤ 2 ^ L) (low : K) (hq : ∀ q, .fin q ∈ t.ev.fX → low ≤ q ∧ q < 10 ^ 25)
    (ce0 : List K) (hce : s0.ev.ceX[0]? = some (ce0.map Fl.fin)) :
    ∃ f0, t.ev.X[0]? = some x0 ∧ t.ev.fX[0]? = some (.fin f0) ∧
      (os.length : K) * ε ≤ 4 * 10 ^ 4 * t.sigma * (f0 - low + e.nrm ce0) + L * ε := by
  have hr0 : Residual e.ns ce0 sl ce0 := by
    rw [hns]
    exact ⟨rfl, fun h => absurd h (lt_irrefl _), fun i _ => rfl, fun i c s hc _ => by
      have := (List.getElem?_eq_some_iff.1 hc).1
      omega⟩
  obtain ⟨f0, h1, h2, h3, -⟩ := C114_count H hT hN os t h (noImprove_of h hD) low hq ce0 ce0 hce hr0 ε
  refine ⟨f0, h1, h2, ?_⟩
  have h6 := C113_passes H hns hε os t h hD L hL
  have h7 := length_le_sum _ (gains_ge os s0 hD)
  rw [gains_regular H.ok os s0 H.started.1 hE] at h6 h7
  have h8 : (os.length : K) ≤ 4 * ((gains Regular e os s0).length : K) + L := by exact_mod_cast h6
  have h9 := mul_le_mul_of_nonneg_right h8 hε.le
  linarith

/-- **C114** (runs without end).  The quotients of predicted decrease and penalty parameter of the successful steps tend to 0. -/
theorem C114_infinite [Archimedean K] {e : Env K F} {x0 : List K} {fuel : ℕ} {Δ : K} {sl : List K} {s0 : MSt K F}
    (H : Starts e x0 fuel Δ sl s0) (hT : e.Tame) (hN : Sizes e) (o : ℕ → Orc K F) (s : ℕ → MSt K F) (h0 : s 0 = s0)
    (hs : ∀ i, pass e (o i) (s i) = .cont (s (i + 1))) (hI : ∀ i, ¬ Improves e (o i) (s i)) (low : K)
    (hq : ∀ i q, .fin q ∈ (s i).ev.fX → low ≤ q ∧ q < 10 ^ 25)
    (ce0 r0 : List K) (hce : s0.ev.ceX[0]? = some (ce0.map Fl.fin)) (hr0 : Residual e.ns ce0 sl r0) (ε : K) (hε : 0 < ε) :
    ∃ N, ∀ i, N ≤ i → Regular (s (i + 1)) → (s (i + 1)).pred / (s (i + 1)).sigma < ε := by
  have hrun : ∀ i, mainLoop e ((List.range i).map o) s0 = .running (s i) := by
    intro i
    induction i with
    | zero => rw [← h0]; rfl
    | succ i ih =>
      rw [List.range_succ, List.map_append, List.map_singleton, mainLoop_append _ _ _ _ _ ih]
      simp only [mainLoop, hs i]
  have hNI : ∀ i, NoImprove e ((List.range i).map o) s0 := by
    intro i pre a post u h1 h2
    have hl : pre.length < i := by
      have := congrArg List.length h1
      simp only [List.length_map, List.length_range, List.length_append, List.length_cons] at this
      omega
    have hpre : pre = (List.range pre.length).map o := by
      have := congrArg (List.take pre.length) h1
      rw [List.take_left', ← List.map_take, List.take_range, Nat.min_eq_left hl.le] at this
      · exact this.symm
      · rfl
    have ha : a = o pre.length := by
      have := congrArg (fun l => l[pre.length]?) h1
      simp only [List.getElem?_map, List.getElem?_range hl, Option.map_some, List.getElem?_append_right (le_refl _), Nat.sub_self,
        List.getElem?_cons_zero, Option.some.injEq] at this
      exact this.symm
    rw [hpre, hrun] at h2
    simp only [MainRes.running.injEq] at h2
    rw [ha, ← h2]
    exact hI _
  obtain ⟨b, hb⟩ : ∃ b, ∀ i, (shares Regular e ((List.range i).map o) s0).sum ≤ b := by
    obtain ⟨f0, -, -, -, -, k2, -⟩ := C114_merit H hT hN [] s0 rfl (fun pre a post _ h => by cases pre <;> cases h) low
      (fun q hq' => hq 0 q (by rw [h0]; exact hq')) ce0 r0 hce hr0
    refine ⟨10 ^ 4 * (f0 - low + e.nrm r0), fun i => ?_⟩
    obtain ⟨f1, f, ce, r, -, h2, -, -, -, -, h7, h8, h9, -⟩ := C114_merit H hT hN _ (s i) (hrun i) (hNI i) low (hq i) ce0 r0 hce hr0
    have hf : f1 = f0 := by
      obtain ⟨d, hd⟩ := mainLoop_added e _ s0 (s i) H.started.1.hlen (Or.inl (hrun i))
      obtain ⟨l, hl⟩ := hd.fX
      rw [← hl, List.getElem?_append_left (List.getElem?_eq_some_iff.1 k2).1, k2] at h2
      simp only [Option.some.injEq, Fl.fin.injEq] at h2
      exact h2.symm
    have h10 : 0 ≤ (f - low) / (s i).sigma := div_nonneg (by linarith) (by linarith)
    have h11 := H.ok.nrm_nonneg r
    rw [hf] at h9
    linarith
  have hstep : ∀ i, (shares Regular e ((List.range (i + 1)).map o) s0).sum =
      (shares Regular e ((List.range i).map o) s0).sum + if Regular (s (i + 1)) then (s (i + 1)).pred / (s (i + 1)).sigma else 0 := by
    intro i
    rw [List.range_succ, List.map_append, List.map_singleton, shares_append _ _ _ _ _ _ _ (hrun i) (hs i), List.sum_append]
    split_ifs <;> simp
  have hpos : ∀ i, Regular (s (i + 1)) → 0 < (s (i + 1)).pred / (s (i + 1)).sigma := by
    intro i hr
    obtain ⟨-, -, -, -, -, -, -, -, -, -, -, -, -, h6, -⟩ :=
      C114_merit H hT hN _ _ (hrun (i + 1)) (hNI (i + 1)) low (hq (i + 1)) ce0 r0 hce hr0
    refine h6 _ (shares_sub e _ _ _ ?_)
    rw [List.range_succ, List.map_append, List.map_singleton, shares_append _ _ _ _ _ _ _ (hrun i) (hs i), if_pos hr]
    simp
  have hmono : ∀ i k, (shares Regular e ((List.range i).map o) s0).sum ≤ (shares Regular e ((List.range (i + k)).map o) s0).sum := by
    intro i k
    induction k with
    | zero => exact le_refl _
    | succ k ih =>
      rw [← Nat.add_assoc, hstep]
      split_ifs with hr
      · linarith [hpos _ hr]
      · linarith
  by_contra hcon
  push Not at hcon
  have hk : ∀ k : ℕ, ∃ i, (k : K) * ε ≤ (shares Regular e ((List.range i).map o) s0).sum := by
    intro k
    induction k with
    | zero => exact ⟨0, by simp [shares]⟩
    | succ k ih =>
      obtain ⟨i, hi⟩ := ih
      obtain ⟨j, hij, hr, hj⟩ := hcon i
      refine ⟨j + 1, ?_⟩
      have := hmono i (j - i)
      rw [Nat.add_sub_cancel' hij] at this
      rw [hstep, if_pos hr]
      push_cast
      linarith
  obtain ⟨k, hk'⟩ := exists_nat_gt (b / ε)
  obtain ⟨i, hi⟩ := hk k
  have := hb i
  rw [div_lt_iff₀ hε] at hk'
  linarith

/-! ### Concrete runs -/

namespace Ex

theorem nrm1_mono : ∀ r r' : List ℚ, r'.length = r.length → (∀ (i : ℕ) (a b : ℚ), r[i]? = some a → r'[i]? = some b → |b| ≤ |a|) →
    nrm1 r' ≤ nrm1 r
  | [], [], _, _ => le_refl _
  | a :: r, b :: r', hl, h => by
    have h1 := h 0 a b rfl rfl
    have h2 := nrm1_mono r r' (by simpa using hl) fun i x y hx hy => h (i + 1) x y hx hy
    unfold nrm1 at h2 ⊢
    simp only [List.map_cons, List.sum_cons]
    linarith

/-- Objective `|x - 10|`, constraint `x = 0` (clipped at 100). -/
def vEnv : Env ℚ Unit := envC (fun x => |x.sum - 10|) (fun x => max (-100) (min 100 x.sum)) false

theorem vEnv_sizes : Sizes vEnv := ⟨nrm1_mono, fun h => absurd h (lt_irrefl _)⟩

theorem vEnv_tame : vEnv.Tame := envC_tame fun x => by
  rw [abs_lt]
  constructor
  · exact lt_of_lt_of_le (by norm_num) (le_max_left _ _)
  · exact lt_of_le_of_lt (max_le (by norm_num) (min_le_left _ _)) (by norm_num : (100 : ℚ) < 10 ^ 25)

/-- From 3 to 2, where the penalty parameter grows; a trial point 5/2 that is rejected; from 2 to 39/20. -/
def vRun : List (Orc ℚ Unit) :=
  [{ stepC [2] 1 with qcost := 1 }, stepC [5 / 2] 1, { stepC [39 / 20] (1 / 20) with qcost := 1 / 20 }]

/-- The hypotheses of `C114_complexity` for the pass after the first `k` ones. -/
def vCheck (s0 : MSt ℚ Unit) (k : ℕ) : Bool :=
  match mainLoop vEnv (vRun.take k) s0, vRun[k]? with
  | .running s, some o =>
    (match pass vEnv o s with
      | .cont t => decide (1 / 10 ^ 5 < o.k1.glagn) && decide (s.pred ≠ -1) && decide (1 / 10 ^ 5 < s.delta) &&
          decide (2 * vEnv.nrm (List.zipWith (· - ·) o.xnew s.x) ≤ 5 * s.delta) && decide (1 / 40 ≤ t.pred)
      | _ => true) &&
    (match beforeStep vEnv o s with
      | .cont v => (List.range v.cur).any fun j => match v.set.Y[j]? with
        | some y => decide (1 / 10 ^ 10 < |o.lval1 j|) && decide (0 < vEnv.dist y o.xnew)
        | none => false
      | _ => true)
  | _, _ => true

theorem vCheck_sound {s0 : MSt ℚ Unit} (h : ∀ k, k < 3 → vCheck s0 k = true) :
    DescendsAll vEnv (1 / 40) vRun s0 ∧ ∀ pre o post u, vRun = pre ++ o :: post → mainLoop vEnv pre s0 = .running u →
      ∀ v, beforeStep vEnv o u = .cont v → Enters vEnv o v := by
  have key : ∀ pre o post s, vRun = pre ++ o :: post → mainLoop vEnv pre s0 = .running s →
      pre.length < 3 ∧ mainLoop vEnv (vRun.take pre.length) s0 = .running s ∧ vRun[pre.length]? = some o := by
    intro pre o post s h1 h2
    refine ⟨?_, ?_, ?_⟩
    · have := congrArg List.length h1
      simp only [vRun, List.length_append, List.length_cons, List.length_nil] at this
      omega
    · rw [h1]; simpa using h2
    · rw [h1]; simp
  refine ⟨fun pre o post s u h1 h2 h3 => ?_, fun pre o post s h1 h2 v h3 => ?_⟩
  · obtain ⟨k1, k2, k3⟩ := key pre o post s h1 h2
    have := h _ k1
    unfold vCheck at this
    rw [k2, k3] at this
    simp only [h3, Bool.and_eq_true, decide_eq_true_eq] at this
    obtain ⟨⟨⟨⟨⟨a1, a2⟩, a3⟩, a4⟩, a5⟩, -⟩ := this
    refine ⟨?_, a3, a5, a4⟩
    rintro (⟨h4, -⟩ | h4 | h4)
    · exact absurd a1 (not_lt.2 h4)
    · have : (1 : ℚ) / 10 ^ 10 ≤ 1 / 10 ^ 5 := by norm_num
      linarith
    · exact a2 h4
  · obtain ⟨k1, k2, k3⟩ := key pre o post s h1 h2
    have := h _ k1
    unfold vCheck at this
    rw [k2, k3] at this
    simp only [h3, Bool.and_eq_true, List.any_eq_true, List.mem_range] at this
    obtain ⟨-, j, hj, hy⟩ := this
    cases hv : v.set.Y[j]? with
    | none => rw [hv] at hy; cases hy
    | some y =>
      rw [hv] at hy
      simp only [Bool.and_eq_true, decide_eq_true_eq] at hy
      exact Or.inr ⟨j, y, hj, hv, hy.1, hy.2⟩

/-- The run with one slack (`Ex.slackEnv`): the step to 3 increases the slack from 0 to 2. -/
def slackRun : List (Orc ℚ Unit) := [{ orc [3] 1 with slplus := [0] }]

theorem slackEnv_sizes : Sizes slackEnv := ⟨nrm1_mono, fun _ c hc => by
  by_cases h : c = 4
  · subst h; norm_num [slackEnv]
  · have : slackEnv.sqrt c = 0 := by simp [slackEnv, h]
    rw [this, zero_pow two_ne_zero, sub_zero, abs_of_pos (lt_trans (by norm_num) hc)]⟩

theorem slackEnv_tame : slackEnv.Tame := by
  refine ⟨one_pos, ?_⟩
  intro g hg w y vs hv q hq
  simp only [slackEnv, env, Option.some.injEq] at hg
  subst hg
  simp only [COut.nums.injEq] at hv
  subst hv
  rw [List.mem_singleton] at hq
  exact Or.inr ⟨_, hq, by norm_num⟩

end Ex

/-- The run meets the hypotheses of `C114_merit`, `C114_violation`, `C114_count` and `C114_complexity`; the penalty parameter grows to 3/2 and two of the
three steps are taken. -/
example : ∃ s0 t, Starts Ex.vEnv [3] 1 1 [] s0 ∧ mainLoop Ex.vEnv Ex.vRun s0 = .running t ∧ t.sigma = 3 / 2 ∧ t.x = [39 / 20] ∧
    shares Regular Ex.vEnv Ex.vRun s0 = [1 / 3, 1 / 60] ∧ s0.ev.ceX[0]? = some ([3].map Fl.fin) ∧
    (∃ (f : ℚ) (ce r : List ℚ), t.ev.fX[t.ixbest]? = some (.fin f) ∧ t.ev.ceX[t.ixbest]? = some (ce.map Fl.fin) ∧ Residual 0 ce t.sl r ∧
      1 / 10 ^ 4 * (1 / 3 + 1 / 60) + ((f - 0) / (3 / 2) + Ex.nrm1 r) ≤ 7 - 0 + 3) ∧
    ((3 : ℕ) : ℚ) * (1 / 40) ≤ 4 * 10 ^ 4 * (3 / 2) * (7 - 0 + 3) + (17 : ℕ) * (1 / 40) := by
  have h : (match Ex.start Ex.vEnv [3] with
      | none => false
      | some s => match mainLoop Ex.vEnv Ex.vRun s with
        | .running t => decide (t.sigma = 3 / 2) && decide (t.x = [39 / 20]) && decide (shares Regular Ex.vEnv Ex.vRun s = [1 / 3, 1 / 60]) &&
          decide (s.ev.ceX[0]? = some [.fin 3]) && (t.ev.fX.all fun v => Fl.le (.fin 0) v && Fl.lt v (.fin (10 ^ 25))) &&
          decide (s.delta = 1) && decide (t.ev.fX[0]? = some (.fin 7)) && (Ex.vCheck s 0 && (Ex.vCheck s 1 && Ex.vCheck s 2))
        | _ => false) = true := by decide +kernel
  split at h
  · cases h
  · rename_i s0 hs
    split at h
    · rename_i t hm
      simp only [Bool.and_eq_true, decide_eq_true_eq, List.all_eq_true] at h
      obtain ⟨⟨⟨⟨⟨⟨⟨h1, h2⟩, h3⟩, h4⟩, h5⟩, h6⟩, h7⟩, k0, k1, k2⟩ := h
      have H : Starts Ex.vEnv [3] 1 1 [] s0 := Ex.envC_starts rfl hs
      obtain ⟨c1, c2⟩ := Ex.vCheck_sound (s0 := s0) fun k hk => by
        match k, hk with
        | 0, _ => exact k0
        | 1, _ => exact k1
        | 2, _ => exact k2
      have hq : ∀ q, .fin q ∈ t.ev.fX → (0 : ℚ) ≤ q ∧ q < 10 ^ 25 := fun q hq =>
        ⟨of_decide_eq_true (h5 _ hq).1, of_decide_eq_true (h5 _ hq).2⟩
      have hr : Residual 0 [(3 : ℚ)] [] [3] :=
        ⟨rfl, fun h => absurd h (lt_irrefl _), fun i _ => rfl, fun i c s hc hs => by cases hs⟩
      refine ⟨s0, t, H, hm, h1, h2, h3, h4, ?_, ?_⟩
      · obtain ⟨f0, f, ce, r, -, a2, -, a4, a5, a6, -, -, a9, -⟩ :=
          C114_merit H Ex.vEnv_tame Ex.vEnv_sizes Ex.vRun t hm (noImprove_of hm c1) 0 hq [3] [3] h4 hr
        rw [h7] at a2
        simp only [Option.some.injEq, Fl.fin.injEq] at a2
        rw [h3, h1, ← a2] at a9
        refine ⟨f, ce, r, a4, a5, a6, ?_⟩
        have : Ex.vEnv.nrm [3] = 3 := by decide +kernel
        rw [this] at a9
        simp only [List.sum_cons, List.sum_nil, add_zero] at a9
        exact a9
      · obtain ⟨f0, -, a2, a3⟩ := C114_complexity H Ex.vEnv_tame Ex.vEnv_sizes rfl (by norm_num) Ex.vRun t hm c1 c2 17
          (by rw [h6]; norm_num) 0 hq [3] h4
        rw [h7] at a2
        simp only [Option.some.injEq, Fl.fin.injEq] at a2
        have : Ex.vEnv.nrm [3] = 3 := by decide +kernel
        rw [h1, ← a2, this] at a3
        exact a3
    · cases h

/-- A run with a slack meets the hypotheses of `C114_merit`; the residual falls from 4 to 0. -/
example : ∃ s0 t, Starts Ex.slackEnv [0] 1 1 [0] s0 ∧ mainLoop Ex.slackEnv Ex.slackRun s0 = .running t ∧ t.sl = [2] ∧
    Ex.slackEnv.Tame ∧ Sizes Ex.slackEnv ∧ NoImprove Ex.slackEnv Ex.slackRun s0 ∧ (∀ q, .fin q ∈ t.ev.fX → (-3 : ℚ) ≤ q ∧ q < 10 ^ 25) ∧
    s0.ev.ceX[0]? = some ([4].map Fl.fin) ∧ Residual 1 [(4 : ℚ)] [0] [4] ∧ Residual 1 [(4 : ℚ)] t.sl [0] ∧
    shares Regular Ex.slackEnv Ex.slackRun s0 = [1] := by
  obtain ⟨s0, H, -, t, ht, h⟩ := Ex.slackLook_spec (o := { Ex.orc [3] 1 with slplus := [0] })
    (p := fun s t => decide (t.sl = [2]) && (t.ev.fX.all fun v => Fl.le (.fin (-3)) v && Fl.lt v (.fin (10 ^ 25))) &&
      decide (s.ev.ceX[0]? = some [Fl.fin (4 : ℚ)]) && decide (s.pred ≠ -1) && decide (1 / 10 ^ 10 ≤ s.delta) && decide (Regular t) && decide (t.pred / t.sigma = 1)) (by decide +kernel)
  simp only [Bool.and_eq_true, decide_eq_true_eq, List.all_eq_true] at h
  obtain ⟨⟨⟨⟨⟨⟨h1, h2⟩, h3⟩, h4⟩, h4a⟩, h5⟩, h6⟩ := h
  refine ⟨s0, t, H, by simp only [Ex.slackRun, mainLoop, ht], h1, Ex.slackEnv_tame, Ex.slackEnv_sizes, ?_,
    fun q hq => ⟨of_decide_eq_true (h2 _ hq).1, of_decide_eq_true (h2 _ hq).2⟩, h3, ?_, ?_, ?_⟩
  · intro pre o post s k1 k2
    have hp : pre = [] := by
      cases pre with
      | nil => rfl
      | cons a pre =>
        have := congrArg List.length k1
        simp only [Ex.slackRun, List.length_append, List.length_cons, List.length_nil] at this
        omega
    subst hp
    simp only [mainLoop, MainRes.running.injEq] at k2
    subst k2
    simp only [Ex.slackRun, List.nil_append, List.cons.injEq] at k1
    obtain ⟨rfl, -⟩ := k1
    rintro (⟨k, -⟩ | k | k)
    · have k : (1 : ℚ) ≤ 1 / 10 ^ 5 := k
      norm_num at k
    · exact absurd k (not_lt.2 h4a)
    · exact h4 k
  · refine ⟨rfl, fun _ => ⟨rfl, le_refl _⟩, fun i h => ?_, fun i c s hc hs => ?_⟩
    · simp only [List.length_singleton] at h; omega
    · cases i with
      | zero => simp at hc hs; subst hc; subst hs; norm_num
      | succ i => simp at hc
  · rw [h1]
    refine ⟨rfl, fun _ => ⟨rfl, le_refl _⟩, fun i h => ?_, fun i c s hc hs => ?_⟩
    · simp only [List.length_singleton] at h; omega
    · cases i with
      | zero => simp at hc hs; subst hc; subst hs; norm_num
      | succ i => simp at hc
  · simp only [Ex.slackRun, shares, ht, if_pos h5, h6]

/-! ### A constrained run without end -/

theorem accepted_fieldsC {e : Env K F} {o : Orc K F} {f rho norms : K} {pos : ℕ} {s : MSt K F} {R : PassRes K F}
    (hR : accepted e o f rho norms pos s = R) (hc : s.ceplus.length = e.me) (hme : 0 < e.me) :
    R.Sat (fun t => t.rejected = false ∧ t.delta = succDelta rho o.active norms s.delta ∧ t.fx = f ∧ t.ev = s.ev ∧
      t.m = s.m ∧ t.pred = s.pred ∧ t.ixbest = s.m ∧ t.infoCe = s.ceplus) (fun _ => False) (fun c => c = .index) := by
  subst hR
  unfold accepted
  dsimp only
  split
  · rename_i h; exact absurd hc h.2
  split
  · rfl
  split
  · rfl
  · exact ⟨rfl, rfl, rfl, rfl, rfl, rfl, rfl, by simp [MSt.newGx, MSt.storeG, hme]⟩

namespace Ex

/-- The objective decreases with the number of the call, the constraint is constant. -/
def fadingC : User (List ℚ) ℚ := ⟨fun w _ => .num (.fin (1 / (w.logF.length + 1))), some fun _ _ => .nums [.fin 1]⟩

def fcEnv : Env ℚ (List (List ℚ)) := { gEnv fadingC .pinf with me := 1 }

theorem nrm_one : fcEnv.nrm [1] = 1 := by decide +kernel

theorem ones_replace (n : ℕ) : replaceHuge (List.replicate n [Fl.fin (1 : ℚ)]) = some (List.replicate n [.fin 1]) ∧
    replaceHugeNeg (List.replicate n [Fl.fin (1 : ℚ)]) = some (List.replicate n [.fin 1]) :=
  replaceHuge_good (me := 1) fun col hc => ⟨[1], List.eq_of_mem_replicate hc, rfl, fun v hv => by
    rw [List.mem_singleton] at hv; subst hv; norm_num⟩

theorem fading_augmC (y : List ℚ) (ev : EvSt (List ℚ) ℚ) (hl : ev.fX.length = ev.X.length) (hc : ev.ceX.length = ev.X.length) :
    augmX fadingC (.fin big) y ev.X.length ev = some { ev with
      X := ev.X ++ [y], fX := ev.fX ++ [.fin (1 / (ev.w.logF.length + 1))], nsimul := ev.nsimul + 1,
      infoF := .fin (1 / (ev.w.logF.length + 1)), ceX := ev.ceX ++ [[.fin 1]],
      w := { ev.w with logF := ev.w.logF ++ [y], logC := ev.w.logC ++ [y] } } := by
  have h1 : ¬ (big : ℚ) ≤ 1 / (ev.w.logF.length + 1) := by
    have h2 : (1 : ℚ) / (ev.w.logF.length + 1) ≤ 1 := by
      rw [div_le_one (by positivity)]; linarith [Nat.cast_nonneg (α := ℚ) ev.w.logF.length]
    have h3 : (1 : ℚ) < big := by unfold big; norm_num
    linarith
  have h2 : (Fl.fin (big : ℚ)).fmin (.fin (1 / (ev.w.logF.length + 1))) = .fin (1 / (ev.w.logF.length + 1)) := by
    simp only [Fl.fmin, Fl.isNan, Fl.le, h1, decide_false, Bool.false_eq_true, if_false]
  have h3 : clipCe (Fl.fin (1 : ℚ)) = .fin 1 := by decide +kernel
  unfold augmX sqpdfoFunc fadingC
  simp only [setOrAppend, hl, hc, lt_irrefl, if_false, h2]
  simp [Fl.isNan, Fl.isInf, h3]

/-- A state of the endless run. -/
structure FadesC (s0 s : MSt ℚ (List (List ℚ))) : Prop where
  run : ∃ os, mainLoop fcEnv os s0 = .running s
  rejected : s.rejected = false
  pred : s.pred ≠ -1
  delta : 1 ≤ s.delta
  infoF : s.ev.infoF = .fin s.fx
  cols : s.ev.ceX = List.replicate (s.m + 1) [.fin 1]
  ce : s.infoCe = [1]
  log : s.ev.w.logF.length = s.m + 1
  fx : 1 / (s.m + 2 : ℚ) < s.fx
  x : s.x.length = 1

theorem fadesC_next {s0 s : MSt ℚ (List (List ℚ))} (H : Starts fcEnv [3] 1 1 [] s0) (h : FadesC s0 s) :
    ∃ t, pass fcEnv (fadeOrc s) s = .cont t ∧ FadesC s0 t ∧ Regular t := by
  obtain ⟨os, hos⟩ := h.run
  have hI := (H.memory os s hos).inv
  have hC := pass_sat fcEnv H.ok (fadeOrc s) s hI
  have hp : 0 < s.fx - 1 / (s.m + 2 : ℚ) := by linarith [h.fx]
  have hsg := hI.sigma
  obtain ⟨a, ha⟩ := List.length_eq_one_iff.1 h.x
  have hcase : (∃ t, pass fcEnv (fadeOrc s) s = .cont t ∧ t.rejected = false ∧ 1 ≤ t.delta ∧ t.fx = 1 / (s.m + 2 : ℚ) ∧ t.ev.infoF = .fin (1 / (s.m + 2 : ℚ)) ∧
      t.ev.ceX = List.replicate (s.m + 2) [.fin 1] ∧ t.ev.w.logF.length = s.m + 2 ∧ t.m = s.m + 1 ∧ 0 < t.pred ∧ t.ixbest = s.m + 1 ∧ t.infoCe = [1] ∧ t.ev.X[s.m + 1]? = some [a + 1]) ∨
      pass fcEnv (fadeOrc s) s = .crash .index := by
    obtain ⟨N, u, hu, u1, u2, u3, u4, u5, u6, u8, u9, u10, u11, u12, u13⟩ : ∃ N u, pass fcEnv (fadeOrc s) s = decideStep fcEnv (fadeOrc s) N u ∧
        u.delta = s.delta ∧ u.set = s.set ∧ u.cur = s.cur ∧ u.m = s.m + 1 ∧ u.ev.fX[s.m + 1]? = some (.fin (1 / (s.m + 2 : ℚ))) ∧ u.ceplus = [1] ∧
        u.merit0 = s.fx + s.sigma ∧ u.ev.infoF = .fin (1 / (s.m + 2 : ℚ)) ∧ u.ev.ceX = List.replicate (s.m + 2) [.fin 1] ∧ u.ev.w.logF.length = s.m + 2 ∧ u.ev.X[s.m + 1]? = some [a + 1] ∧ u.sigma = s.sigma := by
      have e1 : fcEnv.miter.le (.fin (s.niter : ℚ)) = false := rfl
      have e2 : fcEnv.msimul.le (.fin (s.ev.nsimul : ℚ)) = false := rfl
      have e3 : ¬ (s.delta < 1 / 10 ^ 10) := by linarith [h.delta, show (1 : ℚ) / 10 ^ 10 ≤ 1 by norm_num]
      have e4 : ¬ ((1 : ℚ) ≤ 1 / 10 ^ 5) := by norm_num
      have hq : (1 : ℚ) / (s.m + 1 + 1) = 1 / (s.m + 2) := by ring
      have hsum : s.x.sum = a := by rw [ha]; simp
      have hXl : s.m + 1 = s.ev.X.length := hI.Xlen.symm
      have hev := fading_augmC [a + 1] { s.ev with flag := Status.success } (by simp only; rw [hI.fXlen, hI.Xlen]) (by simp only; rw [h.cols, hI.Xlen, List.length_replicate])
      dsimp only at hev
      rw [← hXl] at hev
      refine ⟨stepNorm fcEnv (fadeOrc s) s, { s.measure (fadeOrc s).k1 with
        niter := s.niter + 1
        ev := { s.ev with
          flag := Status.success, X := s.ev.X ++ [[a + 1]], fX := s.ev.fX ++ [.fin (1 / (s.ev.w.logF.length + 1))], nsimul := s.ev.nsimul + 1,
          infoF := .fin (1 / (s.ev.w.logF.length + 1)), ceX := s.ev.ceX ++ [[.fin 1]], w := { s.ev.w with logF := s.ev.w.logF ++ [[a + 1]], logC := s.ev.w.logC ++ [[a + 1]] } }
        m := s.m + 1
        f0 := s.fx
        ceplus := [1]
        ce0n := 1
        merit0 := s.fx + s.sigma * 1 }, ?_, ?_⟩
      · have p1 : pass fcEnv (fadeOrc s) s = stepStage fcEnv (fadeOrc s)
            { s.measure (fadeOrc s).k1 with ev := { s.ev with flag := Status.success } } := by
          unfold pass
          rw [e1, e2]
          simp only [Bool.false_eq_true, if_false]
          rw [if_neg (show ¬ (fadeOrc s).k1.fail = true from Bool.false_ne_true), if_neg]
          · rfl
          · rintro (⟨k, -⟩ | k | k)
            · exact e4 k
            · exact e3 k
            · exact h.pred k
        rw [p1]
        have p2 : globalise fcEnv { s.measure (fadeOrc s).k1 with ev := { s.ev with flag := Status.success } } =
            .cont { s.measure (fadeOrc s).k1 with ev := { s.ev with flag := Status.success }, f0 := s.fx, ce0n := 1, merit0 := s.fx + s.sigma * 1 } := by
          unfold globalise
          simp only [MSt.measure, h.rejected, h.infoF, Fl.val?, resNorm_some (show fcEnv.ns = 0 from rfl), h.ce, nrm_one, Bool.false_eq_true, if_false]
        unfold stepStage
        rw [p2]
        simp only [PassRes.bind]
        rw [if_neg (show ¬ (fadeOrc s).tfail = true from Bool.false_ne_true)]
        have p3 : ∀ r : MSt ℚ (List (List ℚ)), r.sigma = s.sigma → penalty (fadeOrc s) r = .cont r := by
          intro r hr
          unfold penalty
          rw [if_neg]
          rw [hr, show sigmab (fadeOrc s) = 0 from if_pos rfl]
          linarith
        rw [p3]
        rotate_left
        · rfl
        dsimp only
        have p4 : (fadeOrc s).xnew = [a + 1] := by simp [fadeOrc, gOrc, hsum]
        unfold evalTrial
        dsimp only [MSt.measure]
        rw [p4, show fcEnv.U = fadingC from rfl, hev]
        have hcol : s.ev.ceX ++ [[Fl.fin 1]] = List.replicate (s.m + 2) [Fl.fin 1] := by rw [h.cols, List.replicate_succ' (n := s.m + 1)]
        obtain ⟨g1, g2⟩ := ones_replace (s.m + 2)
        have g3 : ((finVals (List.replicate (s.m + 2) [Fl.fin (1 : ℚ)])).any fun v => decide (v ≠ 0)) = true := by
          simp [finVals, List.replicate_succ]
        have g4 : (List.replicate (s.m + 2) [Fl.fin (1 : ℚ)])[s.m + 1]? = some [.fin 1] := by
          rw [List.getElem?_replicate, if_pos (by omega)]
        simp only [hcol, Status.success, ne_eq, not_true_eq_false, if_false, g3, if_true, g1, Option.bind_some, g2, g4]
        rfl
      · refine ⟨rfl, rfl, rfl, rfl, ?_, rfl, by simp, by simp only [h.log]; rw [← hq]; push_cast; rfl, by simp only; rw [h.cols, List.replicate_succ' (n := s.m + 1)], by simp [h.log], ?_, rfl⟩
        · simp only [h.log]
          rw [List.getElem?_append_right (by rw [hI.fXlen]), hI.fXlen, Nat.sub_self, ← hq]
          push_cast
          rfl
        · simp only
          rw [hXl]
          simp
    have hne : newPred (fadeOrc s) u.sigma = s.fx - 1 / (s.m + 2 : ℚ) := by
      simp only [newPred, fadeOrc, gOrc, mul_zero, add_zero, neg_neg, lt_irrefl, if_false]
      rw [if_neg (not_lt.2 hp.le), if_neg hp.ne']
    have hsum' : s.x.sum = a := by rw [ha]; simp
    have hgr : ¬ growable fcEnv u.cur := by
      have h1 := hI.lo
      rw [u3]
      rintro (h2 | ⟨h2, -⟩)
      · have h3 : fcEnv.pfinal = 2 := rfl
        have h4 : fcEnv.n = 1 := rfl
        omega
      · cases h2
    rw [hu]
    have hrho : (u.merit0 - (1 / (s.m + 2 : ℚ) + u.sigma * 1)) / (s.fx - 1 / (s.m + 2 : ℚ)) = 1 := by
      rw [u8, u13, mul_one, add_sub_add_right_eq_sub, div_self hp.ne']
    have hinc := includeInY_isSome fcEnv.dist fcEnv.build (fadeOrc s).lval1 u.cur (1 / 10 ^ 10) (by norm_num) (fadeOrc s).xnew u.set.Y u.set.fac
      ⟨0, [a], by rw [u3]; have := hI.lo; omega, by rw [u2, hI.Y0, ha], by simp only [fadeOrc, gOrc]; norm_num, by simp [fadeOrc, gOrc, hsum', Env.dist, fcEnv, gEnv, nrm1]⟩
    have hn1 : ¬ s.fx - 1 / (s.m + 2 : ℚ) = -1 := by linarith
    unfold decideStep
    rw [u4, u5, resNorm_some (show fcEnv.ns = 0 from rfl), u6]
    simp only [Option.bind_some, Fl.val?, hne]
    rw [nrm_one, if_neg hn1, if_neg hn1, hrho, if_pos (by unfold cEta1; norm_num), if_neg (by rw [u8, u13]; linarith), if_neg hgr]
    cases hi : (includeInY fcEnv.dist fcEnv.build (fadeOrc s).lval1 (List.range u.cur) (1 / 10 ^ 10) .distance (fadeOrc s).xnew (fadeOrc s).xnew u.set.Y u.set.fac).1 with
    | none => rw [hi] at hinc; cases hinc
    | some pos =>
      dsimp only
      generalize hR : accepted fcEnv (fadeOrc s) _ _ _ _ _ = R
      have hA := accepted_fieldsC hR rfl one_pos
      cases R with
      | ret r => exact hA.elim
      | crash c => exact Or.inr (congrArg _ hA)
      | cont t =>
        obtain ⟨k1, k2, k3, k4, k5, k6, k7, k8⟩ := hA
        dsimp only at k2 k4 k5 k6 k7 k8
        refine Or.inl ⟨t, rfl, k1, ?_, k3, by rw [k4, u9], by rw [k4, u10], by rw [k4, u11], k5, by rw [k6]; exact hp, k7, k8, by rw [k4, u12]⟩
        rw [k2, u1]
        have hd := h.delta
        unfold succDelta
        rw [if_pos (by unfold cEta2; norm_num), if_neg (fun k => Bool.false_ne_true k.1)]
        refine le_min (hd.trans (le_max_right _ _)) (by unfold cDeltamax; norm_num)
  rcases hcase with ⟨t, ht, t1, t2, t3, t4, t5, t6, t7, t8, t9, t10, t12⟩ | hbad
  · have hrun : mainLoop fcEnv (os ++ [fadeOrc s]) s0 = .running t := by
      rw [mainLoop_append _ _ _ _ _ hos]; simp only [mainLoop, ht]
    have hI' := (H.memory _ _ hrun).inv
    refine ⟨t, ht, ⟨⟨_, hrun⟩, t1, by linarith, t2, by rw [t4, t3], by rw [t5, t7], t10, by rw [t6, t7], ?_, ?_⟩, ?_, t1⟩
    · rw [t3, t7]
      apply one_div_lt_one_div_of_lt
      · positivity
      · push_cast; linarith
    · obtain ⟨i, y, f, c1, c2, -, c4, -⟩ := hI'.link 0 (by have := hI'.lo; omega) (by simp)
      rw [hI'.ind0, t9] at c1
      rw [hI'.Y0] at c2
      simp only [Option.some.injEq] at c1 c2
      rw [← c1, t12] at c4
      rw [c2, ← Option.some.inj c4]; rfl
    · unfold Taken; rw [hI'.Xlen, t7, t9]
  · rw [hbad] at hC
    rcases hC with h | h | h <;> cases h

/-- The run does not end. -/
theorem fadesC_run {s0 : MSt ℚ (List (List ℚ))} (H : Starts fcEnv [3] 1 1 [] s0) (h : FadesC s0 s0) :
    ∃ s : ℕ → MSt ℚ (List (List ℚ)), s 0 = s0 ∧ ∀ i, pass fcEnv (fadeOrc (s i)) (s i) = .cont (s (i + 1)) ∧ Regular (s (i + 1)) ∧ 1 ≤ (s i).delta ∧ (s i).pred ≠ -1 := by
  have hn : ∀ s : {s // FadesC s0 s}, ∃ t : {s // FadesC s0 s}, pass fcEnv (fadeOrc s.1) s.1 = .cont t.1 ∧ Regular t.1 := by
    rintro ⟨s, hs⟩
    obtain ⟨t, h1, h2, h3⟩ := fadesC_next H hs
    exact ⟨⟨t, h2⟩, h1, h3⟩
  choose g hg using hn
  exact ⟨fun i => (g^[i] ⟨s0, h⟩).1, rfl, fun i => by
    have := hg (g^[i] ⟨s0, h⟩)
    simp only [Function.iterate_succ_apply']
    exact ⟨this.1, this.2, (g^[i] ⟨s0, h⟩).2.delta, (g^[i] ⟨s0, h⟩).2.pred⟩⟩

end Ex

/-- A constrained run without end that meets the hypotheses of `C114_infinite`; all of its steps are successful. -/
example : ∃ (o : ℕ → Orc ℚ (List (List ℚ))) (s : ℕ → MSt ℚ (List (List ℚ))), Starts Ex.fcEnv [3] 1 1 [] (s 0) ∧
    (∀ i, pass Ex.fcEnv (o i) (s i) = .cont (s (i + 1))) ∧ (∀ i, Regular (s (i + 1))) ∧ (∀ i, ¬ Improves Ex.fcEnv (o i) (s i)) ∧
    (∀ i q, .fin q ∈ (s i).ev.fX → 0 ≤ q ∧ q < 10 ^ 25) ∧ (s 0).ev.ceX[0]? = some ([1].map Fl.fin) ∧ Residual 0 [(1 : ℚ)] [] [1] ∧
    ∀ ε, 0 < ε → ∃ N, ∀ i, N ≤ i → (s (i + 1)).pred / (s (i + 1)).sigma < ε := by
  have h : ((startState Ex.fcEnv [3] 1 1 []).any fun s => !s.rejected && decide (s.pred ≠ -1) && decide (s.delta = 1) && decide (s.fx = 1) &&
      decide (s.ev.infoF.val? = some 1) && decide (s.ev.ceX = [[.fin 1], [.fin 1]]) && decide (s.infoCe = [1]) &&
      decide (s.ev.w.logF.length = 2) && decide (s.m = 1) && decide (s.x = [3])) = true := by
    decide +kernel
  cases hs : startState Ex.fcEnv [3] 1 1 [] with
  | none => rw [hs] at h; cases h
  | some s0 =>
    rw [hs] at h
    simp only [Option.any_some, Bool.and_eq_true, Bool.not_eq_true', decide_eq_true_eq] at h
    obtain ⟨⟨⟨⟨⟨⟨⟨⟨⟨h1, h2⟩, h3⟩, h4⟩, h5⟩, h6⟩, h7⟩, h9⟩, h10⟩, h11⟩ := h
    have hC : Ex.fcEnv.Constr := by
      refine ⟨fun h => (by cases h), ?_⟩
      intro g hg w y vs hv
      have : g = fun _ _ => .nums [.fin 1] := (Option.some.inj hg).symm
      subst this
      simp only [COut.nums.injEq] at hv
      subst hv
      rfl
    have hT : Ex.fcEnv.Tame := by
      refine ⟨one_pos, ?_⟩
      intro g hg w y vs hv q hq
      have : g = fun _ _ => .nums [.fin 1] := (Option.some.inj hg).symm
      subst this
      simp only [COut.nums.injEq] at hv
      subst hv
      rw [List.mem_singleton] at hq
      exact Or.inr ⟨_, hq, by norm_num⟩
    have hN : Sizes Ex.fcEnv := ⟨Ex.nrm1_mono, fun h => absurd h (lt_irrefl _)⟩
    have H : Starts Ex.fcEnv [3] 1 1 [] s0 := ⟨⟨Ex.nrm1_nonneg, Ex.descOrder_sorted⟩, hC, rfl, one_pos, hs⟩
    have hf0 : s0.ev.infoF = .fin s0.fx := by
      cases hf : s0.ev.infoF <;> rw [hf] at h5 <;> simp [Fl.val?] at h5
      rw [h5, h4]
    obtain ⟨s, k0, k⟩ := Ex.fadesC_run H ⟨⟨[], rfl⟩, h1, h2, by rw [h3], hf0, by rw [h6, h10]; rfl, h7, by rw [h9, h10], by rw [h4, h10]; norm_num, by rw [h11]; rfl⟩
    have hlow : ∀ i q, .fin q ∈ (s i).ev.fX → 0 ≤ q ∧ q < 10 ^ 25 := by
      intro i q hq
      have hrun : ∀ i, ∃ os, mainLoop Ex.fcEnv os s0 = .running (s i) := by
        intro i
        induction i with
        | zero => exact ⟨[], by rw [k0]; rfl⟩
        | succ i ih =>
          obtain ⟨os, ho⟩ := ih
          exact ⟨os ++ [Ex.fadeOrc (s i)], by rw [mainLoop_append _ _ _ _ _ ho]; simp only [mainLoop, (k i).1]⟩
      obtain ⟨os, ho⟩ := hrun i
      obtain ⟨-, -, -, -, -, -, hr⟩ := C14_interpolation_data H os (s i) (Or.inl ho)
      obtain ⟨j, hj⟩ := List.mem_iff_getElem?.1 hq
      obtain ⟨y, w, p, r, -, -, a3, a4, a5⟩ := hr _ _ hj
      have hp : 0 ≤ p ∧ p ≤ 1 := by
        have : p = 1 / (w.logF.length + 1) := by
          have : FOut.num (Fl.fin (1 / (w.logF.length + 1 : ℚ))) = .num (.fin p) := a3
          simpa using this.symm
        rw [this]
        refine ⟨by positivity, ?_⟩
        rw [div_le_one (by positivity)]; linarith [Nat.cast_nonneg (α := ℚ) w.logF.length]
      simp only [Fl.fin.injEq] at a4
      have hb : p < 10 ^ 25 := lt_of_le_of_lt hp.2 (by norm_num)
      rw [a4, a5.1 hb.le]
      exact ⟨hp.1, hb⟩
    have hne : ∀ i, ¬ Improves Ex.fcEnv (Ex.fadeOrc (s i)) (s i) := by
      rintro i (⟨a, -⟩ | a | a)
      · have a : (1 : ℚ) ≤ 1 / 10 ^ 5 := a
        norm_num at a
      · have a : (s i).delta < 1 / 10 ^ 10 := a
        linarith [(k i).2.2.1, show (1 : ℚ) / 10 ^ 10 ≤ 1 by norm_num]
      · exact (k i).2.2.2 a
    have hce : s0.ev.ceX[0]? = some ([1].map Fl.fin) := by rw [h6]; rfl
    have hr : Residual 0 [(1 : ℚ)] [] [1] :=
      ⟨rfl, fun h => absurd h (lt_irrefl _), fun i _ => rfl, fun i c s hc hs => by cases hs⟩
    refine ⟨fun i => Ex.fadeOrc (s i), s, k0 ▸ H, fun i => (k i).1, fun i => (k i).2.1, hne, hlow, k0 ▸ hce, hr, fun ε hε => ?_⟩
    obtain ⟨N, hN'⟩ := C114_infinite H hT hN _ s k0 (fun i => (k i).1) hne 0 hlow [1] [1] hce hr ε hε
    exact ⟨N, fun i hi => hN' i hi (k i).2.1⟩

#print axioms C114_merit
#print axioms C114_violation
#print axioms C114_count
#print axioms C114_complexity
#print axioms C114_infinite

end Sqpdfo
