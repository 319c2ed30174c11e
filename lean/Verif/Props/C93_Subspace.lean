import Verif.Props.C79_Minq

/-! # C93: the search direction in the subspace of the free variables -/

set_option linter.unusedSectionVars false

namespace Sqpdfo
open Matrix Finset Spec
variable {K : Type} [Field K] [LinearOrder K] [IsStrictOrderedRing K] {ι : Type} [Fintype ι] [LinearOrder ι] {n : ℕ}

/-- The factorisations that occur: the first one, and those after the computation of a direction for any free variables and gradients. -/
inductive Spec.Reached (neps : K) (slv : Solver K) (G : Fin n → Fin n → K) : Fac K n → Prop
  | init : Reached neps slv G Fac.init
  | next {A B : Fac K n} {free : Fin n → Bool} {g p : Fin n → K} : Reached neps slv G A → facDir neps slv G A free g = some (B, p) →
      Reached neps slv G B

/-- Row and column of `i` are those of the identity, but for the diagonal. -/
def Isolated (L : ι → ι → K) (P : ι → Prop) : Prop := ∀ i, P i → ∀ k, k ≠ i → L i k = 0 ∧ L k i = 0

theorem rk1Loop_isolated (neps : K) (slv : Solver K) {L0 : ι → ι → K} {d0 : ι → K} {P : ι → Prop} (h0 : Isolated L0 P) :
    ∀ (ks : List ι) (L : ι → ι → K) (d : ι → K) (alpha : K) (u : ι → K), (∀ k ∈ ks, ¬ P k) → Isolated L P → (∀ i, P i → u i = 0) →
      Isolated (rk1Loop neps slv L0 d0 ks L d alpha u).L P
  | [], L, d, alpha, u, _, hL, _ => hL
  | k :: ks, L, d, alpha, u, hk, hL, hu => by
    have hkP : ¬ P k := hk k (List.mem_cons_self ..)
    unfold rk1Loop
    dsimp only
    split
    · exact h0
    · have hL' : Isolated (fun i j => if k ≤ i ∧ j = k then
          L i k * (d k / (d k + alpha * u k ^ 2)) + alpha * u k / (d k + alpha * u k ^ 2) * u i else L i j) P := by
        intro i hi m hm
        have hik : i ≠ k := fun h => hkP (h ▸ hi)
        dsimp only
        refine ⟨?_, ?_⟩
        · by_cases h : k ≤ i ∧ m = k
          · rw [if_pos h, (hL i hi k hik.symm).1, hu i hi]; ring
          · rw [if_neg h]; exact (hL i hi m hm).1
        · rw [if_neg fun h => hik h.2]; exact (hL i hi m hm).2
      have hu' : ∀ i, P i → (if k ≤ i then u i - L i k * u k else u i) = 0 := by
        intro i hi
        have hik : i ≠ k := fun h => hkP (h ▸ hi)
        rw [(hL i hi k hik.symm).1, hu i hi]
        simp
      split
      · exact hL'
      · exact rk1Loop_isolated neps slv h0 ks _ _ _ _ (fun m hm => hk m (List.mem_cons_of_mem _ hm)) hL' hu'

theorem ldlrk1_isolated {neps : K} {slv : Solver K} {L : ι → ι → K} {d : ι → K} {P : ι → Prop} {alpha : K} {u : ι → K} {F : Ldl K ι}
    (hL : Isolated L P) (hu : ∀ i, P i → u i = 0) (hF : ldlrk1 neps slv L d alpha u = some F) : Isolated F.L P := by
  unfold ldlrk1 at hF
  split_ifs at hF
  injection hF with hF
  rw [← hF]
  refine rk1Loop_isolated neps slv hL _ _ _ _ _ (fun k hk hP => ?_) hL hu
  simp only [mem_sort, mem_filter, mem_univ, true_and] at hk
  exact hk (hu k hP)

/-- The invariant of the factorisations. -/
structure FacOk (L : ι → ι → K) (d : ι → K) (P : ι → Prop) : Prop where
  unit : UnitLower L
  pos : ∀ i, 0 < d i
  iso : Isolated L P

theorem ldldown_ok {neps : K} (hn : 0 < neps) {slv : Solver K} {L : ι → ι → K} {d : ι → K} {P : ι → Prop} (h : FacOk L d P) {j : ι}
    {F : (ι → ι → K) × (ι → K)} (hF : ldldown neps slv L d j = some F) : FacOk F.1 F.2 (fun i => i = j ∨ P i) := by
  unfold ldldown at hF
  rw [Option.map_eq_some_iff] at hF
  obtain ⟨M, hM, rfl⟩ := hF
  obtain ⟨m1, m2⟩ := C78_shape hn slv (UnitLower.sub h.unit _) (fun a => h.pos a.1) _ _ hM
  by_cases hj : P j
  all_goals
    have m3 : Isolated M.L (fun a => a.1 = j ∨ P a.1) := by
      refine ldlrk1_isolated ?_ ?_ hM
      · intro i hi k hk
        have hki : k.1 ≠ i.1 := fun e => hk (Subtype.ext e)
        rcases hi with hi | hi
        · exact absurd hi i.2.ne'
        · exact h.iso i.1 hi k.1 hki
      · intro i hi
        rcases hi with hi | hi
        · exact absurd hi i.2.ne'
        · exact (h.iso i.1 hi j (ne_of_lt i.2)).1
    refine ⟨⟨fun i => ?_, fun i k hik => ?_⟩, fun i => ?_, fun i hi k hk => ⟨?_, ?_⟩⟩
    · dsimp only
      by_cases h1 : j < i
      · rw [dif_pos h1, dif_pos h1]; exact m1.diag _
      · rw [dif_neg h1]
        by_cases h2 : i = j
        · rw [if_pos h2, if_pos h2]
        · rw [if_neg h2]; exact h.unit.diag i
    · dsimp only
      by_cases h1 : j < i
      · rw [dif_pos h1, dif_pos (h1.trans hik)]; exact m1.upper _ _ hik
      · rw [dif_neg h1]
        by_cases h2 : i = j
        · rw [if_pos h2, if_neg (fun e => absurd hik (by rw [h2, e]; exact lt_irrefl _))]
        · rw [if_neg h2]; exact h.unit.upper i k hik
    · dsimp only
      by_cases h1 : j < i
      · rw [dif_pos h1]; exact m2 _
      · rw [dif_neg h1]
        by_cases h2 : i = j
        · rw [if_pos h2]; exact one_pos
        · rw [if_neg h2]; exact h.pos i
    · dsimp only
      by_cases h1 : j < i
      · have hP : P i := hi.resolve_left h1.ne'
        rw [dif_pos h1]
        by_cases h2 : j < k
        · rw [dif_pos h2]; exact (m3 ⟨i, h1⟩ (Or.inr hP) ⟨k, h2⟩ fun e => hk (congrArg Subtype.val e)).1
        · rw [dif_neg h2]
          split
          · rfl
          · exact (h.iso i hP k hk).1
      · rw [dif_neg h1]
        by_cases h2 : i = j
        · rw [if_pos h2, if_neg (fun e => hk (by rw [e, h2]))]
        · rw [if_neg h2]; exact (h.iso i (hi.resolve_left h2) k hk).1
    · dsimp only
      by_cases h1 : j < k
      · rw [dif_pos h1]
        by_cases h2 : j < i
        · have hP : P i := hi.resolve_left h2.ne'
          rw [dif_pos h2]; exact (m3 ⟨i, h2⟩ (Or.inr hP) ⟨k, h1⟩ fun e => hk (congrArg Subtype.val e)).2
        · rw [dif_neg h2]
          by_cases h3 : i = j
          · rw [if_pos h3]
          · rw [if_neg h3]; exact (h.iso i (hi.resolve_left h3) k hk).2
      · rw [dif_neg h1]
        by_cases h2 : k = j
        · rw [if_pos h2, if_neg (fun e => hk (by rw [e, h2]))]
        · rw [if_neg h2]
          by_cases h3 : i = j
          · have h4 : k < j := lt_of_le_of_ne (not_lt.1 h1) h2
            rw [h3]; exact h.unit.upper k j h4
          · exact (h.iso i (hi.resolve_left h3) k hk).2

theorem solve_isolated {slv : Solver K} (hslv : SolvesAll slv) {A : ι → ι → K} (hA : IsUnit (Matrix.of A).det) (b : ι → K) {i : ι}
    (hd : A i i = 1) (hi : ∀ k, k ≠ i → A i k = 0) : slv.run ι A b i = b i := by
  have h := hslv ι A b hA i
  rw [sum_eq_single i (fun k _ hk => by rw [hi k hk, zero_mul]) (fun hc => absurd (mem_univ _) hc), hd, one_mul] at h
  exact h

theorem upLast_ok {neps : K} (hn : 0 < neps) {slv : Solver K} {L : ι → ι → K} {d : ι → K} {P : ι → Prop} (h : FacOk L d P) {j : ι}
    {v : {i // i < j} → K} {delta : K} (hδ0 : 0 < delta) {w : {i // j < i} → K} (hv : ∀ a : {i // i < j}, P a.1 → v a = 0)
    (hw : ∀ a : {i // j < i}, P a.1 → w a = 0) {F : Ldl K ι} (hF : upLast neps slv L d j v delta w = some F) :
    FacOk F.L F.d (fun i => i ≠ j ∧ P i) := by
  unfold upLast at hF
  rw [Option.map_eq_some_iff] at hF
  obtain ⟨M, hM, hF⟩ := hF
  obtain ⟨m1, m2⟩ := C78_shape hn slv (UnitLower.sub h.unit _) (fun a => h.pos a.1) _ _ hM
  have m3 : Isolated M.L (fun a => P a.1) := by
    refine ldlrk1_isolated (fun i hi k hk => h.iso i.1 hi k.1 fun e => hk (Subtype.ext e)) ?_ hM
    intro i hi; exact hw i hi
  split at hF
  · cases hF
    refine ⟨upL_unit h.unit m1, upd_pos h.pos hδ0 m2, fun i hi k hk => ?_⟩
    obtain ⟨hij, hP⟩ := hi
    show upL L j v w M.L i k = 0 ∧ upL L j v w M.L k i = 0
    rcases lt_trichotomy i j with h1 | h1 | h1
    · refine ⟨by rw [upL_lt i k h1]; exact (h.iso i hP k hk).1, ?_⟩
      rcases lt_trichotomy k j with h2 | h2 | h2
      · rw [upL_lt k i h2]; exact (h.iso i hP k hk).2
      · subst h2; rw [upL_jlt ⟨i, h1⟩]; exact hv _ hP
      · rw [upL_gtlt ⟨k, h2⟩ ⟨i, h1⟩]; exact (h.iso i hP k hk).2
    · exact absurd h1 hij
    · rcases lt_trichotomy k j with h2 | h2 | h2
      · exact ⟨by rw [upL_gtlt ⟨i, h1⟩ ⟨k, h2⟩]; exact (h.iso i hP k hk).1, by rw [upL_lt k i h2]; exact (h.iso i hP k hk).2⟩
      · subst h2
        exact ⟨by rw [upL_gtj ⟨i, h1⟩]; exact hw _ hP, by rw [upL_jgt h.unit ⟨i, h1⟩]⟩
      · have := m3 ⟨i, h1⟩ hP ⟨k, h2⟩ fun e => hk (congrArg Subtype.val e)
        exact ⟨by rw [upL_gtgt ⟨i, h1⟩ ⟨k, h2⟩]; exact this.1, by rw [upL_gtgt ⟨k, h2⟩ ⟨i, h1⟩]; exact this.2⟩
  · cases hF
    refine ⟨⟨fun i => ?_, fun i k hik => ?_⟩, fun i => ?_, fun i hi k hk => ⟨?_, ?_⟩⟩
    · dsimp only
      split
      · exact m1.diag _
      · exact h.unit.diag i
    · dsimp only
      split
      · exact m1.upper _ _ hik
      · exact h.unit.upper i k hik
    · dsimp only
      split
      · exact m2 _
      · exact h.pos i
    · dsimp only
      split
      · rename_i h1; exact (m3 ⟨i, h1.1⟩ hi.2 ⟨k, h1.2⟩ fun e => hk (congrArg Subtype.val e)).1
      · exact (h.iso i hi.2 k hk).1
    · dsimp only
      split
      · rename_i h1; exact (m3 ⟨i, h1.2⟩ hi.2 ⟨k, h1.1⟩ fun e => hk (congrArg Subtype.val e)).2
      · exact (h.iso i hi.2 k hk).2

theorem ldlup_ok {neps : K} (hn : 0 < neps) {slv : Solver K} (hslv : SolvesAll slv) {L : ι → ι → K} {d : ι → K} {P : ι → Prop}
    (h : FacOk L d P) {j : ι} {g : ι → K} (hg : ∀ i, P i → i ≠ j → g i = 0) {F : Ldl K ι} (hF : ldlup neps slv L d j g = some F) :
    FacOk F.L F.d (fun i => i ≠ j ∧ P i) := by
  have hkeep : FacOk L d (fun i => i ≠ j ∧ P i) := ⟨h.unit, h.pos, fun i hi => h.iso i hi.2⟩
  unfold ldlup at hF
  split at hF
  · split at hF
    · cases hF; exact hkeep
    · rename_i hgj
      cases hF
      refine ⟨h.unit, fun i => ?_, fun i hi => h.iso i hi.2⟩
      dsimp only
      by_cases hi : i = j
      · rw [hi, Function.update_self]; exact hn.trans (not_le.1 hgj)
      · rw [Function.update_of_ne hi]; exact h.pos i
  · dsimp only at hF
    have hu : ∀ a : {i // i < j}, P a.1 →
        slv.run {i // i < j} (fun a b => L a.1 b.1) (fun a => g a.1) a = 0 := by
      intro a ha
      rw [solve_isolated (A := fun a b : {i // i < j} => L a.1 b.1) hslv (by rw [UnitLower.det (UnitLower.sub h.unit fun i => i < j)]; exact isUnit_one) _
        (h.unit.diag a.1)
        (fun k hk => (h.iso a.1 ha k.1 fun e => hk (Subtype.ext e)).1)]
      exact hg a.1 ha (ne_of_lt a.2)
    unfold upMid at hF
    split at hF
    · cases hF; exact hkeep
    · rename_i hδ
      refine upLast_ok hn h (hn.trans (not_le.1 hδ)) (fun a ha => ?_) (fun a ha => ?_) hF
      · rw [hu a ha, zero_div]
      · rw [hg a.1 ha (ne_of_gt a.2), sum_eq_zero, sub_zero, zero_div]
        intro b _
        rw [(h.iso a.1 ha b.1 (ne_of_lt (b.2.trans a.2))).1, zero_mul]

/-- The invariant for the recorded set. -/
def Fac.Ok (A : Fac K n) : Prop := FacOk A.L A.d (fun i => A.K i = false)

theorem facDown_ok {neps : K} (hn : 0 < neps) {slv : Solver K} : ∀ (js : List (Fin n)) (A B : Fac K n), A.Ok →
    facDown neps slv js A = some B → B.Ok ∧ ∀ i, B.K i = (A.K i && !decide (i ∈ js))
  | [], A, B, hA, h => by
    cases h
    exact ⟨hA, fun i => by simp⟩
  | j :: js, A, B, hA, h => by
    unfold facDown at h
    split at h
    · cases h
    · rename_i L d hd
      have h1 : FacOk L d _ := ldldown_ok hn hA hd
      obtain ⟨b1, b2⟩ := facDown_ok hn js _ B (show Fac.Ok ⟨L, d, Function.update A.K j false⟩ from
        ⟨h1.unit, h1.pos, fun i hi => h1.iso i (by
          by_cases e : i = j
          · exact Or.inl e
          · dsimp only at hi
            rw [Function.update_of_ne e] at hi
            exact Or.inr hi)⟩) h
      refine ⟨b1, fun i => ?_⟩
      rw [b2 i]
      dsimp only
      by_cases e : i = j
      · subst e; simp
      · rw [Function.update_of_ne e]
        simp [e]

theorem facUp_ok {neps : K} (hn : 0 < neps) {slv : Solver K} (hslv : SolvesAll slv) {G : Fin n → Fin n → K} : ∀ (js : List (Fin n)) (A B : Fac K n),
    A.Ok → facUp neps slv G js A = some B → B.Ok ∧ ∀ i, B.K i = (A.K i || decide (i ∈ js))
  | [], A, B, hA, h => by
    cases h
    exact ⟨hA, fun i => by simp⟩
  | j :: js, A, B, hA, h => by
    have key : ∀ F : Ldl K (Fin n),
        ldlup neps slv A.L A.d j (fun i => if i = j then G j j else if A.K i then G i j else 0) = some F →
        facUp neps slv G js ⟨F.L, F.d, Function.update A.K j true⟩ = some B → B.Ok ∧ ∀ i, B.K i = (A.K i || decide (i ∈ j :: js)) := by
      intro F hF h
      have h1 := ldlup_ok hn hslv hA (fun i hi hij => by rw [if_neg hij, if_neg (by rw [hi]; simp)]) hF
      obtain ⟨b1, b2⟩ := facUp_ok hn hslv js _ B (show Fac.Ok ⟨F.L, F.d, Function.update A.K j true⟩ from
        ⟨h1.unit, h1.pos, fun i hi => h1.iso i (by
          dsimp only at hi
          by_cases e : i = j
          · rw [e, Function.update_self] at hi; cases hi
          · rw [Function.update_of_ne e] at hi
            exact ⟨e, hi⟩)⟩) h
      refine ⟨b1, fun i => ?_⟩
      rw [b2 i]
      dsimp only
      by_cases e : i = j
      · subst e; simp
      · rw [Function.update_of_ne e]
        simp [e]
    unfold facUp at h
    split at h
    · cases h
    · rename_i L d hF; exact key _ hF h
    · rename_i L d p hF
      split at h
      · exact key _ hF h
      · cases h

theorem facDir_ok {neps : K} (hn : 0 < neps) {slv : Solver K} (hslv : SolvesAll slv) {G : Fin n → Fin n → K} {A B : Fac K n} (hA : A.Ok)
    {free : Fin n → Bool} {g p : Fin n → K} (h : facDir neps slv G A free g = some (B, p)) :
    B.Ok ∧ B.K = free ∧ p = fun i => -slv.run (Fin n) (fun a b => B.L b a)
      (fun i => slv.run (Fin n) B.L (fun i => if B.K i then g i else 0) i / B.d i) i := by
  unfold facDir at h
  rw [Option.bind_eq_some_iff] at h
  obtain ⟨C, hC, h⟩ := h
  rw [Option.map_eq_some_iff] at h
  obtain ⟨D, hD, h⟩ := h
  obtain ⟨c1, c2⟩ := facDown_ok hn _ _ _ hA hC
  obtain ⟨d1, d2⟩ := facUp_ok hn hslv _ _ _ c1 hD
  cases h
  refine ⟨d1, funext fun i => ?_, rfl⟩
  rw [d2 i, c2 i]
  cases hf : free i <;> cases hk : A.K i <;> simp [c2 i, hf, hk]

theorem Spec.Reached.ok {neps : K} (hn : 0 < neps) {slv : Solver K} (hslv : SolvesAll slv) {G : Fin n → Fin n → K} {A : Fac K n}
    (h : Reached neps slv G A) : A.Ok := by
  induction h with
  | init =>
    refine ⟨⟨fun i => if_pos rfl, fun i j hij => if_neg hij.ne⟩, fun _ => one_pos, fun i _ k hk => ⟨if_neg hk.symm, if_neg hk⟩⟩
  | next _ hd ih => exact (facDir_ok hn hslv ih hd).1

/-- **C93.** Whatever free sets and gradients came before, and whatever the fill-in did to the factors: a search direction of `minq` is zero at the
variables that are not free, and it is a descent direction unless the gradient vanishes at all free variables. -/
theorem C93_direction {neps : K} (hn : 0 < neps) {slv : Solver K} (hslv : SolvesAll slv) {G : Fin n → Fin n → K} {A B : Fac K n}
    (hA : Reached neps slv G A) {free : Fin n → Bool} {g p : Fin n → K} (h : facDir neps slv G A free g = some (B, p)) :
    B.K = free ∧ (∀ i, free i = false → p i = 0) ∧ ∑ i, g i * p i ≤ 0 ∧ ((∃ i, free i = true ∧ g i ≠ 0) → ∑ i, g i * p i < 0) := by
  obtain ⟨hB, hK, hp⟩ := facDir_ok hn hslv (hA.ok hn hslv) h
  have hU : IsUnit (Matrix.of B.L).det := by rw [UnitLower.det hB.unit]; exact isUnit_one
  generalize hb : (fun i => if B.K i then g i else 0) = b at hp
  generalize hy : slv.run (Fin n) B.L b = y at hp
  have e1 : ∀ i, ∑ k, B.L i k * y k = b i := by rw [← hy]; exact hslv _ B.L b hU
  have e2 : ∀ i, ∑ k, B.L k i * p k = -(y i / B.d i) := by
    intro i
    have := hslv _ (fun a b => B.L b a) (fun i => y i / B.d i) (UnitLower.det_tr hB.unit) i
    rw [hp, ← this, ← sum_neg_distrib]
    exact sum_congr rfl fun k _ => by rw [mul_neg]
  have hz : ∀ i, free i = false → p i = 0 := by
    intro i hi
    have hi' : B.K i = false := by rw [hK]; exact hi
    have y0 : y i = 0 := by
      rw [← hy, solve_isolated hslv hU b (hB.unit.diag i) (fun k hk => (hB.iso i hi' k hk).1), ← hb]
      simp [hi']
    have := e2 i
    rw [sum_eq_single i (fun k _ hk => by rw [(hB.iso i hi' k hk).2, zero_mul]) (fun hc => absurd (mem_univ _) hc),
      hB.unit.diag, one_mul, y0, zero_div, neg_zero] at this
    exact this
  have hsum : ∑ i, g i * p i = -∑ k, y k ^ 2 / B.d k := by
    have s1 : ∑ i, g i * p i = ∑ i, b i * p i := by
      refine sum_congr rfl fun i _ => ?_
      cases hf : free i with
      | false => rw [hz i hf, mul_zero, mul_zero]
      | true => rw [← hb]; dsimp only; rw [hK, hf, if_pos rfl]
    rw [s1, ← sum_neg_distrib]
    have s2 : ∀ i, b i * p i = ∑ k, y k * (B.L i k * p i) := by
      intro i
      rw [← e1 i, sum_mul]
      exact sum_congr rfl fun k _ => by ring
    simp only [s2]
    rw [sum_comm]
    refine sum_congr rfl fun k _ => ?_
    rw [← mul_sum, e2 k]
    ring
  have hnn : ∀ k, 0 ≤ y k ^ 2 / B.d k := fun k => div_nonneg (sq_nonneg _) (hB.pos k).le
  refine ⟨hK, hz, ?_, ?_⟩
  · rw [hsum]; exact neg_nonpos.2 (sum_nonneg fun k _ => hnn k)
  · rintro ⟨i, hi, hgi⟩
    rw [hsum, neg_lt_zero]
    by_contra hc
    have h0 : ∑ k, y k ^ 2 / B.d k = 0 := le_antisymm (not_lt.1 hc) (sum_nonneg fun k _ => hnn k)
    have hy0 : ∀ k, y k = 0 := by
      intro k
      have := (sum_eq_zero_iff_of_nonneg fun k _ => hnn k).1 h0 k (mem_univ _)
      rcases div_eq_zero_iff.1 this with h | h
      · exact pow_eq_zero_iff (two_ne_zero) |>.1 h
      · exact absurd h (hB.pos k).ne'
    have := e1 i
    rw [sum_eq_zero fun k _ => by rw [hy0 k, mul_zero], ← hb] at this
    dsimp only at this
    rw [hK, hi, if_pos rfl] at this
    exact hgi this.symm

/-- **C93 (step).** A subspace step along such a direction leaves the variables that are not free, and does not free any variable. -/
theorem C93_step {neps : K} (hn : 0 < neps) {slv : Solver K} (hslv : SolvesAll slv) {q : MinqIn K n} {A B : Fac K n}
    (hA : Reached neps slv q.G A) {S : MinqSt K n} {p x : Fin n → K} (h : facDir neps slv q.G A S.free S.g = some (B, p)) {free : Fin n → Bool}
    {unfix : Bool} (hs : subStep neps q S p = .ok x free unfix) :
    ∀ i, S.free i = false → x i = S.x i ∧ free i = false := by
  intro i hi
  have hp := (C93_direction hn hslv hA h).2.1 i hi
  unfold subStep at hs
  dsimp only at hs
  split at hs
  · cases hs
  · cases hs
  · cases hs
    dsimp only
    unfold stepEntry
    rw [if_pos hp]
    exact ⟨rfl, hi⟩

/-- Two variables, the second one free: its direction is the negative gradient divided by the diagonal entry, and after it the same free set can be
used again with another gradient. -/
example : ∃ (slv : Solver ℚ) (B : Fac ℚ 2) (p p' : Fin 2 → ℚ), SolvesAll slv ∧ Reached (1 / 10) slv ![![2, 1], ![1, 4]] B ∧
    facDir (1 / 10) slv ![![2, 1], ![1, 4]] Fac.init ![false, true] ![3, 8] = some (B, p) ∧ p 0 = 0 ∧ p 1 = -2 ∧
    facDir (1 / 10) slv ![![2, 1], ![1, 4]] B ![false, true] ![1, 2] = some (B, p') ∧ p' 0 = 0 ∧ p' 1 = -1 / 2 := by
  obtain ⟨slv, hslv⟩ := SolvesAll.exists (K := ℚ)
  have h1 := facDir_new (neps := (1 / 10 : ℚ)) (by norm_num) hslv (G := ![![2, 1], ![1, 4]]) (fun _ => 1) (1 : Fin 2) (by norm_num) ![3, 8]
    (free := ![false, true]) (by decide)
  have hf : Function.update (fun _ : Fin 2 => false) 1 true = ![false, true] := by decide
  have h2 := facDir_same (neps := (1 / 10 : ℚ)) hslv (G := ![![2, 1], ![1, 4]]) (Function.update (fun _ => 1) (1 : Fin 2) (4 : ℚ)) ![false, true] ![1, 2]
  rw [hf] at h1
  refine ⟨slv, _, _, _, hslv, .next .init h1, h1, ?_, ?_, h2, ?_, ?_⟩ <;> norm_num [Function.update]

end Sqpdfo

#print axioms Sqpdfo.C93_direction
#print axioms Sqpdfo.C93_step
