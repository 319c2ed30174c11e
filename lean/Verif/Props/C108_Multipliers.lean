import Verif.Model.LmTrace
import Verif.Props.C39_C40_Multiplier
import Verif.Props.C72_Gradients
import Verif.Props.C92_History
import Verif.Props.C107_Status0

/-! # C108: to which point and to which gradients the returned multipliers belong -/

set_option linter.unusedSectionVars false

namespace Sqpdfo
open Spec
variable {K F : Type} [Field K] [LinearOrder K] [IsStrictOrderedRing K]

/-- `t` has the iterate, the stored gradients and the slacks of `s`. -/
structure SameData (s t : MSt K F) : Prop where
  x : t.x = s.x
  info : t.infoG = s.infoG
  sl : t.sl = s.sl

theorem SameData.at {s t : MSt K F} (h : SameData s t) (mu : Mult K) : mu.at t = mu.at s := by
  unfold Mult.at
  rw [h.x, h.info, h.sl]

theorem improveEnd_data (e : Env K F) (k : Meas K) (r : K) (s : MSt K F) :
    (improveEnd e k r s).Sat (SameData s) (SameData s) (fun _ => True) := by
  unfold improveEnd
  split
  · exact ⟨rfl, rfl, rfl⟩
  · dsimp only
    split
    · exact ⟨rfl, rfl, rfl⟩
    · exact ⟨rfl, rfl, rfl⟩

/-- After the first half of a pass, `lm` belongs to the state. -/
theorem firstHalf_lm (e : Env K F) (mu : Mult K) (o : Orc K F) (s : MSt K F) :
    (firstHalf e o s).Sat (fun t => firstLm e mu o s (mu.at s) = mu.at t) (fun t => firstLm e mu o s (mu.at s) = mu.at t)
      (fun _ => True) := by
  unfold firstHalf firstLm
  split
  · unfold improve improveLm
    split
    · dsimp only
      split
      · exact rfl
      · split
        · exact rfl
        · rw [repairStage_repaired]
          cases hr : repaired e o _ _ with
          | ret t => exact absurd hr (repaired_noRet _ _ _ _ _)
          | crash c => trivial
          | cont t =>
            refine (improveEnd_data e o.k2 _ (t.newGx e).storeG).mono (fun u hu => ?_) (fun u hu => ?_) (fun _ h => h)
            · exact (hu.at mu).symm
            · exact (hu.at mu).symm
    · trivial
  · exact rfl

/-- A pass without an early exit. -/
theorem pass_halves (e : Env K F) (o : Orc K F) (s : MSt K F) (h1 : e.miter.le (.fin s.niter) = false)
    (h2 : e.msimul.le (.fin s.ev.nsimul) = false) (h3 : o.k1.fail = false) :
    pass e o s = (firstHalf e o { s.measure o.k1 with ev := { s.ev with flag := Status.success } }).bind (stepStage e o) := by
  unfold pass
  rw [if_neg (by simp [h1]), if_neg (by simp [h2]), if_neg (by simp [h3])]
  rfl

/-- A pass that returns status 0 returns from its first half; then `lm` belongs to the returned state. -/
theorem pass_lm_zero (e : Env K F) (mu : Mult K) (tl : List K → List K) (o : Orc K F) (s t : MSt K F) (lm : List K)
    (h : pass e o s = .ret t) (h0 : t.ev.flag = 0) : passLm e mu tl o s lm = mu.at t := by
  by_cases c1 : e.miter.le (.fin s.niter) = true
  · unfold pass at h
    rw [if_pos c1] at h
    cases h
    exact absurd h0 (by show Status.stopOnMaxIter ≠ 0; decide)
  by_cases c2 : e.msimul.le (.fin s.ev.nsimul) = true
  · unfold pass at h
    rw [if_neg c1, if_pos c2] at h
    cases h
    exact absurd h0 (by show Status.stopOnMaxSimul ≠ 0; decide)
  by_cases c3 : o.k1.fail = true
  · unfold pass at h
    rw [if_neg c1, if_neg c2, if_pos c3] at h
    cases h
    exact absurd h0 (by show Status.failUnexpected ≠ 0; decide)
  rw [pass_halves e o s (by simpa using c1) (by simpa using c2) (by simpa using c3)] at h
  unfold passLm
  rw [if_neg c1, if_neg c2, if_neg c3]
  unfold handedLm
  dsimp only
  generalize { s.measure o.k1 with ev := { s.ev with flag := Status.success } } = s' at h ⊢
  have key := firstHalf_lm e mu o s'
  cases hf : firstHalf e o s' with
  | cont u =>
    rw [hf] at h
    have hz := stepStage_nonzero e o u
    rw [show stepStage e o u = .ret t from h] at hz
    exact absurd h0 hz
  | ret u =>
    rw [hf] at h key
    cases h
    exact key
  | crash c => rw [hf] at h; cases h

theorem mainLm_done (e : Env K F) (mu : Mult K) : ∀ (os : List (Orc K F × (List K → List K))) (s t : MSt K F) (lm : List K),
    mainLoop e (os.map Prod.fst) s = .done t → t.ev.flag = 0 → mainLm e mu os s lm = mu.at t
  | [], s, t, lm, h, _ => by cases h
  | (o, tl) :: os, s, t, lm, h, h0 => by
    simp only [List.map_cons, mainLoop] at h
    simp only [mainLm]
    cases hp : pass e o s with
    | cont u =>
      rw [hp] at h
      exact mainLm_done e mu os u t _ h h0
    | ret u =>
      rw [hp] at h
      cases h
      exact pass_lm_zero e mu tl o s _ lm hp h0
    | crash c => rw [hp] at h; cases h

/-- **C108.** The full statement (*`sqpdfo_` returns the multipliers that `sqpdfo_compute_multiplier_` computes from the returned point
and the returned derivatives*) is false (`C108_limit_false`, `C108_radius_false`).  Proved: it holds for status 0, for any run. -/
theorem C108_status0_partial {e : Env K F} {x0 : List K} {fuel : ℕ} {Δ : K} {sl : List K} {s0 : MSt K F} (H : Starts e x0 fuel Δ sl s0)
    (mu : Mult K) (os : List (Orc K F × (List K → List K))) (lm0 : List K) (t : MSt K F)
    (h : mainLoop e (os.map Prod.fst) s0 = .done t) (h0 : t.ev.flag = 0) :
    ∃ y, t.ev.X[t.ixbest]? = some y ∧ mainLm e mu os s0 lm0 = mu y t.infoG t.sl ∧
      t.infoG = e.model (e.build t.set.Y) y t.set.fY t.set.ceY := by
  obtain ⟨y, w, q, h1, h2, -⟩ := C15_returned_point H _ t h
  refine ⟨y, h1, ?_, ?_⟩
  · rw [mainLm_done e mu os s0 t lm0 h h0, Mult.at, h2]
  · rw [(C72_gradients H _ t (Or.inr h)).1, h2]

/-- A state between passes and the multipliers there. -/
theorem mainLm_append (e : Env K F) (mu : Mult K) : ∀ (os os' : List (Orc K F × (List K → List K))) (s t : MSt K F) (lm : List K),
    mainLoop e (os.map Prod.fst) s = .running t → mainLm e mu (os ++ os') s lm = mainLm e mu os' t (mainLm e mu os s lm)
  | [], os', s, t, lm, h => by cases h; rfl
  | (o, tl) :: os, os', s, t, lm, h => by
    simp only [List.map_cons, mainLoop] at h
    simp only [List.cons_append, mainLm]
    cases hp : pass e o s with
    | cont u => rw [hp] at h; exact mainLm_append e mu os os' u t _ h
    | ret u => rw [hp] at h; cases h
    | crash c => rw [hp] at h; cases h

/-! ### The second half of a pass -/

theorem beforeStep_halves (e : Env K F) (o : Orc K F) (s u : MSt K F) (h : beforeStep e o s = .cont u) :
    ¬ e.miter.le (.fin s.niter) = true ∧ ¬ e.msimul.le (.fin s.ev.nsimul) = true ∧ ¬ o.k1.fail = true ∧
      firstHalf e o { s.measure o.k1 with ev := { s.ev with flag := Status.success } } = .cont u := by
  unfold beforeStep at h
  split at h
  · cases h
  · split at h
    · cases h
    · split at h
      · cases h
      · exact ⟨by assumption, by assumption, by assumption, h⟩

/-- **C108**, the multipliers given to the step computation: they belong to the iterate, to the models of the current interpolation set
and to the slacks. -/
theorem C108_solver {e : Env K F} {x0 : List K} {fuel : ℕ} {Δ : K} {sl : List K} {s0 : MSt K F} (H : Starts e x0 fuel Δ sl s0)
    (mu : Mult K) (os : List (Orc K F)) (o : Orc K F) (s u : MSt K F) (h : mainLoop e os s0 = .running s)
    (hu : beforeStep e o s = .cont u) :
    handedLm e mu o s = mu u.x (e.model (e.build u.set.Y) u.x u.set.fY u.set.ceY) u.sl := by
  have hf : Fresh e u := by
    have := beforeStep_fresh e o s (mainLoop_fresh e os s0 (startState_fresh e x0 fuel Δ sl s0 H.state) s (Or.inl h))
    rw [hu] at this
    exact this
  have key := firstHalf_lm e mu o { s.measure o.k1 with ev := { s.ev with flag := Status.success } }
  rw [(beforeStep_halves e o s u hu).2.2.2] at key
  have key : handedLm e mu o s = mu.at u := key
  rw [key, Mult.at, hf.info, hf.gx, hf.fac]

/-- Up to the decision about the trial point, the stored gradients are kept. -/
theorem stepStage_lm (e : Env K F) (mu : Mult K) (tl : List K → List K) (o : Orc K F) (u t : MSt K F) (lm : List K)
    (h : stepStage e o u = .cont t) : stepLm e mu tl o u lm = if t.pred = -1 then tl lm else mu t.x u.infoG t.sl := by
  unfold stepStage at h
  unfold stepLm
  have hg := globalise_same e u
  cases h1 : globalise e u with
  | ret v => rw [h1] at h; cases h
  | crash c => rw [h1] at h; cases h
  | cont v =>
    rw [h1] at h hg
    simp only [PassRes.bind] at h ⊢
    split at h
    · cases h
    · rename_i hf
      rw [if_neg hf]
      have hp := penalty_same o { v with niter := v.niter + 1 }
      cases h2 : penalty o { v with niter := v.niter + 1 } with
      | ret w => rw [h2] at h; cases h
      | crash c => rw [h2] at h; cases h
      | cont w =>
        rw [h2] at h hp
        dsimp only at h ⊢
        have he := evalTrial_same e o w
        cases h3 : evalTrial e o w with
        | ret z => rw [h3] at h; cases h
        | crash c => rw [h3] at h; cases h
        | cont z =>
          rw [h3] at h he
          dsimp only at h ⊢
          rw [h]
          have : z.infoG = u.infoG := he.info.trans (hp.info.trans hg.info)
          simp only [decideLm, this]

/-- **C108**, after a complete pass: if a reduction was predicted, `lm` belongs to the new iterate and the new slacks, but to the
gradients that were stored when the step was computed. -/
theorem C108_pass (e : Env K F) (mu : Mult K) (tl : List K → List K) (o : Orc K F) (s u t : MSt K F) (lm : List K)
    (hu : beforeStep e o s = .cont u) (ht : pass e o s = .cont t) :
    passLm e mu tl o s lm = if t.pred = -1 then tl (handedLm e mu o s) else mu t.x u.infoG t.sl := by
  obtain ⟨h1, h2, h3, h4⟩ := beforeStep_halves e o s u hu
  rw [pass_eq, hu] at ht
  unfold passLm
  rw [if_neg h1, if_neg h2, if_neg h3, h4]
  exact stepStage_lm e mu tl o u t _ ht

/-- **C108**, returns because of a limit: the multipliers belong to the returned point, but to the gradients that were in use when the
last step was computed. -/
theorem C108_limit (e : Env K F) (mu : Mult K) (pre : List (Orc K F × (List K → List K))) (p q : Orc K F × (List K → List K))
    (s0 s u t : MSt K F) (lm0 : List K) (hs : mainLoop e (pre.map Prod.fst) s0 = .running s) (hu : beforeStep e p.1 s = .cont u)
    (ht : pass e p.1 s = .cont t) (hl : e.miter.le (.fin t.niter) = true ∨ e.msimul.le (.fin t.ev.nsimul) = true) (hp : t.pred ≠ -1) :
    ∃ r, mainLoop e ((pre ++ [p, q]).map Prod.fst) s0 = .done r ∧ (r.ev.flag = 5 ∨ r.ev.flag = 6) ∧ r.x = t.x ∧ r.infoG = t.infoG ∧
      r.sl = t.sl ∧ mainLm e mu (pre ++ [p, q]) s0 lm0 = mu r.x u.infoG r.sl := by
  have hpass := C108_pass e mu p.2 p.1 s u t (mainLm e mu pre s0 lm0) hu ht
  rw [if_neg hp] at hpass
  have hq : ∃ r, pass e q.1 t = .ret r ∧ (r.ev.flag = 5 ∨ r.ev.flag = 6) ∧ r.x = t.x ∧ r.infoG = t.infoG ∧ r.sl = t.sl ∧
      ∀ lm, passLm e mu q.2 q.1 t lm = lm := by
    unfold pass passLm
    by_cases h1 : e.miter.le (.fin t.niter) = true
    · rw [if_pos h1]
      refine ⟨_, rfl, Or.inl rfl, rfl, rfl, rfl, fun lm => by rw [if_pos h1]⟩
    · have h2 := hl.resolve_left h1
      rw [if_neg h1, if_pos h2]
      refine ⟨_, rfl, Or.inr rfl, rfl, rfl, rfl, fun lm => by rw [if_neg h1, if_pos h2]⟩
  obtain ⟨r, hr, h1, h2, h3, h4, h5⟩ := hq
  refine ⟨r, ?_, h1, h2, h3, h4, ?_⟩
  · have : ∀ (l : List (Orc K F)) (a : MSt K F), mainLoop e l a = .running s → mainLoop e (l ++ [p.1, q.1]) a = .done r := by
      intro l
      induction l with
      | nil =>
        intro a ha
        cases ha
        simp only [List.nil_append, mainLoop, ht, hr]
      | cons o l ih =>
        intro a ha
        simp only [List.cons_append, mainLoop] at ha ⊢
        cases hp : pass e o a with
        | cont v => rw [hp] at ha; exact ih v ha
        | ret v => rw [hp] at ha; cases ha
        | crash c => rw [hp] at ha; cases ha
    rw [List.map_append]
    exact this _ _ hs
  · rw [mainLm_append e mu pre [p, q] s0 s lm0 hs]
    obtain ⟨o, tl⟩ := p
    obtain ⟨o', tl'⟩ := q
    simp only [mainLm, ht, hr]
    rw [h5, hpass, h2, h4]

/-! ### Least-squares multipliers -/

/-- What `sqpdfo_compute_multiplier_` is called with in the main loop. -/
def Spec.callIn (e : Env K F) (m : ℕ) (dxmin : K) (x : List K) (G : Grads K) (sl : List K) : MultIn K e.n m e.ns where
  x := fun i => x.getD i 0
  lb := some (callerLb (fun i => e.lb.getD i 0) fun i => x.getD i 0)
  ub := some (callerUb (fun i => e.ub.getD i 0) fun i => x.getD i 0)
  inf := .pinf
  dxmin := dxmin
  g := fun i => G.g.getD i 0
  ae := fun r i => (G.a.getD (Sum.elim (fun j => j.1) (fun j => m + j.1) r) []).getD i 0
  sl := fun k => sl.getD k 0

/-- The components of a list of multipliers: bounds, then constraints; none for the slacks. -/
def Spec.rows (n m ns : ℕ) (lm : List K) : MRow n m ns → K
  | .inl (.inl i) => lm.getD i 0
  | .inl (.inr _) => 0
  | .inr r => lm.getD (n + Sum.elim (fun j => j.1) (fun j => m + j.1) r) 0

/-- `lm` satisfies the sign restrictions and makes the gradient of the Lagrangian as small as they allow. -/
def Spec.LeastSquares {n m ns : ℕ} (I : MultIn K n m ns) (lm : MRow n m ns → K) : Prop :=
  SignFeasible I lm ∧ ∀ lm', SignFeasible I lm' → lsq I lm ≤ lsq I lm'

namespace Ex

/-- One variable `x ≥ b`, at most `k` iterations. -/
def bEnv (U : User (List ℚ) ℚ) (b : ℚ) (k : Fl ℚ) : Env ℚ (List (List ℚ)) := { gEnv U k with lb := [b] }

/-- The multiplier of the bounds. -/
def bMult (b : ℚ) : Mult ℚ := fun x G _ =>
  [if |b - x.getD 0 0| < 1 / 100000 then min 0 (-G.g.getD 0 0)
    else if |10 ^ 30 - x.getD 0 0| < 1 / 100000 then max 0 (-G.g.getD 0 0) else 0]

theorem bMult_least (U : User (List ℚ) ℚ) (b : ℚ) (hb : b ≤ 10 ^ 29) (k : Fl ℚ) (d : ℚ) (x : List ℚ) (G : Grads ℚ) (sl : List ℚ) :
    LeastSquares (callIn (bEnv U b k) 0 d x G sl) (rows 1 0 0 (bMult b x G sl)) := by
  have hrow : ∀ i : MRow 1 0 0, i = .inl (.inl 0) := by
    intro i
    rcases i with (i | i) | (i | i)
    · rw [Subsingleton.elim i 0]
    all_goals exact i.elim0
  obtain ⟨I, hI⟩ : ∃ I : MultIn ℚ 1 0 0, callIn (bEnv U b k) 0 d x G sl = I := ⟨_, rfl⟩
  show LeastSquares (n := 1) (m := 0) (ns := 0) (callIn (bEnv U b k) 0 d x G sl) _
  rw [hI]
  have hl : ∀ lm : MRow 1 0 0 → ℚ, lsq I lm = (G.g.getD 0 0 + lm (.inl (.inl 0))) ^ 2 := by
    intro lm
    subst hI
    show (∑ i : Fin 1 ⊕ Fin 0, lagrGrad _ lm i ^ 2) = _
    rw [Fintype.sum_sum_type]
    simp only [Finset.univ_unique, Finset.sum_singleton, Finset.univ_eq_empty, Finset.sum_empty, add_zero]
    show (G.g.getD 0 0 + lm (.inl (.inl 0)) + ∑ r : Fin 0 ⊕ Fin 0, _) ^ 2 = _
    rw [Fintype.sum_sum_type]
    simp only [Finset.univ_eq_empty, Finset.sum_empty, add_zero]
  have hlb : useBnd (Fl.neg .pinf) I.lb 0 = if |b - x.getD 0 0| < 1 / 100000 then Fl.fin b else .ninf := by subst hI; rfl
  have hub : useBnd .pinf I.ub 0 = if |10 ^ 30 - x.getD 0 0| < 1 / 100000 then Fl.fin (10 ^ 30) else .pinf := by subst hI; rfl
  have hinf : I.inf = .pinf := by subst hI; rfl
  have hm : rows 1 0 0 (bMult b x G sl) (.inl (.inl 0)) = if |b - x.getD 0 0| < 1 / 100000 then min 0 (-G.g.getD 0 0)
    else if |10 ^ 30 - x.getD 0 0| < 1 / 100000 then max 0 (-G.g.getD 0 0) else 0 := rfl
  have hS : ∀ lm : MRow 1 0 0 → ℚ, SignFeasible I lm ↔
      (loZero I (.inl (.inl 0)) = true → 0 ≤ lm (.inl (.inl 0))) ∧ (upZero I (.inl (.inl 0)) = true → lm (.inl (.inl 0)) ≤ 0) :=
    fun lm => ⟨fun h => h _, fun h i => by rw [hrow i]; exact h⟩
  unfold LeastSquares
  simp only [hS, hl, hm]
  unfold loZero upZero
  simp only [hinf, hlb, hub]
  by_cases h1 : |b - x.getD 0 0| < 1 / 100000
  · have h2 : ¬ |10 ^ 30 - x.getD 0 0| < 1 / 100000 := by
      intro h2
      have a1 := (abs_lt.1 h1).1
      have a2 := (abs_lt.1 h2).2
      norm_num at hb a1 a2
      linarith
    simp only [if_pos h1, if_neg h2, Fl.neg, Fl.le, Fl.lt, nearFl, Bool.or_false, Bool.false_and, Bool.true_and, Bool.true_or,
      Bool.false_eq_true, false_imp_iff, true_imp_iff, true_and]
    refine ⟨min_le_left _ _, fun lm h => ?_⟩
    rcases le_total 0 (-G.g.getD 0 0) with h0 | h0
    · rw [min_eq_left h0]
      nlinarith
    · rw [min_eq_right h0, add_neg_cancel]
      positivity
  · by_cases h2 : |10 ^ 30 - x.getD 0 0| < 1 / 100000
    · simp only [if_neg h1, if_pos h2, Fl.neg, Fl.le, Fl.lt, nearFl, Bool.or_false, Bool.false_and, Bool.true_and, Bool.true_or,
        Bool.false_eq_true, false_imp_iff, true_imp_iff, and_true]
      refine ⟨le_max_left _ _, fun lm h => ?_⟩
      rcases le_total 0 (-G.g.getD 0 0) with h0 | h0
      · rw [max_eq_right h0, add_neg_cancel]
        positivity
      · rw [max_eq_left h0]
        nlinarith
    · simp only [if_neg h1, if_neg h2, Fl.neg, Fl.le, Fl.lt, nearFl, Bool.or_false, Bool.false_and, Bool.true_and, Bool.true_or,
        true_imp_iff]
      refine ⟨⟨le_rfl, le_rfl⟩, fun lm h => ?_⟩
      rw [le_antisymm h.2 h.1]

/-- Multipliers that are not 0 away from the bounds, or that leave a larger gradient than necessary, are not least-squares
multipliers. -/
theorem not_least (U : User (List ℚ) ℚ) (b : ℚ) (hb : b ≤ 10 ^ 29) (k : Fl ℚ) (d : ℚ) (x : List ℚ) (G : Grads ℚ) (sl lm : List ℚ)
    (h : (G.g.getD 0 0 + (bMult b x G sl).getD 0 0) ^ 2 < (G.g.getD 0 0 + lm.getD 0 0) ^ 2 ∨
      (¬ |b - x.getD 0 0| < 1 / 100000 ∧ ¬ |10 ^ 30 - x.getD 0 0| < 1 / 100000 ∧ lm.getD 0 0 ≠ 0)) :
    ¬ LeastSquares (callIn (bEnv U b k) 0 d x G sl) (rows 1 0 0 lm) := by
  intro hl
  have hsq : ∀ l : List ℚ, lsq (callIn (bEnv U b k) 0 d x G sl) (rows 1 0 0 l) = (G.g.getD 0 0 + l.getD 0 0) ^ 2 := by
    intro l
    show (∑ i : Fin 1 ⊕ Fin 0, lagrGrad _ _ i ^ 2) = _
    rw [Fintype.sum_sum_type]
    simp only [Finset.univ_unique, Finset.sum_singleton, Finset.univ_eq_empty, Finset.sum_empty, add_zero]
    show (G.g.getD 0 0 + l.getD 0 0 + ∑ r : Fin 0 ⊕ Fin 0, _) ^ 2 = _
    rw [Fintype.sum_sum_type]
    simp only [Finset.univ_eq_empty, Finset.sum_empty, add_zero]
  rcases h with h | ⟨h1, h2, h3⟩
  · have := hl.2 _ (bMult_least U b hb k d x G sl).1
    rw [hsq, hsq] at this
    linarith
  · obtain ⟨a1, a2⟩ := hl.1 (.inl (.inl (0 : Fin 1)))
    have hlb : useBnd (callIn (bEnv U b k) 0 d x G sl).inf.neg (callIn (bEnv U b k) 0 d x G sl).lb (0 : Fin 1) =
        if |b - x.getD 0 0| < 1 / 100000 then Fl.fin b else .ninf := rfl
    have hub : useBnd (callIn (bEnv U b k) 0 d x G sl).inf (callIn (bEnv U b k) 0 d x G sl).ub (0 : Fin 1) =
        if |10 ^ 30 - x.getD 0 0| < 1 / 100000 then Fl.fin (10 ^ 30) else .pinf := rfl
    rw [if_neg h1] at hlb
    rw [if_neg h2] at hub
    refine h3 (le_antisymm (a2 ?_) (a1 ?_))
    · unfold upZero
      dsimp only
      rw [hub]
      rfl
    · unfold loZero
      dsimp only
      rw [hlb]
      rfl

/-- A run and its multipliers. -/
def bLook (U : User (List ℚ) ℚ) (b : ℚ) (k : Fl ℚ) (x0 : ℚ) (os : List (Orc ℚ (List (List ℚ)) × (List ℚ → List ℚ))) :
    Option (MSt ℚ (List (List ℚ)) × List ℚ) :=
  (startState (bEnv U b k) [x0] 1 1 []).bind fun s =>
    match mainLoop (bEnv U b k) (os.map Prod.fst) s with
    | .done t => some (t, mainLm (bEnv U b k) (bMult b) os s [])
    | _ => none

theorem bStarts (f : World (List ℚ) → List ℚ → FOut ℚ) (b : ℚ) (k : Fl ℚ) (x0 : ℚ) (s0 : MSt ℚ (List (List ℚ)))
    (h : startState (bEnv ⟨f, none⟩ b k) [x0] 1 1 [] = some s0) : Starts (bEnv ⟨f, none⟩ b k) [x0] 1 1 [] s0 :=
  ⟨⟨nrm1_nonneg, descOrder_sorted⟩, ⟨fun _ => rfl, fun _ h => by cases h⟩, rfl, by norm_num, h⟩

theorem bLook_spec {U : User (List ℚ) ℚ} {b : ℚ} {k : Fl ℚ} {x0 : ℚ} {os : List (Orc ℚ (List (List ℚ)) × (List ℚ → List ℚ))}
    {t : MSt ℚ (List (List ℚ))} {lm : List ℚ} (h : bLook U b k x0 os = some (t, lm)) :
    ∃ s0, startState (bEnv U b k) [x0] 1 1 [] = some s0 ∧ mainLoop (bEnv U b k) (os.map Prod.fst) s0 = .done t ∧
      mainLm (bEnv U b k) (bMult b) os s0 [] = lm := by
  unfold bLook at h
  cases hs : startState (bEnv U b k) [x0] 1 1 [] with
  | none => rw [hs] at h; cases h
  | some s0 =>
    rw [hs, Option.bind_some] at h
    refine ⟨s0, rfl, ?_⟩
    cases hm : mainLoop (bEnv U b k) (os.map Prod.fst) s0 with
    | done u =>
      rw [hm] at h
      simp only [Option.some.injEq, Prod.mk.injEq] at h
      exact ⟨by rw [h.1], h.2⟩
    | running u => rw [hm] at h; cases h
    | crash c => rw [hm] at h; cases h

/-- Minimise `x²` for `x ≥ 1` from 3 with at most one iteration: the step to 1 is accepted. -/
def limOs : List (Orc ℚ (List (List ℚ)) × (List ℚ → List ℚ)) := [(gOrc 5 [1] 8, id), (gOrc 0 [1] 1, id)]

theorem lim_look : ((bLook square 1 (.fin 1) 3 limOs).map fun p => (p.1.ev.flag, p.1.x, p.1.infoG.g, p.2)) =
    some (5, [1], [3], [-5]) := by
  decide +kernel

/-- `10^12 - x`. -/
def off (x : List ℚ) : ℚ := 10 ^ 12 - x.sum

/-- Objective with the values 9, 4, 5 at the offsets 0, 1, 19/20. -/
def bumpy : User (List ℚ) ℚ :=
  ⟨fun _ x => .num (.fin (if off x = 0 then 9 else if off x = 1 then 4 else if off x = 19 / 20 then 5 else 1000)), none⟩

/-- The second step ends at the bound `10^12 - 11/10`; the step computation has computed the multipliers there. -/
def radOs : List (Orc ℚ (List (List ℚ)) × (List ℚ → List ℚ)) :=
  [(gOrc 5 [10 ^ 12 - 19 / 20] 4, id), (gOrc 20 [10 ^ 12 - 11 / 10] 3, fun _ => bMult (10 ^ 12 - 11 / 10) [10 ^ 12 - 11 / 10] ⟨[20], []⟩ [])]

theorem rad_look : ((bLook bumpy (10 ^ 12 - 11 / 10) .pinf (10 ^ 12) radOs).map fun p => (p.1.ev.flag, p.1.x, p.1.infoG.g, p.2)) =
    some (15, [10 ^ 12 - 19 / 20], [20], [-20]) := by
  decide +kernel

end Ex

/-- **C108**, the full statement fails for returns because of a limit: the multipliers are computed with the old gradients. -/
theorem C108_limit_false : ∃ (e : Env ℚ (List (List ℚ))) (mu : Mult ℚ) (x0 : List ℚ) (s0 t : MSt ℚ (List (List ℚ)))
    (os : List (Orc ℚ (List (List ℚ)) × (List ℚ → List ℚ))) (d : ℚ),
    (∀ x G sl, LeastSquares (callIn e 0 d x G sl) (rows e.n 0 e.ns (mu x G sl))) ∧ Starts e x0 1 1 [] s0 ∧
    mainLoop e (os.map Prod.fst) s0 = .done t ∧ t.ev.flag = 5 ∧
    ¬ LeastSquares (callIn e 0 d t.x t.infoG t.sl) (rows e.n 0 e.ns (mainLm e mu os s0 [])) := by
  obtain ⟨⟨t, lm⟩, h1, h2⟩ := Option.map_eq_some_iff.1 Ex.lim_look
  obtain ⟨s0, h3, h4, h5⟩ := Ex.bLook_spec h1
  simp only [Prod.mk.injEq] at h2
  obtain ⟨f1, f2, f3, f4⟩ := h2
  refine ⟨_, Ex.bMult 1, [3], s0, t, Ex.limOs, 1, fun x G sl => Ex.bMult_least Ex.square 1 (by norm_num) (.fin 1) 1 x G sl,
    Ex.bStarts _ _ _ _ _ h3, h4, f1, ?_⟩
  rw [h5]
  refine Ex.not_least _ _ (by norm_num) _ _ _ _ _ _ (Or.inl ?_)
  unfold Ex.bMult
  rw [f2, f3, f4]
  norm_num

/-- **C108**, the full statement fails for returns because of a small radius: the multipliers are those of the rejected trial point. -/
theorem C108_radius_false : ∃ (e : Env ℚ (List (List ℚ))) (mu : Mult ℚ) (x0 : List ℚ) (s0 t : MSt ℚ (List (List ℚ)))
    (os : List (Orc ℚ (List (List ℚ)) × (List ℚ → List ℚ))) (d : ℚ),
    (∀ x G sl, LeastSquares (callIn e 0 d x G sl) (rows e.n 0 e.ns (mu x G sl))) ∧ Starts e x0 1 1 [] s0 ∧
    (∀ q ∈ os, q.2 = id ∨ q.2 = fun _ => mu q.1.xnew t.infoG t.sl) ∧
    mainLoop e (os.map Prod.fst) s0 = .done t ∧ t.ev.flag = 15 ∧
    ¬ LeastSquares (callIn e 0 d t.x t.infoG t.sl) (rows e.n 0 e.ns (mainLm e mu os s0 [])) := by
  obtain ⟨⟨t, lm⟩, h1, h2⟩ := Option.map_eq_some_iff.1 Ex.rad_look
  obtain ⟨s0, h3, h4, h5⟩ := Ex.bLook_spec h1
  simp only [Prod.mk.injEq] at h2
  obtain ⟨f1, f2, f3, f4⟩ := h2
  refine ⟨_, Ex.bMult (10 ^ 12 - 11 / 10), [10 ^ 12], s0, t, Ex.radOs, 1, fun x G sl => Ex.bMult_least Ex.bumpy _ (by norm_num) .pinf 1 x G sl,
    Ex.bStarts _ _ _ _ _ h3, ?_, h4, f1, ?_⟩
  · intro q hq
    simp only [Ex.radOs, List.mem_cons, List.not_mem_nil, or_false] at hq
    rcases hq with rfl | rfl
    · exact Or.inl rfl
    · refine Or.inr ?_
      funext l
      show Ex.bMult _ [10 ^ 12 - 11 / 10] ⟨[20], []⟩ [] = Ex.bMult _ [10 ^ 12 - 11 / 10] t.infoG t.sl
      unfold Ex.bMult
      rw [f3]
  · rw [h5]
    refine Ex.not_least _ _ (by norm_num) _ _ _ _ _ _ (Or.inr ?_)
    rw [f2, f4]
    norm_num [abs_lt]

namespace Ex

/-- A run with status 0 at the bound: the hypotheses of `C108_status0_partial` are met and the multiplier is that of the last models. -/
def okOs : List (Orc ℚ (List (List ℚ)) × (List ℚ → List ℚ)) :=
  [(gOrc 5 [1] 8, id), (gOrc 0 [2] 1, fun _ => [7]), (gOrc 0 [2] 1, id)]

example : ((bLook square 1 .pinf 3 okOs).map fun p => (p.1.ev.flag, p.1.x, p.1.infoG.g, p.2)) =
    some (0, [1], [199999 / 100000], [-199999 / 100000]) := by
  decide +kernel

/-- The step computation of the second pass gets the multiplier of the models after the improvement of the set; the hypotheses of
`C108_solver`, `C108_pass` and `C108_limit` are met. -/
def handLook : Option ((List ℚ × List ℚ × List ℚ) × ℕ × ℚ × List ℚ) := (startState (bEnv square 1 (.fin 3)) [3] 1 1 []).bind fun s0 =>
    match mainLoop (bEnv square 1 (.fin 3)) [gOrc 5 [1] 8] s0 with
    | .running s =>
      match beforeStep (bEnv square 1 (.fin 3)) (gOrc 0 [2] 1) s, pass (bEnv square 1 (.fin 3)) (gOrc 0 [2] 1) s with
      | .cont u, .cont t => some ((u.x, u.infoG.g, handedLm (bEnv square 1 (.fin 3)) (bMult 1) (gOrc 0 [2] 1) s), t.niter, t.pred,
          passLm (bEnv square 1 (.fin 3)) (bMult 1) (fun _ => [7]) (gOrc 0 [2] 1) s [8])
      | _, _ => none
    | _ => none

example : handLook = some (([1], [199999 / 100000], [-199999 / 100000]), 3, 1, [-199999 / 100000]) := by
  decide +kernel

/-- Without a predicted reduction the multipliers of the step computation remain. -/
example : ((bLook square 1 (.fin 1) 3 [(gOrc 5 [1] (-8), fun _ => [7]), (gOrc 0 [1] 1, id)]).map fun p => (p.1.ev.flag, p.1.x, p.2)) =
    some (5, [3], [7]) := by
  decide +kernel

end Ex

#print axioms C108_status0_partial
#print axioms C108_solver
#print axioms C108_pass
#print axioms C108_limit
#print axioms C108_limit_false
#print axioms C108_radius_false

end Sqpdfo
