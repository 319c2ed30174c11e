import Verif.Lemmas.Main

/-! # Invariants of the main loop: improvement of the interpolation set -/

set_option linter.unusedSectionVars false

namespace Sqpdfo
open Spec
variable {K F : Type} [Field K] [LinearOrder K] [IsStrictOrderedRing K]

/-- What holds when the loop returns. -/
structure Ret (e : Env K F) (t : MSt K F) : Prop where
  core : Core e [] t
  flags : t.ev.flag = 0 ∨ t.ev.flag = 3 ∨ t.ev.flag = 5 ∨ t.ev.flag = 6 ∨ t.ev.flag = 15 ∨
    t.ev.flag = 30
  conv : t.ev.flag = 0 → t.poised * t.yradius / 100 ≤ 1 / 10 ^ 5 ∧
    ((t.glagn ≤ e.tolGrad ∧ t.feasn ≤ e.tolFeas ∧ t.compl ≤ e.tolBnds) ∨
      (t.glagn / 100 ≤ e.tolGrad ∧ t.feasn / 100 ≤ e.tolFeas ∧ t.compl / 100 ≤ e.tolBnds ∧
        t.ev.infoF = .fin t.fx))
  simul : t.ev.flag = 3 → t.ev.fX.length = t.m ∧ t.ev.w.logF.getLast? = t.ev.X.getLast?
  miter : t.ev.flag = 5 → e.miter.le (.fin t.niter) = true
  msimul : t.ev.flag = 6 → e.msimul.le (.fin t.ev.nsimul) = true
  small : t.ev.flag = 15 → tooSmall e t t.delta ∨ tooSmall e t (repRadius t)

theorem cEps_pos : (0 : K) < cEps := by unfold cEps; positivity

theorem newEpsCur_pos (e : Env K F) (s : MSt K F) (hd : 0 < s.delta) (he : 0 < s.epsCur) :
    0 < newEpsCur e s := by
  unfold newEpsCur
  have h1 := cEps_pos (K := K)
  have h2 : (0 : K) < cMu := by unfold cMu; positivity
  split
  · split
    · exact mul_pos h2 hd
    · exact lt_min (mul_pos h2 he) h1
  · exact h1

theorem repRadius_pos (s : MSt K F) (hd : 0 < s.delta) (he : 0 < s.epsCur) :
    0 < repRadius s := by
  unfold repRadius
  have h1 := cEps_pos (K := K)
  split
  · exact lt_min hd he
  · split
    · exact lt_min hd h1
    · exact lt_max_of_lt_left hd

/-- Only `info.flag` is changed by `stop`. -/
theorem Core.stop {e : Env K F} {s : MSt K F} (h : Core e [] s) (n fl : ℕ) :
    Core e [] { s with niter := n, ev := { s.ev with flag := fl } } :=
  { h with link := fun j hj hp => h.link j hj hp }

/-- The relation between the state before and after the improvement. -/
structure Improved (s t : MSt K F) : Prop where
  niter : t.niter = s.niter + 1
  cur : t.cur = s.cur
  sigma : t.sigma = s.sigma
  pred : t.pred = s.pred
  rejected : t.rejected = s.rejected
  f0 : t.f0 = s.f0
  ce0n : t.ce0n = s.ce0n
  merit0 : t.merit0 = s.merit0
  nsimul : t.ev.nsimul + 1 ≤ s.ev.nsimul + s.cur
  mono : s.ev.nsimul ≤ t.ev.nsimul
  infoF : t.ev.infoF = .fin t.fx

/-- Limits for the counters on return. -/
def Counted (s t : MSt K F) : Prop :=
  t.niter ≤ s.niter + 2 ∧ t.ev.nsimul ≤ s.ev.nsimul + s.cur ∧ s.ev.nsimul ≤ t.ev.nsimul ∧
    s.niter ≤ t.niter ∧ t.cur = s.cur ∧ s.sigma ≤ t.sigma

theorem repairStage_sat (e : Env K F) (he : e.Ok) (o : Orc K F) (radius : K) (hr : 0 < radius)
    (s0 s : MSt K F) (h : Inv e [] s) (hn : s.niter = s0.niter + 1) (hc : s.cur = s0.cur)
    (hsg : s.sigma = s0.sigma) (hpr : s.pred = s0.pred) (hrj : s.rejected = s0.rejected)
    (hf0 : s.f0 = s0.f0) (hce : s.ce0n = s0.ce0n) (hm0 : s.merit0 = s0.merit0)
    (hns : s.ev.nsimul = s0.ev.nsimul) :
    (repairStage e o radius s).Sat (fun t => Inv e [] t ∧ Improved s0 t ∧ t.delta = radius)
      (fun t => Ret e t ∧ Counted s0 t) Outside := by
  unfold repairStage
  have hYne : s.set.Y ≠ [] := by
    intro h0
    have := h.Ylen; rw [h0] at this
    have := h.lo; simp at *; omega
  have hfar : (0 : K) ≤ (if o.normgx ≤ cEps ∨ s.pred = -1 then 1 else 10) * (1 + cEpsL) * radius := by
    have h1 : (0 : K) < cEpsL := by unfold cEpsL; positivity
    have h2 : (0 : K) < if o.normgx ≤ cEps ∨ s.pred = -1 then 1 else 10 := by
      split <;> norm_num
    positivity
  obtain ⟨r1, r2, r3, r4, r5, r6, -⟩ := C27_repair e.dist e.build o.propose (6 / 5)
    ((if o.normgx ≤ cEps ∨ s.pred = -1 then 1 else 10) * (1 + cEpsL) * radius) (by norm_num) hfar
    (e.order (dists e.dist s.set.Y)) s.set.Y hYne s.set.fac (he.order _) _ rfl
  generalize hrr : repairY e.dist e.build o.propose (6 / 5)
    ((if o.normgx ≤ cEps ∨ s.pred = -1 then 1 else 10) * (1 + cEpsL) * radius)
    (e.order (dists e.dist s.set.Y)) s.set.Y s.set.fac = r at *
  simp only [hrr]
  generalize (if e.verbose4 = true then o.poisedness r.st.fac r.st.Y
    else (r.maximprove, r.radius)) = pr
  have hI : Inv e r.st.replaced { s with
      set := { s.set with Y := r.st.Y, fac := r.st.fac }
      poised := pr.1
      yradius := pr.2
      poisedModel := true } := by
    exact { h with
      Ylen := r1.trans h.Ylen
      Y0 := r2.trans h.Y0
      link := by
        intro j hj hp
        obtain ⟨i, y, f, b1, b2, b3, b4, b5⟩ := h.link j hj (by simp)
        exact ⟨i, y, f, b1, (r6 j hp).trans b2, b3, b4, b5⟩ }
  have hlen : r.st.replaced.length + 1 ≤ s0.cur := by
    rw [h.Ylen, hc] at r5
    have := h.lo; omega
  refine PassRes.Sat.bind (Q := fun t => Inv e [] t ∧ Improved s0 t) ?_ ?_
  · refine PassRes.Sat.bind (Q := fun t => Inv e [] t ∧ SameBase s0 { t with niter := s0.niter, delta := s0.delta, epsCur := s0.epsCur, glagn := s0.glagn, feasn := s0.feasn, compl := s0.compl, poised := s0.poised, yradius := s0.yradius, sl := s0.sl } ∧ t.niter = s0.niter + 1 ∧
        t.ev.nsimul + 1 ≤ s0.ev.nsimul + s0.cur ∧ s0.ev.nsimul ≤ t.ev.nsimul) ?_ ?_
    · refine (evalReplaced_sat e _ _ hI r3 ?_).mono ?_ (fun _ h => h.elim) (fun _ h => h)
      · intro j hj; have := r4 j hj; rw [h.Ylen] at this; exact this
      · rintro t ⟨c1, c2, c3, -⟩
        simp only at c3
        refine ⟨c1, ⟨rfl, c2.cur.trans hc, c2.sigma.trans hsg, rfl, rfl, c2.pred.trans hpr, rfl, rfl,
          rfl, rfl, rfl, c2.rejected.trans hrj, c2.f0.trans hf0, c2.ce0n.trans hce,
          c2.merit0.trans hm0, rfl⟩, c2.niter.trans hn, ?_, ?_⟩
        · rw [c3, hns]; omega
        · rw [c3, hns]; omega
    · rintro t ⟨c1, c2, c3, c4, c5⟩
      refine (callSmallf_sat e t c1).mono ?_ (fun _ h => h.elim) (fun _ h => h)
      rintro u ⟨d1, d2, d3, d4⟩
      exact ⟨d1, ⟨d2.niter.trans c3, d2.cur.trans c2.cur, d2.sigma.trans c2.sigma,
        d2.pred.trans c2.pred, d2.rejected.trans c2.rejected, d2.f0.trans c2.f0,
        d2.ce0n.trans c2.ce0n, d2.merit0.trans c2.merit0, by rw [d3]; exact c4,
        by rw [d3]; exact c5, d4⟩⟩
  · rintro t0 ⟨c1, c2⟩
    replace c1 : Inv e [] (t0.newGx e).storeG := { c1 with link := fun j hj hp => c1.link j hj hp }
    replace c2 : Improved s0 (t0.newGx e).storeG := ⟨c2.niter, c2.cur, c2.sigma, c2.pred, c2.rejected, c2.f0,
      c2.ce0n, c2.merit0, c2.nsimul, c2.mono, c2.infoF⟩
    generalize (t0.newGx e).storeG = t at c1 c2 ⊢
    unfold improveEnd
    have hcnt : ∀ n fl, n ≤ s0.niter + 2 → s0.niter ≤ n → ∀ k : Meas K, Counted s0
        { t.measure k with niter := n, ev := { t.ev with flag := fl } } := by
      intro n fl hn1 hn2 k
      refine ⟨hn1, ?_, c2.mono, hn2, c2.cur, c2.sigma.ge⟩
      have := c2.nsimul
      show t.ev.nsimul ≤ _; omega
    by_cases hk : o.k2.fail = true
    · rw [if_pos hk]
      refine ⟨⟨c1.toCore.stop t.niter 30, ?_, ?_, ?_, ?_, ?_, ?_⟩, ?_⟩
      · simp [Status.failUnexpected]
      · intro h0; simp [Status.failUnexpected] at h0
      · intro h0; simp [Status.failUnexpected] at h0
      · intro h0; simp [Status.failUnexpected] at h0
      · intro h0; simp [Status.failUnexpected] at h0
      · intro h0; simp [Status.failUnexpected] at h0
      · refine ⟨by have := c2.niter; show t.niter ≤ _; omega, ?_, c2.mono, by have := c2.niter; show _ ≤ t.niter; omega, c2.cur, c2.sigma.ge⟩
        have := c2.nsimul
        show t.ev.nsimul ≤ _; omega
    · rw [if_neg hk]
      simp only
      split
      · rename_i hconv
        obtain ⟨v1, v2, v3, v4, -⟩ := hconv
        have hcore : Core e [] (t.measure o.k2) :=
          { c1.toCore with link := fun j hj hp => c1.link j hj hp }
        refine ⟨⟨hcore.stop _ 0, ?_, ?_, ?_, ?_, ?_, ?_⟩, hcnt _ _ ?_ ?_ _⟩
        · simp [Status.success]
        · intro _
          simp only [cFactorCV, cEps] at v1 v2 v3 v4
          exact ⟨v4, Or.inr ⟨v1, v2, v3, c2.infoF⟩⟩
        · intro h0; simp [Status.success] at h0
        · intro h0; simp [Status.success] at h0
        · intro h0; simp [Status.success] at h0
        · intro h0; simp [Status.success] at h0
        · have := c2.niter; show t.niter + 1 ≤ _; omega
        · have := c2.niter; show _ ≤ t.niter + 1; omega
      · refine ⟨?_, ⟨c2.niter, c2.cur, c2.sigma, c2.pred, c2.rejected, c2.f0, c2.ce0n, c2.merit0,
          c2.nsimul, c2.mono, c2.infoF⟩, rfl⟩
        exact { c1 with link := fun j hj hp => c1.link j hj hp, delta := hr }

theorem improve_sat (e : Env K F) (he : e.Ok) (o : Orc K F) (s : MSt K F) (h : Inv e [] s) :
    (improve e o s).Sat (fun t => Inv e [] t ∧ Improved s t ∧ 1 / 10 ^ 10 ≤ t.delta)
      (fun t => Ret e t ∧ Counted s t) Outside := by
  unfold improve
  rw [if_pos h.lo]
  simp only
  have hcnt : ∀ t : MSt K F, t.niter = s.niter + 1 → t.ev.nsimul = s.ev.nsimul → t.cur = s.cur →
      t.sigma = s.sigma → Counted s t := by
    intro t h1 h2 h3 h4
    exact ⟨by omega, by omega, by omega, by omega, h3, h4.ge⟩
  split
  · rename_i hconv
    obtain ⟨v1, v2, v3, v4⟩ := hconv
    refine ⟨⟨?_, ?_, ?_, ?_, ?_, ?_, ?_⟩, hcnt _ rfl rfl rfl rfl⟩
    · exact { h.toCore with link := fun j hj hp => h.link j hj hp }
    · simp [Status.success]
    · intro _
      simp only [cFactorCV, cEps] at v4
      exact ⟨v4, Or.inl ⟨v1, v2, v3⟩⟩
    · intro h0; simp [Status.success] at h0
    · intro h0; simp [Status.success] at h0
    · intro h0; simp [Status.success] at h0
    · intro h0; simp [Status.success] at h0
  · have heps : 0 < newEpsCur e { s with
        poised := (o.poisedness s.set.fac s.set.Y).1
        yradius := (o.poisedness s.set.fac s.set.Y).2 } := newEpsCur_pos e _ h.delta h.eps
    generalize newEpsCur e { s with
        poised := (o.poisedness s.set.fac s.set.Y).1
        yradius := (o.poisedness s.set.fac s.set.Y).2 } = ec at *
    generalize hs' : ({ s with
        niter := s.niter + 1
        epsCur := ec
        poised := (o.poisedness s.set.fac s.set.Y).1
        yradius := (o.poisedness s.set.fac s.set.Y).2 } : MSt K F) = s'
    have hI : Inv e [] s' := by
      subst hs'
      exact { h with link := fun j hj hp => h.link j hj hp, eps := heps }
    split
    · rename_i hsm
      refine ⟨⟨?_, ?_, ?_, ?_, ?_, ?_, ?_⟩, ?_⟩
      · exact { hI.toCore with link := fun j hj hp => hI.link j hj hp }
      · simp [Status.stopOnSmallTR]
      · intro h0; simp [Status.stopOnSmallTR] at h0
      · intro h0; simp [Status.stopOnSmallTR] at h0
      · intro h0; simp [Status.stopOnSmallTR] at h0
      · intro h0; simp [Status.stopOnSmallTR] at h0
      · intro _; exact Or.inr hsm
      · subst hs'; exact hcnt _ rfl rfl rfl rfl
    · rename_i hsm
      have hrp : 0 < repRadius s' := repRadius_pos s' hI.delta hI.eps
      have hge : 1 / 10 ^ 10 ≤ repRadius s' := by
        simp only [tooSmall, not_or, not_lt] at hsm
        refine le_trans ?_ hsm.2
        unfold cEps; norm_num
      refine (repairStage_sat e he o _ hrp s s' hI ?_ ?_ ?_ ?_ ?_ ?_ ?_ ?_ ?_).mono ?_
        (fun _ h => h) (fun _ h => h)
      all_goals first | (subst hs'; rfl) | skip
      rintro t ⟨c1, c2, c3⟩
      exact ⟨c1, c2, by rw [c3]; exact hge⟩

end Sqpdfo
