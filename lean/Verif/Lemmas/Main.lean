import Verif.Model.Main
import Verif.Spec.Main
import Verif.Lemmas.InterpSet
import Verif.Lemmas.InitSet
import Verif.Props.C24_C27_InterpSet
import Mathlib.Tactic.Linarith
import Mathlib.Tactic.NormNum
import Mathlib.Tactic.Positivity
import Mathlib.Tactic.Ring

/-! # Invariants of the main loop -/

set_option linter.unusedSectionVars false

namespace Sqpdfo
open Spec
variable {K F : Type} [Field K] [LinearOrder K] [IsStrictOrderedRing K]

/-- What is assumed of the kernels. -/
structure Env.Ok (e : Env K F) : Prop where
  nrm_nonneg : ∀ v, 0 ≤ e.nrm v
  order : ∀ d, SortedDesc d (e.order d)

/-- The largest possible size of the interpolation set. -/
def Env.cap (e : Env K F) : ℕ := if e.regression then e.pfinal + e.pfinal else e.pfinal

/-- Column `j` of the set is an evaluated point with its recorded value. -/
def Linked (s : MSt K F) (j : ℕ) : Prop :=
  ∃ (i : ℕ) (y : List K) (f : K), s.set.ind[j]? = some i ∧ s.set.Y[j]? = some y ∧
    s.set.fY[j]? = some f ∧ s.ev.X[i]? = some y ∧ s.ev.fX[i]? = some (.fin f)

/-- The part of the invariant that also holds on return; the columns in `pend` are waiting for
their evaluation. -/
structure Core (e : Env K F) (pend : List ℕ) (s : MSt K F) : Prop where
  Xlen : s.ev.X.length = s.m + 1
  Ylen : s.set.Y.length = s.cur
  indlen : s.set.ind.length = s.cur
  flen : s.set.fY.length = s.cur
  ciY : s.set.ciY = []
  ceY0 : e.me = 0 → s.set.ceY = []
  ceY1 : 0 < e.me → s.set.ceY.length = s.cur
  lo : e.n + 1 ≤ s.cur
  hi : s.cur ≤ e.cap
  link : ∀ j, j < s.cur → j ∉ pend → Linked s j
  ind0 : s.set.ind[0]? = some s.ixbest
  Y0 : s.set.Y[0]? = some s.x
  f0 : s.set.fY[0]? = some s.fx
  log : s.ev.X <:+ s.ev.w.logF
  count : s.ev.nsimul = s.ev.w.logF.length
  hist : Recorded e.U s.ev.w s.ev.X s.ev.fX

/-- The invariant of the loop. -/
structure Inv (e : Env K F) (pend : List ℕ) (s : MSt K F) : Prop extends Core e pend s where
  fXlen : s.ev.fX.length = s.m + 1
  cXlen : s.ev.ceX.length ≤ s.m + 1
  fin : ∀ v ∈ s.ev.fX, ∃ q, v = Fl.fin q
  infoF : ∃ q, s.ev.infoF = Fl.fin q
  flag : s.ev.flag = 0
  delta : 0 < s.delta
  eps : 0 < s.epsCur
  sigma : 1 ≤ s.sigma

/-- Properties of the three outcomes of a stage. -/
def PassRes.Sat (r : PassRes K F) (Pc Pr : MSt K F → Prop) (Px : Crash → Prop) : Prop :=
  match r with
  | .cont s => Pc s
  | .ret s => Pr s
  | .crash c => Px c

theorem PassRes.Sat.bind {r : PassRes K F} {k : MSt K F → PassRes K F} {Q Pc Pr : MSt K F → Prop}
    {Px : Crash → Prop} (h : r.Sat Q Pr Px) (hk : ∀ s, Q s → (k s).Sat Pc Pr Px) :
    (r.bind k).Sat Pc Pr Px := by
  cases r with
  | cont s => exact hk s h
  | ret s => exact h
  | crash c => exact h

theorem PassRes.Sat.mono {r : PassRes K F} {Pc Pr Qc Qr : MSt K F → Prop} {Px Qx : Crash → Prop}
    (h : r.Sat Pc Pr Px) (h1 : ∀ s, Pc s → Qc s) (h2 : ∀ s, Pr s → Qr s)
    (h3 : ∀ c, Px c → Qx c) : r.Sat Qc Qr Qx := by
  cases r with
  | cont s => exact h1 s h
  | ret s => exact h2 s h
  | crash c => exact h3 c h

theorem PassRes.Sat.and {r : PassRes K F} {P P' Q Q' : MSt K F → Prop} {X Y : Crash → Prop}
    (h : r.Sat P P' X) (h' : r.Sat Q Q' Y) :
    r.Sat (fun s => P s ∧ Q s) (fun s => P' s ∧ Q' s) (fun c => X c ∧ Y c) := by
  cases r with
  | cont s => exact ⟨h, h'⟩
  | ret s => exact ⟨h, h'⟩
  | crash c => exact ⟨h, h'⟩

/-- The exceptions that can occur: reasons outside the interpolation bookkeeping. -/
def Outside (c : Crash) : Prop := c = .nonNumber ∨ c = .improvementFailed ∨ c = .ceShape

/-! ### Evaluation -/

theorem augmX_main (U : User (List K) K) (y : List K) (m : ℕ) (s s' : EvSt (List K) K)
    (hX : s.X.length = m) (hf : s.fX.length = m) (hc : s.ceX.length ≤ m)
    (h : augmX U (.fin big) y m s = some s') :
    s'.X = s.X ++ [y] ∧ s'.nsimul = s.nsimul + 1 ∧ s'.w.logF = s.w.logF ++ [y] ∧
      s'.ceX.length ≤ m + 1 ∧
      (s'.flag = 3 ∧ s'.fX = s.fX ∨
        s'.flag = s.flag ∧ ∃ q r, s'.infoF = .fin q ∧
          (U.f s.w y = .num (.fin q) ∧ ClipF q r) ∧ s'.fX = s.fX ++ [.fin r]) := by
  have hlog := (sqpdfoFunc_spec U y s.w).1
  have e1 : ∀ a, setOrAppend s.X m a = s.X ++ [a] := by intro a; simp [setOrAppend, hX]
  have e2 : ∀ a, setOrAppend s.fX m a = s.fX ++ [a] := by intro a; simp [setOrAppend, hf]
  have e3 : ∀ a, setOrAppend s.ceX m a = s.ceX ++ [a] := by
    intro a; simp [setOrAppend, Nat.not_lt.mpr hc]
  simp only [augmX, e1, e2, e3] at h
  split at h
  · cases h
  · cases h
  · rename_i v hv
    split at h
    · simp only [Option.some.injEq] at h; subst h
      exact ⟨rfl, rfl, hlog, Nat.le_succ_of_le hc, Or.inl ⟨rfl, rfl⟩⟩
    split at h
    · simp only [Option.some.injEq] at h; subst h
      exact ⟨rfl, rfl, hlog, Nat.le_succ_of_le hc, Or.inl ⟨rfl, rfl⟩⟩
    split at h
    · simp only [Option.some.injEq] at h; subst h
      exact ⟨rfl, rfl, hlog, Nat.le_succ_of_le hc, Or.inl ⟨rfl, rfl⟩⟩
    split at h
    · simp only [Option.some.injEq] at h; subst h
      exact ⟨rfl, rfl, hlog, Nat.le_succ_of_le hc, Or.inl ⟨rfl, rfl⟩⟩
    · rename_i h1 h2 _ _
      simp only [Option.some.injEq] at h; subst h
      refine ⟨rfl, rfl, hlog, ?_, Or.inr ⟨rfl, ?_⟩⟩
      · dsimp only
        split
        · exact Nat.le_succ_of_le hc
        · simpa using hc
      · cases v with
        | nan => simp [Fl.isNan] at h1
        | pinf => simp [Fl.isInf] at h2
        | ninf => simp [Fl.isInf] at h2
        | fin q =>
          obtain ⟨r, hr, hcl, -⟩ := fmin_spec q
          refine ⟨q, r, rfl, ⟨?_, hcl⟩, by simp [hr]⟩
          obtain ⟨-, f1, f2, f3⟩ := sqpdfoFunc_spec U y s.w
          cases ha : U.f s.w y with
          | other => rw [f1 ha] at hv; cases hv
          | raised => rw [f2 ha] at hv; cases hv
          | num v => rw [(f3 v ha).1] at hv; exact hv

theorem Spec.Recorded.keep {U : User (List K) K} {w : World (List K)} {X : List (List K)}
    {fX : List (Fl K)} (h : Recorded U w X fX) {y : List K} {w' : World (List K)}
    (hw : w'.logF = w.logF ++ [y]) : Recorded U w' (X ++ [y]) fX := by
  intro i v hv
  obtain ⟨z, w0, q, r, h1, h2, h3⟩ := h i v hv
  refine ⟨z, w0, q, r, ?_, ?_, h3⟩
  · rw [List.getElem?_append_left (List.getElem?_eq_some_iff.1 h1).1, h1]
  · rw [hw]; exact h2.trans (List.prefix_append _ _)

theorem Spec.Recorded.append {U : User (List K) K} {w : World (List K)} {X : List (List K)}
    {fX : List (Fl K)} (h : Recorded U w X fX) {y : List K} {w' : World (List K)} {q r : K}
    (hl : fX.length = X.length)
    (hw : w'.logF = w.logF ++ [y]) (hq : U.f w y = .num (.fin q) ∧ ClipF q r) :
    Recorded U w' (X ++ [y]) (fX ++ [.fin r]) := by
  intro i v hv
  by_cases hi : i < fX.length
  · rw [List.getElem?_append_left hi] at hv
    exact h.keep hw i v hv
  · have hi' : i = fX.length := by
      have := (List.getElem?_eq_some_iff.1 hv).1
      simp at this; omega
    subst hi'
    simp only [List.getElem?_concat_length, Option.some.injEq] at hv
    exact ⟨y, w, q, r, by rw [hl]; simp, by rw [hw], hq.1, hv.symm, hq.2⟩

theorem getElem?_append_some {α : Type} {l l' : List α} {i : ℕ} {a : α} (h : l[i]? = some a) :
    (l ++ l')[i]? = some a := by
  have := (List.getElem?_eq_some_iff.1 h).1
  rw [List.getElem?_append_left this, h]

/-- What the improvement and the step leave alone. -/
structure SameBase (s t : MSt K F) : Prop where
  niter : t.niter = s.niter
  cur : t.cur = s.cur
  sigma : t.sigma = s.sigma
  delta : t.delta = s.delta
  eps : t.epsCur = s.epsCur
  pred : t.pred = s.pred
  glagn : t.glagn = s.glagn
  feasn : t.feasn = s.feasn
  compl : t.compl = s.compl
  poised : t.poised = s.poised
  yradius : t.yradius = s.yradius
  rejected : t.rejected = s.rejected
  f0 : t.f0 = s.f0
  ce0n : t.ce0n = s.ce0n
  merit0 : t.merit0 = s.merit0
  sl : t.sl = s.sl

theorem SameBase.refl (s : MSt K F) : SameBase s s :=
  ⟨rfl, rfl, rfl, rfl, rfl, rfl, rfl, rfl, rfl, rfl, rfl, rfl, rfl, rfl, rfl, rfl⟩

theorem SameBase.trans {s t u : MSt K F} (h : SameBase s t) (h' : SameBase t u) : SameBase s u :=
  ⟨h'.1.trans h.1, h'.2.trans h.2, h'.3.trans h.3, h'.4.trans h.4, h'.5.trans h.5, h'.6.trans h.6,
    h'.7.trans h.7, h'.8.trans h.8, h'.9.trans h.9, h'.10.trans h.10, h'.11.trans h.11,
    h'.12.trans h.12, h'.13.trans h.13, h'.14.trans h.14, h'.15.trans h.15, h'.16.trans h.16⟩

theorem evalReplaced_sat (e : Env K F) : ∀ (js : List ℕ) (s : MSt K F), Inv e js s → js.Nodup →
    (∀ j ∈ js, 1 ≤ j ∧ j < s.cur) →
    (evalReplaced e js s).Sat
      (fun t => Inv e [] t ∧ SameBase s t ∧ t.ev.nsimul = s.ev.nsimul + js.length ∧
        t.x = s.x ∧ t.fx = s.fx ∧ t.ixbest = s.ixbest ∧ t.set.Y = s.set.Y)
      (fun _ => False) Outside := by
  intro js
  induction js with
  | nil => intro s h _ _; exact ⟨h, SameBase.refl s, rfl, rfl, rfl, rfl, rfl⟩
  | cons j js ih =>
    intro s h hnd hj
    obtain ⟨hj1, hj2⟩ := hj j (by simp)
    have hy : s.set.Y[j]? = some (s.set.Y[j]'(by rw [h.Ylen]; exact hj2)) :=
      List.getElem?_eq_getElem _
    have hi : s.set.ind[j]? = some (s.set.ind[j]'(by rw [h.indlen]; exact hj2)) :=
      List.getElem?_eq_getElem _
    simp only [evalReplaced, hy, hi]
    cases ha : augmX e.U (.fin big) (s.set.Y[j]'(by rw [h.Ylen]; exact hj2)) (s.m + 1) s.ev with
    | none => exact Or.inl rfl
    | some ev =>
      obtain ⟨a1, a2, a3, a4, a5⟩ := augmX_main e.U _ _ _ _ h.Xlen h.fXlen h.cXlen ha
      simp only
      rcases a5 with ⟨-, a5⟩ | ⟨hfl, q, r, hq, hans, a5⟩
      · have : ev.fX[s.m + 1]? = none := by rw [a5, List.getElem?_eq_none_iff, h.fXlen]
        rw [this]; exact Or.inr (Or.inl rfl)
      have hv : ev.fX[s.m + 1]? = some (.fin r) := by
        rw [a5, ← h.fXlen]; simp
      rw [hv]
      simp only [Fl.val?]
      -- the new state without the constraint values
      have key : ∀ ceY : List (List K), (e.me = 0 → ceY = []) → (0 < e.me → ceY.length = s.cur) →
          Inv e js { s with
            m := s.m + 1
            ev := ev
            poisedModel := false
            set := { s.set with
              ind := s.set.ind.set j (s.m + 1)
              fY := s.set.fY.set j r
              ceY := ceY } } := by
        intro ceY hc0 hc1
        have hne : (0 : ℕ) ≠ j := by omega
        exact {
          Xlen := by simp [a1, h.Xlen]
          Ylen := h.Ylen
          indlen := by simpa using h.indlen
          flen := by simpa using h.flen
          ciY := h.ciY
          ceY0 := hc0
          ceY1 := hc1
          lo := h.lo
          hi := h.hi
          link := by
            intro k hk hkp
            by_cases hkj : k = j
            · subst hkj
              refine ⟨s.m + 1, _, r, ?_, hy, ?_, ?_, hv⟩
              · simp [h.indlen, hj2]
              · simp [h.flen, hj2]
              · show ev.X[s.m + 1]? = _
                rw [a1, ← h.Xlen]; simp
            · obtain ⟨i, y, f, b1, b2, b3, b4, b5⟩ := h.link k hk (by simp [hkj, hkp])
              refine ⟨i, y, f, ?_, b2, ?_, ?_, ?_⟩
              · show (s.set.ind.set j (s.m + 1))[k]? = _
                rw [List.getElem?_set_ne (Ne.symm hkj)]; exact b1
              · show (s.set.fY.set j r)[k]? = _
                rw [List.getElem?_set_ne (Ne.symm hkj)]; exact b3
              · show ev.X[i]? = _
                rw [a1]; exact getElem?_append_some b4
              · show ev.fX[i]? = _
                rw [a5]; exact getElem?_append_some b5
          ind0 := by
            show (s.set.ind.set j (s.m + 1))[0]? = _
            rw [List.getElem?_set_ne (Ne.symm hne)]; exact h.ind0
          Y0 := h.Y0
          f0 := by
            show (s.set.fY.set j r)[0]? = _
            rw [List.getElem?_set_ne (Ne.symm hne)]; exact h.f0
          log := by
            show ev.X <:+ ev.w.logF
            rw [a1, a3]
            obtain ⟨p, hp⟩ := h.log
            exact ⟨p, by rw [← hp, List.append_assoc]⟩
          count := by show ev.nsimul = _; rw [a2, a3, h.count]; simp
          hist := by
            show Recorded e.U ev.w ev.X ev.fX
            rw [a1, a5]; exact h.hist.append (by rw [h.fXlen, h.Xlen]) a3 hans
          fXlen := by show ev.fX.length = _; rw [a5]; simp [h.fXlen]
          cXlen := a4
          fin := by
            intro v hv'
            have hv' : v ∈ ev.fX := hv'
            rw [a5, List.mem_append] at hv'
            rcases hv' with hv' | hv'
            · exact h.fin v hv'
            · exact ⟨r, by simpa using hv'⟩
          infoF := ⟨q, hq⟩
          flag := hfl.trans h.flag
          delta := h.delta
          eps := h.eps
          sigma := h.sigma }
      have fin : ∀ t0 : MSt K F, Inv e js t0 → SameBase s t0 →
          t0.ev.nsimul = s.ev.nsimul + 1 → t0.x = s.x → t0.fx = s.fx → t0.ixbest = s.ixbest →
          t0.set.Y = s.set.Y →
          (evalReplaced e js t0).Sat
            (fun t => Inv e [] t ∧ SameBase s t ∧
              t.ev.nsimul = s.ev.nsimul + (j :: js).length ∧
              t.x = s.x ∧ t.fx = s.fx ∧ t.ixbest = s.ixbest ∧ t.set.Y = s.set.Y)
            (fun _ => False) Outside := by
        intro t0 ht hb hn hx hfx hix hY
        refine (ih t0 ht (List.nodup_cons.1 hnd).2 ?_).mono ?_ (fun _ h => h) (fun _ h => h)
        · intro k hk; rw [hb.cur]; exact hj k (by simp [hk])
        · rintro t ⟨c1, c2, c3, c4, c5, c6, c7⟩
          refine ⟨c1, hb.trans c2, ?_, c4.trans hx, c5.trans hfx, c6.trans hix, c7.trans hY⟩
          rw [c3, hn]; simp; omega
      by_cases hme : e.me > 0
      · rw [if_pos hme]
        cases (ev.ceX[s.m + 1]?).bind colK with
        | none => exact Or.inr (Or.inr rfl)
        | some c =>
          refine fin _ (key (s.set.ceY.set j c) (fun h0 => by omega) ?_) ?_ a2 rfl rfl rfl rfl
          · intro h1; simpa using h.ceY1 h1
          · exact ⟨rfl, rfl, rfl, rfl, rfl, rfl, rfl, rfl, rfl, rfl, rfl, rfl, rfl, rfl, rfl, rfl⟩
      · rw [if_neg hme]
        refine fin _ (key s.set.ceY h.ceY0 h.ceY1) ?_ a2 rfl rfl rfl rfl
        exact ⟨rfl, rfl, rfl, rfl, rfl, rfl, rfl, rfl, rfl, rfl, rfl, rfl, rfl, rfl, rfl, rfl⟩

/-! ### Selection of the base point -/

/-- Exchanging two columns keeps the columns linked. -/
theorem Linked.exchange {s t : MSt K F} {a b j : ℕ} (hX : t.ev.X = s.ev.X)
    (hf : t.ev.fX = s.ev.fX) (h1 : Exchanged s.set.Y t.set.Y a b)
    (h2 : Exchanged s.set.ind t.set.ind a b) (h3 : Exchanged s.set.fY t.set.fY a b)
    (h : Linked s (Equiv.swap a b j)) : Linked t j := by
  obtain ⟨i, y, f, b1, b2, b3, b4, b5⟩ := h
  exact ⟨i, y, f, by rw [h2.2, b1], by rw [h1.2, b2], by rw [h3.2, b3], by rw [hX, b4],
    by rw [hf, b5]⟩

theorem swap_lt {a b j p : ℕ} (ha : a < p) (hb : b < p) (hj : j < p) : Equiv.swap a b j < p := by
  by_cases h1 : j = a
  · subst h1; rwa [Equiv.swap_apply_left]
  · by_cases h2 : j = b
    · subst h2; rwa [Equiv.swap_apply_right]
    · rwa [Equiv.swap_apply_of_ne_of_ne h1 h2]

theorem Core.sized {e : Env K F} {pend : List ℕ} {s : MSt K F} (h : Core e pend s) :
    Sized s.cur s.set :=
  ⟨h.Ylen, h.indlen, h.flen, Or.inl h.ciY, by
    rcases Nat.eq_zero_or_pos e.me with h0 | h0
    · exact Or.inl (h.ceY0 h0)
    · exact Or.inr (h.ceY1 h0)⟩

theorem Exchanged.nil_of_nil {α : Type} {l' : List α} {a b : ℕ}
    (h : Exchanged [] l' a b) : l' = [] := List.length_eq_zero_iff.1 h.1

theorem callSmallf_sat (e : Env K F) (s : MSt K F) (h : Inv e [] s) :
    (callSmallf e s).Sat
      (fun t => Inv e [] t ∧ SameBase s t ∧ t.ev.nsimul = s.ev.nsimul ∧
        t.ev.infoF = .fin t.fx)
      (fun _ => False) Outside := by
  unfold callSmallf
  have hp : 0 < s.cur := by have := h.lo; omega
  split
  · exact Or.inr (Or.inr rfl)
  · rename_i nrms hn
    have hlen : nrms.length = s.cur := by
      split at hn
      · rename_i hany
        have hne : s.set.ceY ≠ [] := by
          intro h0; rw [h0] at hany; simp [anyNonzero] at hany
        have hme : 0 < e.me := by
          rcases Nat.eq_zero_or_pos e.me with h0 | h0
          · exact absurd (h.ceY0 h0) hne
          · exact h0
        have := (mapM_some_getElem _ _ _ hn).1
        rw [this, h.ceY1 hme]
      · simp only [Option.some.injEq] at hn
        rw [← hn]; simp [h.Ylen]
    have hm : (meritY e.trunc s.sigma (anyNonzero s.set.ceY) s.set.fY nrms).length = s.cur := by
      unfold meritY
      cases anyNonzero s.set.ceY <;> simp [h.flen, hlen]
    obtain ⟨b, t', hb, hbp, e1, hsz, x1, x2, x3, x4, x5, -, g1, g2, hz, hnz⟩ :=
      C25_never_worse_partial e.build e.lb e.ub _
        (⟨s.set, s.fx, s.ixbest, s.fx⟩ : SmallfSt (List K) (List K) F K) s.cur hp h.toCore.sized hm
    simp only at e1 x1 x2 x3 x4 x5 g1 hz hnz hb
    simp only [e1]
    have hY0 : 0 < t'.s.Y.length := by rw [hsz.Y]; exact hp
    rw [List.getElem?_eq_getElem hY0]
    simp only
    -- base data
    have hbase : t'.s.ind[0]? = some t'.ixbest ∧ t'.s.fY[0]? = some t'.fx ∧
        t'.infoF = t'.fx := by
      by_cases hb0 : b = 0
      · obtain ⟨z1, z2, z3⟩ := hz hb0
        rw [z1, z2, z3]
        refine ⟨h.ind0, h.f0, ?_⟩
        rw [z1, h.f0] at g2; simpa using g2.symm
      · obtain ⟨z1, z2, -⟩ := hnz hb0
        refine ⟨?_, by rw [z1]; exact g2, z1.symm⟩
        rw [x2.2, Equiv.swap_apply_left]; exact z2
    refine ⟨?_, ⟨rfl, rfl, rfl, rfl, rfl, rfl, rfl, rfl, rfl, rfl, rfl, rfl, rfl, rfl, rfl, rfl⟩, rfl, ?_⟩
    · exact {
        Xlen := h.Xlen
        Ylen := hsz.Y
        indlen := hsz.ind
        flen := hsz.fY
        ciY := by
          have := x4; rw [h.ciY] at this; exact Exchanged.nil_of_nil this
        ceY0 := by
          intro h0; have := x5; rw [h.ceY0 h0] at this; exact Exchanged.nil_of_nil this
        ceY1 := fun h1 => x5.1.trans (h.ceY1 h1)
        lo := h.lo
        hi := h.hi
        link := fun j hj _ => Linked.exchange (s := s) rfl rfl x1 x2 x3
          (h.link _ (swap_lt hp hbp hj) (by simp))
        ind0 := hbase.1
        Y0 := by
          rw [List.getElem?_eq_getElem hY0]
          simp only
          split
          · rfl
          · rename_i hc
            have hc' : smallfChoice (meritY e.trunc s.sigma (anyNonzero s.set.ceY) s.set.fY nrms)
                (indInside e.lb e.ub s.set.Y) = none := by simpa using hc
            have hb0 : b = 0 := by rw [hb, hc']; rfl
            have := (hz hb0).1
            have h2 := h.Y0
            rw [← this, List.getElem?_eq_getElem hY0] at h2
            exact h2
        f0 := hbase.2.1
        log := h.log
        count := h.count
        hist := h.hist
        fXlen := h.fXlen
        cXlen := h.cXlen
        fin := h.fin
        infoF := ⟨_, rfl⟩
        flag := h.flag
        delta := h.delta
        eps := h.eps
        sigma := h.sigma }
    · simp [hbase.2.2]

end Sqpdfo
