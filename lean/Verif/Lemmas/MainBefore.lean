import Verif.Lemmas.MainOutcome
import Verif.Spec.Step

/-! # What precedes the decision about a step -/

set_option linter.unusedSectionVars false

namespace Sqpdfo
open Spec
variable {K F : Type} [Field K] [LinearOrder K] [IsStrictOrderedRing K]

/-- The memorised merit value belongs to the memorised parts and the current penalty. -/
def Memorised (s : MSt K F) : Prop := s.merit0 = s.f0 + s.sigma * s.ce0n

/-- State `v` before the trial step is computed, `u` after the evaluation of the trial point. -/
structure Before (e : Env K F) (o : Orc K F) (v u : MSt K F) : Prop where
  inv : Inv e [] u
  X : u.ev.X[u.m]? = some o.xnew
  m : u.m = v.m + 1
  x : u.x = v.x
  fx : u.fx = v.fx
  ixbest : u.ixbest = v.ixbest
  delta : u.delta = v.delta
  rejected : u.rejected = v.rejected
  sl : u.sl = v.sl
  set : u.set = v.set
  cur : u.cur = v.cur
  poisedModel : u.poisedModel = v.poisedModel
  epsCur : u.epsCur = v.epsCur
  infoCe : u.infoCe = v.infoCe
  sigma : v.sigma ≤ u.sigma
  dominate : 0 < o.rpred → o.qcost ≤ 7 / 10 * (u.sigma * o.rpred)
  merit : (v.rejected = true → Memorised v) → Memorised u
  /-- after an accepted step the reference value is the current one -/
  fresh : v.rejected = false → ∃ c, v.ev.infoF = .fin u.f0 ∧ e.resNorm v.infoCe v.sl = some c ∧
    u.ce0n = c
  /-- after a rejected step it is kept -/
  kept : v.rejected = true → u.f0 = v.f0 ∧ u.ce0n = v.ce0n
  /-- `info.f` is the objective value of the trial point -/
  info : ∃ q r, u.ev.infoF = .fin q ∧ u.ev.fX[u.m]? = some (.fin r) ∧ ClipF q r
  /-- `ceplus` is the recorded column of the trial point unless all recorded values are zero -/
  plus : u.ev.ceX[u.m]? = some (u.ceplus.map Fl.fin) ∨
    u.ceplus = v.ceplus ∧ ∀ col ∈ u.ev.ceX, ∀ q, Fl.fin q ∈ col → q = 0

theorem penalty_dominates (o : Orc K F) (s t : MSt K F) (h : penalty o s = .cont t)
    (hr : 0 < o.rpred) : o.qcost ≤ 7 / 10 * (t.sigma * o.rpred) := by
  have hb : sigmab o ≤ t.sigma := by
    unfold penalty at h
    split at h
    · simp only at h
      split at h
      · cases h
      · simp only [PassRes.cont.injEq] at h; subst h; exact le_max_left _ _
    · rename_i hn
      simp only [PassRes.cont.injEq] at h; subst h; exact not_lt.1 hn
  unfold sigmab at hb
  rw [if_neg hr.ne'] at hb
  have h7 : (1 - cRhoFactor : K) = 7 / 10 := by unfold cRhoFactor; norm_num
  rw [h7, div_le_iff₀ (by positivity)] at hb
  linarith

theorem evalTrial_info (e : Env K F) (o : Orc K F) (s t : MSt K F) (hI : Inv e [] s)
    (h : evalTrial e o s = .cont t) :
    ∃ q r, t.ev.infoF = .fin q ∧ t.ev.fX[t.m]? = some (.fin r) ∧ ClipF q r := by
  unfold evalTrial at h
  simp only at h
  cases ha : augmX e.U (.fin big) o.xnew (s.m + 1) s.ev with
  | none => rw [ha] at h; cases h
  | some ev =>
    rw [ha] at h
    simp only at h
    obtain ⟨-, -, -, -, a5⟩ := augmX_main e.U _ _ _ _ hI.Xlen hI.fXlen hI.cXlen ha
    split at h
    · cases h
    rename_i hfl
    rcases a5 with ⟨a, -⟩ | ⟨-, q, r, b1, ⟨-, b2⟩, b3⟩
    · rw [a] at hfl; exact absurd (by decide) hfl
    have hf : ev.fX[s.m + 1]? = some (.fin r) := by
      rw [b3, ← hI.fXlen]; simp
    split at h
    · split at h
      · cases h
      · split at h
        · cases h
        · simp only [PassRes.cont.injEq] at h
          subst h
          exact ⟨q, r, b1, hf, b2⟩
    · simp only [PassRes.cont.injEq] at h
      subst h
      exact ⟨q, r, b1, hf, b2⟩

theorem colK_some {col : List (Fl K)} {c : List K} (h : colK col = some c) : col = c.map Fl.fin := by
  unfold colK at h
  induction col generalizing c with
  | nil => simp at h; subst h; rfl
  | cons a l ih =>
    rw [List.mapM_cons] at h
    cases a with
    | fin q =>
      simp only [Fl.val?, Option.bind_eq_bind, Option.bind_some] at h
      cases hl : List.mapM Fl.val? l with
      | none => rw [hl] at h; cases h
      | some d =>
        rw [hl] at h
        simp only [Option.bind_some, Option.pure_def, Option.some.injEq] at h
        subst h
        rw [ih hl]; rfl
    | _ => simp [Fl.val?] at h

theorem evalTrial_plus (e : Env K F) (o : Orc K F) (s t : MSt K F)
    (h : evalTrial e o s = .cont t) :
    t.ev.ceX[t.m]? = some (t.ceplus.map Fl.fin) ∨
      t.ceplus = s.ceplus ∧ ∀ col ∈ t.ev.ceX, ∀ q, Fl.fin q ∈ col → q = 0 := by
  unfold evalTrial at h
  simp only at h
  split at h
  · cases h
  split at h
  · cases h
  split at h
  · split at h
    · cases h
    · split at h
      · cases h
      · rename_i c hc
        simp only [PassRes.cont.injEq] at h
        subst h
        left
        obtain ⟨col, h1, h2⟩ := Option.bind_eq_some_iff.1 hc
        show _ = some (c.map Fl.fin)
        rw [← colK_some h2]; exact h1
  · rename_i hz
    simp only [PassRes.cont.injEq] at h
    subst h
    refine Or.inr ⟨rfl, fun col hcol q hq => ?_⟩
    by_contra hne
    apply hz
    rw [List.any_eq_true]
    refine ⟨q, ?_, by simpa using hne⟩
    unfold finVals
    rw [List.mem_filterMap]
    exact ⟨.fin q, List.mem_flatten.2 ⟨col, hcol, hq⟩, rfl⟩

theorem stepStage_before (e : Env K F) (o : Orc K F) (v t : MSt K F) (hI : Inv e [] v)
    (h : stepStage e o v = .cont t) :
    ∃ u w, Before e o v u ∧ w.x = v.x ∧ w.sl = v.sl ∧
      decideStep e o (stepNorm e o w) u = .cont t := by
  unfold stepStage at h
  obtain ⟨g, hg, h⟩ := bind_cont h
  simp only at h
  split at h
  · cases h
  obtain ⟨u, hu, h⟩ := bind_cont h
  obtain ⟨p, hp, hu⟩ := bind_cont hu
  -- globalise
  have g1 : Inv e [] g ∧ g.m = v.m ∧ g.x = v.x ∧ g.fx = v.fx ∧ g.ixbest = v.ixbest ∧
      g.delta = v.delta ∧ g.rejected = v.rejected ∧ g.sl = v.sl ∧ g.set = v.set ∧
      g.cur = v.cur ∧ g.sigma = v.sigma ∧
      ((v.rejected = true → Memorised v) → Memorised g) ∧
      (v.rejected = false → ∃ c, v.ev.infoF = .fin g.f0 ∧ e.resNorm v.infoCe v.sl = some c ∧
        g.ce0n = c) ∧ g.ceplus = v.ceplus ∧
      g.poisedModel = v.poisedModel ∧ g.epsCur = v.epsCur ∧ g.infoCe = v.infoCe ∧
      (v.rejected = true → g.f0 = v.f0 ∧ g.ce0n = v.ce0n) := by
    unfold globalise at hg
    split at hg
    · rename_i hr
      simp only [PassRes.cont.injEq] at hg
      subst hg
      exact ⟨hI, rfl, rfl, rfl, rfl, rfl, rfl, rfl, rfl, rfl, rfl, fun hm => hm hr,
        fun h0 => (by rw [h0] at hr; cases hr), rfl, rfl, rfl, rfl, fun _ => ⟨rfl, rfl⟩⟩
    · rename_i hr
      obtain ⟨q, hq⟩ := hI.infoF
      rw [hq] at hg
      simp only [Fl.val?] at hg
      cases hc : e.resNorm v.infoCe v.sl with
      | none => rw [hc] at hg; cases hg
      | some c =>
        rw [hc] at hg
        simp only [PassRes.cont.injEq] at hg
        subst hg
        exact ⟨{ hI with link := fun j hj hp => hI.link j hj hp }, rfl, rfl, rfl, rfl, rfl, rfl, rfl,
          rfl, rfl, rfl, fun _ => rfl, fun _ => ⟨c, hq, rfl, rfl⟩, rfl, rfl, rfl, rfl,
          fun h1 => absurd h1 hr⟩
  obtain ⟨g0, g1, g2, g3, g4, g5, g6, g7, g8, g9, g10, g11, g12, g13, g14, g15, g16, g17⟩ := g1
  have hdom := penalty_dominates o _ _ hp
  -- penalty
  have p1 : Inv e [] p ∧ p.m = g.m ∧ p.x = g.x ∧ p.fx = g.fx ∧ p.ixbest = g.ixbest ∧
      p.delta = g.delta ∧ p.rejected = g.rejected ∧ p.sl = g.sl ∧ p.set = g.set ∧
      p.cur = g.cur ∧ g.sigma ≤ p.sigma ∧ (Memorised g → Memorised p) ∧ p.f0 = g.f0 ∧
      p.ce0n = g.ce0n ∧ p.ceplus = g.ceplus ∧
      p.poisedModel = g.poisedModel ∧ p.epsCur = g.epsCur ∧ p.infoCe = g.infoCe := by
    unfold penalty at hp
    split at hp
    · rename_i hlt
      have hmono : g.sigma ≤ max (sigmab o) (3 / 2 * g.sigma) := le_max_of_le_left hlt.le
      simp only at hp
      split at hp
      · cases hp
      · simp only [PassRes.cont.injEq] at hp
        subst hp
        exact ⟨{ g0 with
          link := fun j hj hp => g0.link j hj hp
          sigma := le_trans g0.sigma hmono }, rfl, rfl, rfl, rfl, rfl, rfl, rfl, rfl, rfl, hmono,
          fun _ => rfl, rfl, rfl, rfl, rfl, rfl, rfl⟩
    · simp only [PassRes.cont.injEq] at hp
      subst hp
      exact ⟨{ g0 with link := fun j hj hp => g0.link j hj hp }, rfl, rfl, rfl, rfl, rfl, rfl, rfl,
        rfl, rfl, le_refl _, id, rfl, rfl, rfl, rfl, rfl, rfl⟩
  obtain ⟨p0, p1, p2, p3, p4, p5, p6, p7, p8, p9, p10, p11, p12, p13, p14, p15, p16, p17⟩ := p1
  -- evaluation
  have hs := evalTrial_sat e o p p0
  rw [hu] at hs
  obtain ⟨s1, s2, -, s4, s5, -⟩ := hs
  have u1 : u.m = p.m + 1 ∧ u.x = p.x ∧ u.fx = p.fx ∧ u.ixbest = p.ixbest ∧
      u.delta = p.delta ∧ u.rejected = p.rejected ∧ u.sl = p.sl ∧ u.set = p.set ∧
      u.f0 = p.f0 ∧ u.ce0n = p.ce0n ∧ u.merit0 = p.merit0 ∧
      u.poisedModel = p.poisedModel ∧ u.epsCur = p.epsCur ∧ u.infoCe = p.infoCe := by
    unfold evalTrial at hu
    simp only at hu
    split at hu
    · cases hu
    · split at hu
      · cases hu
      · split at hu
        · split at hu
          · cases hu
          · split at hu
            · cases hu
            · simp only [PassRes.cont.injEq] at hu
              subst hu
              exact ⟨rfl, rfl, rfl, rfl, rfl, rfl, rfl, rfl, rfl, rfl, rfl, rfl, rfl, rfl⟩
        · simp only [PassRes.cont.injEq] at hu
          subst hu
          exact ⟨rfl, rfl, rfl, rfl, rfl, rfl, rfl, rfl, rfl, rfl, rfl, rfl, rfl, rfl⟩
  obtain ⟨u1, u2, u3, u4, u5, u6, u7, u8, u9, u10, u11, u12, u13, u14⟩ := u1
  refine ⟨u, _, {
    inv := s1
    X := s2
    m := by rw [u1, p1, g1]
    x := by rw [u2, p2, g2]
    fx := by rw [u3, p3, g3]
    ixbest := by rw [u4, p4, g4]
    delta := by rw [u5, p5, g5]
    rejected := by rw [u6, p6, g6]
    sl := by rw [u7, p7, g7]
    set := by rw [u8, p8, g8]
    cur := by rw [s4, p9, g9]
    poisedModel := by rw [u12, p15, g14]
    epsCur := by rw [u13, p16, g15]
    infoCe := by rw [u14, p17, g16]
    sigma := by rw [s5, ← g10]; exact p10
    dominate := fun hr => by rw [s5]; exact hdom hr
    merit := fun hm => by
      have := p11 (g11 hm)
      unfold Memorised at *
      rw [u11, u9, u10, s5]; exact this
    fresh := fun h0 => by
      obtain ⟨c, c1, c2, c3⟩ := g12 h0
      exact ⟨c, by rw [u9, p12]; exact c1, c2, by rw [u10, p13]; exact c3⟩
    kept := fun h1 => ⟨by rw [u9, p12]; exact (g17 h1).1, by rw [u10, p13]; exact (g17 h1).2⟩
    info := evalTrial_info e o p u p0 hu
    plus := by
      rcases evalTrial_plus e o p u hu with h | ⟨h1, h2⟩
      · exact Or.inl h
      · exact Or.inr ⟨by rw [h1, p14, g13], h2⟩ }, g2, g7, h⟩

theorem evalReplaced_keeps (e : Env K F) : ∀ (js : List ℕ) (s t : MSt K F),
    evalReplaced e js s = .cont t → t.sl = s.sl ∧ t.ceplus = s.ceplus := by
  intro js
  induction js with
  | nil => intro s t h; simp only [evalReplaced, PassRes.cont.injEq] at h; subst h; exact ⟨rfl, rfl⟩
  | cons j js ih =>
    intro s t h
    rw [evalReplaced] at h
    split at h
    swap
    · cases h
    simp only at h
    split at h
    · cases h
    · split at h
      · cases h
      · split at h
        · cases h
        · split at h
          · split at h
            · cases h
            · have := ih _ _ h; exact this
          · have := ih _ _ h; exact this

theorem callSmallf_keeps (e : Env K F) (s t : MSt K F) (h : callSmallf e s = .cont t) :
    t.sl = s.sl ∧ t.ceplus = s.ceplus := by
  unfold callSmallf at h
  split at h
  · cases h
  · simp only at h
    split at h
    · cases h
    · split at h
      · cases h
      · simp only [PassRes.cont.injEq] at h
        subst h
        exact ⟨rfl, rfl⟩

/-- The improvement of the set leaves the slacks alone. -/
theorem improve_keeps (e : Env K F) (o : Orc K F) (s t : MSt K F) (h : improve e o s = .cont t) :
    t.sl = s.sl ∧ t.ceplus = s.ceplus := by
  unfold improve at h
  split at h
  swap
  · cases h
  simp only at h
  split at h
  · cases h
  split at h
  · cases h
  unfold repairStage at h
  simp only at h
  obtain ⟨u, hu, h⟩ := bind_cont h
  obtain ⟨v, hv, hu⟩ := bind_cont hu
  have h1 := evalReplaced_keeps e _ _ _ hv
  have h2 := callSmallf_keeps e _ _ hu
  unfold improveEnd at h
  split at h
  · cases h
  simp only at h
  split at h
  · cases h
  simp only [PassRes.cont.injEq] at h
  subst h
  exact ⟨h2.1.trans h1.1, h2.2.trans h1.2⟩

/-- What an improvement of the set does. -/
structure Improvement (e : Env K F) (o : Orc K F) (s v : MSt K F) : Prop where
  eps : Spec.EpsAfter (s.pred = -1) (e.tolFeas < o.k1.feasn) s.delta s.epsCur v.epsCur
  delta : Spec.RadiusAfter (s.pred = -1) o.k1.glagn s.delta v.epsCur v.delta
  /-- the model is known to be poised exactly if no point had to be replaced -/
  flag : v.poisedModel = true ↔ v.m = s.m
  m : s.m ≤ v.m
  /-- the points of the set are old ones or those evaluated now -/
  ind : ∀ i ∈ v.set.ind, i ∈ s.set.ind ∨ s.m < i
  /-- without constraints the iterate is kept or replaced by a better one -/
  best : e.me = 0 → (v.fx < s.fx ∨ v.fx = s.fx ∧ v.ixbest = s.ixbest) ∧ v.infoCe = s.infoCe

theorem evalReplaced_infoCe (e : Env K F) : ∀ (js : List ℕ) (s : MSt K F),
    (evalReplaced e js s).Sat (fun t => t.infoCe = s.infoCe) (fun _ => True) (fun _ => True) := by
  intro js
  induction js with
  | nil => intro s; rfl
  | cons j js ih =>
    intro s
    rw [evalReplaced]
    split
    swap
    · trivial
    dsimp only
    split
    · trivial
    split
    · trivial
    split
    · trivial
    split
    · split
      · trivial
      · exact ih _
    · exact ih _

theorem callSmallf_best (e : Env K F) (hme : e.me = 0) (s : MSt K F) (h : Inv e [] s) :
    (callSmallf e s).Sat (fun t => (t.fx < s.fx ∨ t.fx = s.fx ∧ t.ixbest = s.ixbest) ∧ t.infoCe = s.infoCe)
      (fun _ => False) (fun _ => True) := by
  unfold callSmallf
  have hp : 0 < s.cur := by have := h.lo; omega
  have hany : anyNonzero s.set.ceY = false := by rw [h.ceY0 hme]; rfl
  rw [hany, if_neg (by simp)]
  dsimp only
  have hmer : meritY e.trunc s.sigma false s.set.fY (s.set.Y.map fun _ => 0) = s.set.fY := by
    unfold meritY
    rw [if_neg (by simp), List.map_map]
    apply List.ext_getElem?
    intro i
    rw [List.getElem?_zipWith, List.getElem?_map]
    have hl : s.set.fY.length = s.set.Y.length := by rw [h.flen, h.Ylen]
    cases hf : s.set.fY[i]? with
    | none => simp
    | some f =>
      have hi := (List.getElem?_eq_some_iff.1 hf).1
      rw [List.getElem?_eq_getElem (by omega)]
      simp
  rw [hmer]
  obtain ⟨b, t', -, -, e1, -, -, -, -, -, x5, -, g1, -, hz, hnz⟩ :=
    C25_never_worse_partial e.build e.lb e.ub s.set.fY
      (⟨s.set, s.fx, s.ixbest, s.fx⟩ : SmallfSt (List K) (List K) F K) s.cur hp h.toCore.sized h.flen
  simp only at e1 g1 hz hnz x5
  have hce : t'.s.ceY = [] := by
    have := x5; rw [h.ceY0 hme] at this; exact Exchanged.nil_of_nil this
  rw [e1]
  dsimp only
  cases t'.s.Y[0]? with
  | none => trivial
  | some x0 =>
    refine ⟨?_, by simp [hce]⟩
    by_cases hb : b = 0
    · exact Or.inr ⟨(hz hb).2.1, (hz hb).2.2⟩
    · obtain ⟨z1, -, m, m0, z3, z4, z5⟩ := hnz hb
      rw [h.f0] at z4
      rw [z3] at g1
      simp only [Option.some.injEq] at z4 g1
      refine Or.inl ?_
      show t'.fx < s.fx
      rw [z1, ← g1, z4]; exact z5

theorem repairStage_best (e : Env K F) (he : e.Ok) (hme : e.me = 0) (o : Orc K F) (radius : K)
    (hr : 0 < radius) (s : MSt K F) (h : Inv e [] s) :
    (repairStage e o radius s).Sat (fun t => (t.fx < s.fx ∨ t.fx = s.fx ∧ t.ixbest = s.ixbest) ∧ t.infoCe = s.infoCe)
      (fun t => (t.fx < s.fx ∨ t.fx = s.fx ∧ t.ixbest = s.ixbest) ∧ t.infoCe = s.infoCe) (fun _ => True) := by
  unfold repairStage
  have hYne : s.set.Y ≠ [] := by
    intro h0
    have := h.Ylen; rw [h0] at this
    have := h.lo; simp at *; omega
  have hfar : (0 : K) ≤ (if o.normgx ≤ cEps ∨ s.pred = -1 then 1 else 10) * (1 + cEpsL) * radius := by
    have h1 : (0 : K) < cEpsL := by unfold cEpsL; positivity
    have h2 : (0 : K) < if o.normgx ≤ cEps ∨ s.pred = -1 then 1 else 10 := by
      split <;> norm_num
    positivity
  obtain ⟨r1, r2, r3, r4, r5, r6, -⟩ := C27_repair e.dist e.build o.propose (6 / 5)
    ((if o.normgx ≤ cEps ∨ s.pred = -1 then 1 else 10) * (1 + cEpsL) * radius) (by norm_num) hfar
    (e.order (dists e.dist s.set.Y)) s.set.Y hYne s.set.fac (he.order _) _ rfl
  generalize hrr : repairY e.dist e.build o.propose (6 / 5)
    ((if o.normgx ≤ cEps ∨ s.pred = -1 then 1 else 10) * (1 + cEpsL) * radius)
    (e.order (dists e.dist s.set.Y)) s.set.Y s.set.fac = r at *
  simp only [hrr]
  generalize (if e.verbose4 = true then o.poisedness r.st.fac r.st.Y
    else (r.maximprove, r.radius)) = pr
  have hI : Inv e r.st.replaced { s with
      set := { s.set with Y := r.st.Y, fac := r.st.fac }
      poised := pr.1
      yradius := pr.2
      poisedModel := true } := by
    exact { h with
      Ylen := r1.trans h.Ylen
      Y0 := r2.trans h.Y0
      link := by
        intro j hj hp
        obtain ⟨i, y, f, b1, b2, b3, b4, b5⟩ := h.link j hj (by simp)
        exact ⟨i, y, f, b1, (r6 j hp).trans b2, b3, b4, b5⟩ }
  refine PassRes.Sat.bind (Q := fun t => (t.fx < s.fx ∨ t.fx = s.fx ∧ t.ixbest = s.ixbest) ∧ t.infoCe = s.infoCe) ?_ ?_
  · refine PassRes.Sat.bind (Q := fun t => Inv e [] t ∧ t.fx = s.fx ∧ t.ixbest = s.ixbest ∧ t.infoCe = s.infoCe) ?_ ?_
    · refine ((evalReplaced_sat e _ _ hI r3 ?_).and (evalReplaced_infoCe e _ _)).mono ?_ (fun _ h => h.1.elim) (fun _ _ => trivial)
      · intro j hj; have := r4 j hj; rw [h.Ylen] at this; exact this
      · rintro t ⟨⟨c1, -, -, -, c2, c3, -⟩, c4⟩
        exact ⟨c1, c2, c3, c4⟩
    · rintro t ⟨c1, c2, c3, c4⟩
      refine (callSmallf_best e hme t c1).mono ?_ (fun _ h => h.elim) (fun _ h => h)
      rintro u d
      rw [c2, c3, c4] at d
      exact d
  · intro t ht
    unfold improveEnd
    split
    · exact ht
    dsimp only
    split
    · exact ht
    · exact ht

/-- Without constraints, the improvement of the set never makes the iterate worse. -/
theorem improve_best (e : Env K F) (he : e.Ok) (hme : e.me = 0) (o : Orc K F) (s : MSt K F)
    (h : Inv e [] s) :
    (improve e o s).Sat (fun t => (t.fx < s.fx ∨ t.fx = s.fx ∧ t.ixbest = s.ixbest) ∧ t.infoCe = s.infoCe)
      (fun t => (t.fx < s.fx ∨ t.fx = s.fx ∧ t.ixbest = s.ixbest) ∧ t.infoCe = s.infoCe) (fun _ => True) := by
  unfold improve
  rw [if_pos h.lo]
  dsimp only
  split
  · exact ⟨Or.inr ⟨rfl, rfl⟩, rfl⟩
  split
  · exact ⟨Or.inr ⟨rfl, rfl⟩, rfl⟩
  refine (repairStage_best e he hme o _ ?_ _ ?_)
  · exact repRadius_pos _ h.delta (newEpsCur_pos e _ h.delta h.eps)
  · exact { h with link := fun j hj hp => h.link j hj hp, eps := newEpsCur_pos e _ h.delta h.eps }

theorem evalReplaced_more (e : Env K F) : ∀ (js : List ℕ) (s t : MSt K F),
    evalReplaced e js s = .cont t → t.m = s.m + js.length ∧ t.epsCur = s.epsCur ∧
      t.poisedModel = (if js = [] then s.poisedModel else false) ∧
      ∀ i ∈ t.set.ind, i ∈ s.set.ind ∨ s.m < i := by
  intro js
  induction js with
  | nil =>
    intro s t h
    simp only [evalReplaced, PassRes.cont.injEq] at h
    subst h
    exact ⟨rfl, rfl, rfl, fun i hi => Or.inl hi⟩
  | cons j js ih =>
    intro s t h
    rw [evalReplaced] at h
    split at h
    swap
    · cases h
    simp only at h
    have fin : ∀ s' : MSt K F, evalReplaced e js s' = .cont t → s'.m = s.m + 1 → s'.epsCur = s.epsCur →
        s'.poisedModel = false → s'.set.ind = s.set.ind.set j (s.m + 1) →
        t.m = s.m + (j :: js).length ∧ t.epsCur = s.epsCur ∧
        t.poisedModel = (if (j :: js) = [] then s.poisedModel else false) ∧
        ∀ i ∈ t.set.ind, i ∈ s.set.ind ∨ s.m < i := by
      intro s' h5 h1 h2 h3 h4
      obtain ⟨a, b, c, d⟩ := ih _ _ h5
      refine ⟨by rw [a, h1, List.length_cons]; omega, b.trans h2, ?_, fun i hi => ?_⟩
      · rw [c, h3]; simp
      · rcases d i hi with d | d
        · rw [h4] at d
          rcases List.mem_or_eq_of_mem_set d with d | d
          · exact Or.inl d
          · exact Or.inr (by omega)
        · exact Or.inr (by omega)
    split at h
    · cases h
    · split at h
      · cases h
      · split at h
        · cases h
        · split at h
          · split at h
            · cases h
            · exact fin _ h rfl rfl rfl rfl
          · exact fin _ h rfl rfl rfl rfl

theorem swapInY_ind {P C : Type} [DecidableEq C] {build : List P → F} {i j : ℕ}
    {s s' : IntSet P C F K} (h : swapInY build i j s = some s') : ∀ k ∈ s'.ind, k ∈ s.ind := by
  have hl : ∀ (i j : ℕ) (l l' : List ℕ), swapL l i j = some l' → ∀ k ∈ l', k ∈ l := by
    intro i j l l' h k hk
    unfold swapL at h
    split at h
    swap
    · cases h
    rename_i a b ha hb
    simp only [Option.some.injEq] at h
    subst h
    rcases List.mem_or_eq_of_mem_set hk with hk | hk
    · rcases List.mem_or_eq_of_mem_set hk with hk | hk
      · exact hk
      · rw [hk]; exact List.mem_of_getElem? hb
    · rw [hk]; exact List.mem_of_getElem? ha
  unfold swapInY at h
  split at h
  · simp only [Option.some.injEq] at h
    subst h
    exact fun _ h => h
  · simp only at h
    split at h
    · rename_i h1 h2 _ _ _
      simp only [Option.some.injEq] at h
      subst h
      exact hl _ _ _ _ h2
    · cases h

theorem callSmallf_more (e : Env K F) (s t : MSt K F) (h : callSmallf e s = .cont t) :
    t.m = s.m ∧ t.epsCur = s.epsCur ∧ t.poisedModel = s.poisedModel ∧ ∀ i ∈ t.set.ind, i ∈ s.set.ind := by
  unfold callSmallf at h
  split at h
  · cases h
  · simp only at h
    split at h
    · cases h
    · rename_i r hr
      split at h
      · cases h
      · simp only [PassRes.cont.injEq] at h
        subst h
        refine ⟨rfl, rfl, rfl, fun i hi => ?_⟩
        unfold findSmallf at hr
        split at hr
        · split at hr
          · cases hr
          · rename_i S hS
            split at hr
            · simp only [Option.some.injEq] at hr
              subst hr
              exact swapInY_ind hS i hi
            · cases hr
        · split at hr
          · simp only [Option.some.injEq] at hr
            subst hr
            exact hi
          · cases hr

theorem improve_more (e : Env K F) (o : Orc K F) (s t : MSt K F) (h : improve e o s = .cont t) :
    t.epsCur = newEpsCur e s ∧ t.delta = repRadius { s with epsCur := newEpsCur e s } ∧
      (t.poisedModel = true ↔ t.m = s.m) ∧ s.m ≤ t.m ∧ ∀ i ∈ t.set.ind, i ∈ s.set.ind ∨ s.m < i := by
  unfold improve at h
  split at h
  swap
  · cases h
  simp only at h
  split at h
  · cases h
  split at h
  · cases h
  unfold repairStage at h
  simp only at h
  obtain ⟨u, hu, h⟩ := bind_cont h
  obtain ⟨v, hv, hu⟩ := bind_cont hu
  obtain ⟨a1, a2, a3, a4⟩ := evalReplaced_more e _ _ _ hv
  obtain ⟨b1, b2, b3, b4⟩ := callSmallf_more e _ _ hu
  unfold improveEnd at h
  split at h
  · cases h
  simp only at h
  split at h
  · cases h
  simp only [PassRes.cont.injEq] at h
  subst h
  refine ⟨b2.trans a2, rfl, ?_, ?_, fun i hi => a4 i (b4 i hi)⟩
  · change u.poisedModel = true ↔ u.m = s.m
    rw [b1, b3, a1, a3]
    generalize RepSt.replaced _ = l
    cases l with
    | nil => simp
    | cons j l => simp
  · change s.m ≤ u.m
    rw [b1, a1]
    exact Nat.le_add_right _ _

theorem improve_sizes (e : Env K F) (o : Orc K F) (s v : MSt K F) (h : improve e o s = .cont v) :
    EpsAfter (s.pred = -1) (e.tolFeas < s.feasn) s.delta s.epsCur v.epsCur ∧
      RadiusAfter (s.pred = -1) s.glagn s.delta v.epsCur v.delta := by
  obtain ⟨a, b, -⟩ := improve_more e o _ v h
  have hc : (cFactorCV * cEps : K) = 1 / 10 ^ 3 := by unfold cFactorCV cEps; norm_num
  refine ⟨⟨fun h1 => ?_, fun h1 h2 => ?_, fun h1 h2 => ?_⟩, ⟨fun h1 => ?_, fun h1 h2 => ?_⟩⟩
  · rw [a]; unfold newEpsCur; rw [if_neg h1]; rfl
  · rw [a]; unfold newEpsCur; rw [if_pos h1, if_pos h2]
    unfold cMu; ring
  · rw [a]; unfold newEpsCur; rw [if_pos h1, if_neg h2]
    rw [show cMu * s.epsCur = s.epsCur / 10 by unfold cMu; ring]; rfl
  · rw [b, a]
    unfold repRadius
    dsimp only
    by_cases h2 : s.pred = -1
    · rw [if_pos h2]
    · rw [if_neg h2, if_pos (by rw [hc]; exact h1.resolve_left h2)]
      have : newEpsCur e s = cEps := by unfold newEpsCur; rw [if_neg h2]
      rw [this]
  · rw [b, a]
    unfold repRadius
    dsimp only
    rw [if_neg h1, if_neg (by rw [hc]; exact not_le.2 h2)]

theorem improvement_of (e : Env K F) (he : e.Ok) (o : Orc K F) (s v : MSt K F)
    (hI : Inv e [] { s.measure o.k1 with ev := { s.ev with flag := Status.success } })
    (h : improve e o { s.measure o.k1 with ev := { s.ev with flag := Status.success } } = .cont v) : Improvement e o s v := by
  obtain ⟨-, -, c, d, f⟩ := improve_more e o _ v h
  obtain ⟨a, b⟩ := improve_sizes e o _ v h
  refine ⟨a, b, c, d, f, fun hme => ?_⟩
  have := improve_best e he hme o _ hI
  rw [h] at this
  exact this

/-- A pass that continues: `v` is the state after a possible improvement of the set, `u` the one
after the evaluation of the trial point. -/
theorem pass_before (e : Env K F) (he : e.Ok) (o : Orc K F) (s t : MSt K F) (hI : Inv e [] s)
    (h : pass e o s = .cont t) :
    ∃ v u w : MSt K F, Inv e [] v ∧ v.sigma = s.sigma ∧ v.rejected = s.rejected ∧ v.f0 = s.f0 ∧
      v.ce0n = s.ce0n ∧ v.merit0 = s.merit0 ∧ v.sl = s.sl ∧ v.ceplus = s.ceplus ∧ v.cur = s.cur ∧
      (¬ (o.k1.glagn ≤ e.tolGrad ∧ o.k1.feasn ≤ e.tolFeas ∧ o.k1.compl ≤ e.tolBnds) ∧
          s.pred ≠ -1 ∧ 1 / 10 ^ 10 ≤ s.delta ∧ v.x = s.x ∧ v.fx = s.fx ∧ v.ixbest = s.ixbest ∧
        v.delta = s.delta ∧ v.set = s.set ∧ v.m = s.m ∧ v.ev.infoF = s.ev.infoF ∧
          v.infoCe = s.infoCe ∧ v.sl = s.sl ∧ v.poisedModel = s.poisedModel ∧
          v.epsCur = s.epsCur ∨
        ((o.k1.glagn ≤ e.tolGrad ∧ o.k1.feasn ≤ e.tolFeas ∧ o.k1.compl ≤ e.tolBnds) ∨
            s.delta < 1 / 10 ^ 10 ∨ s.pred = -1) ∧
          v.ev.infoF = .fin v.fx ∧ 1 / 10 ^ 10 ≤ v.delta ∧ Improvement e o s v) ∧
      Before e o v u ∧ w.x = v.x ∧ w.sl = v.sl ∧ decideStep e o (stepNorm e o w) u = .cont t := by
  unfold pass at h
  split at h
  · cases h
  split at h
  · cases h
  split at h
  · cases h
  simp only at h
  obtain ⟨v, hv, h2⟩ := bind_cont h
  clear h
  generalize hs1 : ({ s.measure o.k1 with
    ev := { s.ev with flag := Status.success } } : MSt K F) = s1 at *
  have h1 : Inv e [] s1 := by
    subst hs1
    exact { hI with link := fun j hj hp => hI.link j hj hp, flag := rfl }
  have key : Inv e [] v ∧ v.sigma = s.sigma ∧ v.rejected = s.rejected ∧ v.f0 = s.f0 ∧
      v.ce0n = s.ce0n ∧ v.merit0 = s.merit0 ∧ v.sl = s.sl ∧ v.ceplus = s.ceplus ∧ v.cur = s.cur ∧
      (¬ (o.k1.glagn ≤ e.tolGrad ∧ o.k1.feasn ≤ e.tolFeas ∧ o.k1.compl ≤ e.tolBnds) ∧
          s.pred ≠ -1 ∧ 1 / 10 ^ 10 ≤ s.delta ∧ v.x = s.x ∧ v.fx = s.fx ∧ v.ixbest = s.ixbest ∧
        v.delta = s.delta ∧ v.set = s.set ∧ v.m = s.m ∧ v.ev.infoF = s.ev.infoF ∧
          v.infoCe = s.infoCe ∧ v.sl = s.sl ∧ v.poisedModel = s.poisedModel ∧
          v.epsCur = s.epsCur ∨
        ((o.k1.glagn ≤ e.tolGrad ∧ o.k1.feasn ≤ e.tolFeas ∧ o.k1.compl ≤ e.tolBnds) ∨
            s.delta < 1 / 10 ^ 10 ∨ s.pred = -1) ∧
          v.ev.infoF = .fin v.fx ∧ 1 / 10 ^ 10 ≤ v.delta ∧ Improvement e o s v) := by
    split at hv
    · rename_i hcond
      have hs := improve_sat e he o s1 h1
      rw [hv] at hs
      obtain ⟨c1, c2, c3⟩ := hs
      refine ⟨c1, c2.sigma.trans (by subst hs1; rfl), c2.rejected.trans (by subst hs1; rfl),
        c2.f0.trans (by subst hs1; rfl), c2.ce0n.trans (by subst hs1; rfl),
        c2.merit0.trans (by subst hs1; rfl),
        (improve_keeps e o _ _ hv).1.trans (by subst hs1; rfl),
        (improve_keeps e o _ _ hv).2.trans (by subst hs1; rfl),
        c2.cur.trans (by subst hs1; rfl), Or.inr ⟨by subst hs1; exact hcond, c2.infoF,
        c3, improvement_of e he o s v (by subst hs1; exact h1) (by subst hs1; exact hv)⟩⟩
    · rename_i hcond
      simp only [PassRes.cont.injEq] at hv
      subst hv
      subst hs1
      simp only [not_or, not_lt] at hcond
      exact ⟨h1, rfl, rfl, rfl, rfl, rfl, rfl, rfl, rfl, Or.inl ⟨hcond.1, hcond.2.2, hcond.2.1, rfl, rfl, rfl, rfl,
        rfl, rfl, rfl, rfl, rfl, rfl, rfl⟩⟩
  obtain ⟨k0, k1, k2, k3, k4, k5, k8, k9, k10, k7⟩ := key
  obtain ⟨u, w, b1, b2, b3, b4⟩ := stepStage_before e o v t k0 h2
  exact ⟨v, u, w, k0, k1, k2, k3, k4, k5, k8, k9, k10, k7, b1, b2, b3, b4⟩

end Sqpdfo
