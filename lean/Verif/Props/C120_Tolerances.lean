import Verif.Props.C109_Limits
import Verif.Props.C63_CGFinite

/-! # C120: looser tolerances -/

set_option linter.unusedSectionVars false

namespace Sqpdfo
open Spec
variable {K F : Type} [Field K] [LinearOrder K] [IsStrictOrderedRing K]

/-- The three tolerances: gradient of the Lagrangian, constraints, complementarity. -/
structure Spec.Tols (K : Type) where
  grad : K
  feas : K
  bnds : K

/-- Each tolerance of `b` is at least the one of `a`. -/
def Spec.Tols.Looser (a b : Tols K) : Prop := a.grad ≤ b.grad ∧ a.feas ≤ b.feas ∧ a.bnds ≤ b.bnds

/-- The measures are within the tolerances, up to the factor `c`. -/
def Spec.Tols.Met (a : Tols K) (c : K) (k : Meas K) : Prop :=
  k.glagn ≤ c * a.grad ∧ k.feasn ≤ c * a.feas ∧ k.compl ≤ c * a.bnds

/-- The same run with other tolerances. -/
def Spec.withTols (e : Env K F) (a : Tols K) : Env K F :=
  { e with tolGrad := a.grad, tolFeas := a.feas, tolBnds := a.bnds }

/-- The tolerances of a run. -/
def Spec.tolsOf (e : Env K F) : Tols K := ⟨e.tolGrad, e.tolFeas, e.tolBnds⟩

/-- A pass from `s` with the kernel results `o` in which the tolerances `a` and `b` (`a` the stricter ones) are told apart: no limit is reached, the
measures can be computed, and

* the measures are within `b` and not within `a`, or
* the pass improves the set of points anyway (measures within `a`, tiny radius, or no predicted reduction in the last step), and the measures after the
  improvement are within 100 times `b` and not within 100 times `a`, or
* the last step had no predicted reduction, and the norm of the constraints is within `b` and not within `a`. -/
def Spec.ToldApart (e : Env K F) (a b : Tols K) (o : Orc K F) (s : MSt K F) : Prop :=
  e.miter.le (.fin s.niter) = false ∧ e.msimul.le (.fin s.ev.nsimul) = false ∧ o.k1.fail = false ∧
  ((b.Met 1 o.k1 ∧ ¬ a.Met 1 o.k1) ∨
   ((a.Met 1 o.k1 ∨ s.delta < 1 / 10 ^ 10 ∨ s.pred = -1) ∧ b.Met 100 o.k2 ∧ ¬ a.Met 100 o.k2) ∨
   (s.pred = -1 ∧ a.feas < o.k1.feasn ∧ o.k1.feasn ≤ b.feas))

/-- The error bound of the models at the start of a pass is small enough for a stop: product of the poisedness and the radius of the set at most 100 times
`1e-5`. -/
def Spec.ModelsGood (o : Orc K F) (s : MSt K F) : Prop :=
  (o.poisedness s.set.fac s.set.Y).1 * (o.poisedness s.set.fac s.set.Y).2 ≤ 100 * (1 / 10 ^ 5)

theorem evalReplaced_tols (e : Env K F) (b : Tols K) : ∀ (js : List ℕ) (s : MSt K F),
    evalReplaced (withTols e b) js s = evalReplaced e js s := by
  intro js
  induction js with
  | nil => intro s; rfl
  | cons j js ih => intro s; simp only [evalReplaced, ih]; rfl

theorem stepStage_tols (e : Env K F) (b : Tols K) (o : Orc K F) (s : MSt K F) :
    stepStage (withTols e b) o s = stepStage e o s := rfl

theorem met_one (a : Tols K) (k : Meas K) : a.Met 1 k ↔ k.glagn ≤ a.grad ∧ k.feasn ≤ a.feas ∧ k.compl ≤ a.bnds := by
  simp only [Tols.Met, one_mul]

theorem met_hundred (a : Tols K) (k : Meas K) :
    a.Met 100 k ↔ k.glagn / cFactorCV ≤ a.grad ∧ k.feasn / cFactorCV ≤ a.feas ∧ k.compl / cFactorCV ≤ a.bnds := by
  have h : ∀ p q : K, p / cFactorCV ≤ q ↔ p ≤ 100 * q := by
    intro p q
    rw [div_le_iff₀ (by unfold cFactorCV; norm_num)]
    unfold cFactorCV
    rw [mul_comm]
  simp only [Tols.Met, h]

theorem improveEnd_tols (e : Env K F) (b : Tols K) (k : Meas K) (h : (tolsOf e).Met 100 k ↔ b.Met 100 k) (r : K) (s : MSt K F) :
    improveEnd (withTols e b) k r s = improveEnd e k r s := by
  rw [met_hundred, met_hundred] at h
  unfold improveEnd
  by_cases hf : k.fail = true
  · rw [if_pos hf, if_pos hf]
  rw [if_neg hf, if_neg hf]
  dsimp only [tolsOf] at h
  dsimp only [MSt.measure, withTols]
  have hc : ∀ P : Prop, (k.glagn / cFactorCV ≤ b.grad ∧ k.feasn / cFactorCV ≤ b.feas ∧ k.compl / cFactorCV ≤ b.bnds ∧ P) ↔
      (k.glagn / cFactorCV ≤ e.tolGrad ∧ k.feasn / cFactorCV ≤ e.tolFeas ∧ k.compl / cFactorCV ≤ e.tolBnds ∧ P) := by
    intro P
    constructor
    · rintro ⟨h1, h2, h3, h4⟩
      obtain ⟨g1, g2, g3⟩ := h.2 ⟨h1, h2, h3⟩
      exact ⟨g1, g2, g3, h4⟩
    · rintro ⟨h1, h2, h3, h4⟩
      obtain ⟨g1, g2, g3⟩ := h.1 ⟨h1, h2, h3⟩
      exact ⟨g1, g2, g3, h4⟩
  by_cases hm : k.glagn / cFactorCV ≤ e.tolGrad ∧ k.feasn / cFactorCV ≤ e.tolFeas ∧ k.compl / cFactorCV ≤ e.tolBnds ∧
      s.poised * s.yradius / cFactorCV ≤ cEps ∧ e.n + 1 ≤ s.cur
  · exact (if_pos ((hc _).2 hm)).trans (if_pos hm).symm
  · exact (if_neg (fun h' => hm ((hc _).1 h'))).trans (if_neg hm).symm

theorem repairStage_tols (e : Env K F) (b : Tols K) (o : Orc K F) (h : (tolsOf e).Met 100 o.k2 ↔ b.Met 100 o.k2) (r : K) (s : MSt K F) :
    repairStage (withTols e b) o r s = repairStage e o r s := by
  unfold repairStage
  dsimp only
  rw [evalReplaced_tols]
  simp only [improveEnd_tols e b o.k2 h]
  rfl

theorem improve_tols (e : Env K F) (b : Tols K) (o : Orc K F) (s : MSt K F)
    (h1 : (s.glagn ≤ e.tolGrad ∧ s.feasn ≤ e.tolFeas ∧ s.compl ≤ e.tolBnds) ↔ (s.glagn ≤ b.grad ∧ s.feasn ≤ b.feas ∧ s.compl ≤ b.bnds))
    (h2 : (tolsOf e).Met 100 o.k2 ↔ b.Met 100 o.k2) (h3 : s.pred = -1 → (s.feasn ≤ e.tolFeas ↔ s.feasn ≤ b.feas)) :
    improve (withTols e b) o s = improve e o s := by
  have hn : ∀ t : MSt K F, t.pred = s.pred → t.feasn = s.feasn → newEpsCur (withTols e b) t = newEpsCur e t := by
    intro t ht hf
    unfold newEpsCur
    by_cases hp : t.pred = -1
    · rw [if_pos hp, if_pos hp, hf]
      have := h3 (ht ▸ hp)
      dsimp only [withTols]
      by_cases hg : s.feasn > e.tolFeas
      · exact (if_pos (lt_of_not_ge (fun h => absurd (this.2 h) (not_le.2 hg)))).trans (if_pos hg).symm
      · exact (if_neg (not_lt.2 (this.1 (not_lt.1 hg)))).trans (if_neg hg).symm
    · rw [if_neg hp, if_neg hp]
  have hc : ∀ P : Prop, (s.glagn ≤ b.grad ∧ s.feasn ≤ b.feas ∧ s.compl ≤ b.bnds ∧ P) ↔
      (s.glagn ≤ e.tolGrad ∧ s.feasn ≤ e.tolFeas ∧ s.compl ≤ e.tolBnds ∧ P) := by
    intro P
    constructor
    · rintro ⟨g1, g2, g3, g4⟩
      obtain ⟨g1, g2, g3⟩ := h1.2 ⟨g1, g2, g3⟩
      exact ⟨g1, g2, g3, g4⟩
    · rintro ⟨g1, g2, g3, g4⟩
      obtain ⟨g1, g2, g3⟩ := h1.1 ⟨g1, g2, g3⟩
      exact ⟨g1, g2, g3, g4⟩
  unfold improve
  dsimp only
  rw [hn _ (by rfl) (by rfl)]
  simp only [repairStage_tols e b o h2]
  by_cases hcur : e.n + 1 ≤ s.cur
  · rw [if_pos hcur, if_pos (show (withTols e b).n + 1 ≤ s.cur from hcur)]
    by_cases hm : s.glagn ≤ e.tolGrad ∧ s.feasn ≤ e.tolFeas ∧ s.compl ≤ e.tolBnds ∧
        (o.poisedness s.set.fac s.set.Y).1 * (o.poisedness s.set.fac s.set.Y).2 / cFactorCV ≤ cEps
    · rw [if_pos hm]; exact if_pos ((hc _).2 hm)
    · rw [if_neg hm]
      refine (if_neg (fun h' => hm ((hc _).1 h'))).trans ?_
      rfl
  · rw [if_neg hcur, if_neg (show ¬ (withTols e b).n + 1 ≤ s.cur from hcur)]

theorem Tols.met_mono {a b : Tols K} (h : a.Looser b) {c : K} (hc : 0 ≤ c) {k : Meas K} (hk : a.Met c k) : b.Met c k :=
  ⟨hk.1.trans (mul_le_mul_of_nonneg_left h.1 hc), hk.2.1.trans (mul_le_mul_of_nonneg_left h.2.1 hc),
    hk.2.2.trans (mul_le_mul_of_nonneg_left h.2.2 hc)⟩

/-- A pass is the same with looser tolerances, unless it tells the tolerances apart. -/
theorem pass_tols (e : Env K F) (b : Tols K) (hb : (tolsOf e).Looser b) (o : Orc K F) (s : MSt K F) :
    pass (withTols e b) o s = pass e o s ∨ ToldApart e (tolsOf e) b o s := by
  by_cases h1 : e.miter.le (.fin s.niter) = true
  · left; unfold pass; rw [if_pos h1]; exact if_pos h1
  by_cases h2 : e.msimul.le (.fin s.ev.nsimul) = true
  · left; unfold pass; rw [if_neg h1, if_pos h2]; exact (if_neg h1).trans (if_pos h2)
  by_cases h3 : o.k1.fail = true
  · left; unfold pass; rw [if_neg h1, if_neg h2, if_pos h3]; exact (if_neg h1).trans ((if_neg h2).trans (by rw [if_pos h3]))
  by_cases hT : ToldApart e (tolsOf e) b o s
  · exact Or.inr hT
  left
  have hno : ¬ ((b.Met 1 o.k1 ∧ ¬ (tolsOf e).Met 1 o.k1) ∨
      (((tolsOf e).Met 1 o.k1 ∨ s.delta < 1 / 10 ^ 10 ∨ s.pred = -1) ∧ b.Met 100 o.k2 ∧ ¬ (tolsOf e).Met 100 o.k2) ∨
      (s.pred = -1 ∧ (tolsOf e).feas < o.k1.feasn ∧ o.k1.feasn ≤ b.feas)) :=
    fun h => hT ⟨by simpa using h1, by simpa using h2, by simpa using h3, h⟩
  rw [not_or, not_or] at hno
  obtain ⟨n1, n2, n3⟩ := hno
  have c1 : (tolsOf e).Met 1 o.k1 ↔ b.Met 1 o.k1 :=
    ⟨Tols.met_mono hb zero_le_one, fun h => by_contra fun hn => n1 ⟨h, hn⟩⟩
  have c1' := c1
  rw [met_one, met_one] at c1'
  dsimp only [tolsOf] at c1'
  unfold pass
  dsimp only
  rw [if_neg h1, if_neg h2, if_neg h3, if_neg (show ¬ (withTols e b).miter.le (.fin s.niter) = true from h1),
    if_neg (show ¬ (withTols e b).msimul.le (.fin s.ev.nsimul) = true from h2), if_neg h3,
    show stepStage (withTols e b) o = stepStage e o from funext (stepStage_tols e b o)]
  dsimp only [MSt.measure]
  by_cases hent : (o.k1.glagn ≤ e.tolGrad ∧ o.k1.feasn ≤ e.tolFeas ∧ o.k1.compl ≤ e.tolBnds) ∨ s.delta < 1 / 10 ^ 10 ∨ s.pred = -1
  · have hi := improve_tols e b o { s.measure o.k1 with ev := { s.ev with flag := Status.success } } c1'
      ⟨Tols.met_mono hb (by norm_num), fun h => by_contra fun hn => n2 ⟨hent.imp (met_one _ _).2 id, h, hn⟩⟩
      (fun hp => ⟨fun h => h.trans hb.2.1, fun h => by_contra fun hn => n3 ⟨hp, lt_of_not_ge hn, h⟩⟩)
    congr 1
    exact (if_pos (hent.imp c1'.1 id)).trans (hi.trans (if_pos hent).symm)
  · congr 1
    exact (if_neg (fun h => hent (h.imp c1'.2 id))).trans (if_neg hent).symm

/-- A pass with measures within the tolerances and good models is the last one: status 0, no evaluation, the iterate is kept. -/
theorem pass_succeeds (e : Env K F) (o : Orc K F) (s : MSt K F) (h1 : e.miter.le (.fin s.niter) = false) (h2 : e.msimul.le (.fin s.ev.nsimul) = false)
    (h3 : o.k1.fail = false) (hc : e.n + 1 ≤ s.cur) (hm : (tolsOf e).Met 1 o.k1) (hg : ModelsGood o s) :
    ∃ t, pass e o s = .ret t ∧ t.ev = { s.ev with flag := 0 } ∧ t.x = s.x ∧ t.fx = s.fx ∧ t.ixbest = s.ixbest := by
  rw [met_one] at hm
  obtain ⟨m1, m2, m3⟩ := hm
  dsimp only [tolsOf] at m1 m2 m3
  have hg' : (o.poisedness s.set.fac s.set.Y).1 * (o.poisedness s.set.fac s.set.Y).2 / cFactorCV ≤ cEps := by
    rw [div_le_iff₀ (by unfold cFactorCV; norm_num)]
    unfold cFactorCV cEps
    exact le_trans hg (mul_comm _ _).le
  have hp : pass e o s = (improve e o { s.measure o.k1 with ev := { s.ev with flag := Status.success } }).bind (stepStage e o) := by
    unfold pass
    rw [if_neg (by rw [h1]; simp), if_neg (by rw [h2]; simp), if_neg (by rw [h3]; simp)]
    exact congrArg (fun r => PassRes.bind r (stepStage e o)) (if_pos (Or.inl ⟨m1, m2, m3⟩))
  rw [hp]
  unfold improve
  have h' : ∀ r : PassRes K F, (∃ t, r = .ret t ∧ t.ev = { s.ev with flag := 0 } ∧ t.x = s.x ∧ t.fx = s.fx ∧ t.ixbest = s.ixbest) →
      ∃ t, r.bind (stepStage e o) = .ret t ∧ t.ev = { s.ev with flag := 0 } ∧ t.x = s.x ∧ t.fx = s.fx ∧ t.ixbest = s.ixbest := by
    rintro r ⟨t, rfl, h⟩
    exact ⟨t, rfl, h⟩
  refine h' _ ⟨_, (if_pos hc).trans (if_pos ⟨m1, m2, m3, hg'⟩), rfl, rfl, rfl, rfl⟩

/-- C120 for the main loop, from any state: two runs that differ in the tolerances make the same passes until one tells the tolerances apart. -/
theorem C120_loop (e : Env K F) (b : Tols K) (hb : (tolsOf e).Looser b) : ∀ (os : List (Orc K F)) (s0 : MSt K F),
    mainLoop (withTols e b) os s0 = mainLoop e os s0 ∨
    ∃ (j : ℕ) (o : Orc K F) (s : MSt K F), os[j]? = some o ∧ mainLoop e (os.take j) s0 = .running s ∧
      mainLoop (withTols e b) (os.take j) s0 = .running s ∧ ToldApart e (tolsOf e) b o s := by
  intro os
  induction os with
  | nil => intro s0; exact Or.inl rfl
  | cons o os ih =>
    intro s0
    rcases pass_tols e b hb o s0 with h | h
    · simp only [mainLoop, h]
      cases hp : pass e o s0 with
      | ret t => exact Or.inl rfl
      | crash c => exact Or.inl rfl
      | cont t =>
        rcases ih t with g | ⟨j, o', s, hj, g1, g2, g3⟩
        · exact Or.inl g
        · refine Or.inr ⟨j + 1, o', s, hj, ?_, ?_, g3⟩
          · simp only [List.take_succ_cons, mainLoop, hp]; exact g1
          · simp only [List.take_succ_cons, mainLoop, h, hp]; exact g2
    · exact Or.inr ⟨0, o, s0, rfl, rfl, rfl, h⟩

/-! ### Whole calls -/

/-- The options with other tolerances. -/
def Spec.loosened (u : Opts) (G H B : ℚ) : Opts :=
  { u with tolGrad := some (.fin G), tolFeas := some (.fin H), tolBnds := some (.fin B) }

/-- The tolerances have no influence on the set-up, apart from being handed over. -/
theorem setup_tols (U : User (List K) K) (sqrt : K → K) (nrm : List K → K) (fuel : ℕ) (a : Args K) (g : Globals K)
    (u : Opts) (ha : a.opts = .inst u) (G H B : ℚ) (hG : 0 < G) (hH : 0 < H) (hB : 0 < B) (i : MainIn K)
    (h : (setup U sqrt nrm fuel a g).res = .go i) :
    (setup U sqrt nrm fuel { a with opts := .inst (loosened u G H B) } g).res = .go { i with opts := loosened i.opts G H B } := by
  have hca : checkArgs { a with opts := .inst (loosened u G H B) } g = checkArgs a g := rfl
  unfold setup at h ⊢
  rw [hca]
  cases hA : checkArgs a g with
  | mk r g' =>
    rw [hA] at h
    cases r with
    | ret1 => cases h
    | raised => cases h
    | ok r c x0 lb ub =>
      simp only [ha, OptArg.dict] at h ⊢
      cases hval : validate u with
      | error e => rw [hval] at h; cases e <;> cases h
      | ok o =>
        obtain ⟨a1, a2, a3, a4, a5, a6, a7, a8, a9, a10, a11, h1, h2, h3, h4, h5, h6, h7, h8, h9, h10, h11, ho⟩ := validate_ok.1 hval
        have p : ∀ q : ℚ, 0 < q → checkTol (some (.fin q)) = .ok (.fin q) := by
          intro q hq
          simp [checkTol, Fl.lt, Fl.eq, not_lt.2 hq.le, hq.ne']
        have hval' : validate (loosened u G H B) = .ok (loosened o G H B) := by
          refine validate_ok.2 ⟨a1, a2, a3, a4, a5, .fin G, .fin H, .fin B, a9, a10, a11, h1, h2, h3, h4, h5, p G hG, p H hH, p B hB, h9, h10, h11, ?_⟩
          rw [ho]
          rfl
        rw [hval] at h
        rw [hval']
        dsimp only at h ⊢
        by_cases hc1 : c ≠ 1
        · rw [if_pos hc1] at h; cases h
        rw [if_neg hc1] at h ⊢
        by_cases hr1 : r < 1
        · rw [if_pos hr1] at h; cases h
        rw [if_neg hr1] at h ⊢
        cases lb with
        | missing => cases h
        | bad => cases h
        | col lb =>
          cases ub with
          | missing => cases h
          | bad => cases h
          | col ub =>
            dsimp only at h ⊢
            cases hbp : boundsPart r x0 lb ub with
            | none => rw [hbp] at h; cases h
            | some b =>
              rw [hbp] at h
              cases b with
              | flag2 => cases h
              | ok Δ ys =>
                dsimp only at h ⊢
                by_cases hany : (ys.any (·.2)) = true
                · rw [if_pos hany] at h; cases h
                rw [if_neg hany] at h ⊢
                cases hR : initLoop U (ys.map (·.1)) (nrm (ys.map (·.1))) fuel Δ ⟨[], [], [], 0, .nan, 0, .empty⟩ with
                | crash => rw [hR] at h; cases h
                | running => rw [hR] at h; cases h
                | failed s => rw [hR] at h; cases h
                | stalled s => rw [hR] at h; cases h
                | done D s =>
                  rw [hR] at h
                  dsimp only at h ⊢
                  by_cases hpos : g'.nbrSlacks > 0
                  · rw [if_pos hpos] at h ⊢
                    cases hsl : initSlacks sqrt g'.nbrSlacks (firstCe s) ub with
                    | none => rw [hsl] at h; cases h
                    | some sl =>
                      rw [hsl] at h
                      simp only [SetupRes.go.injEq] at h ⊢
                      rw [← h]
                  · rw [if_neg hpos] at h ⊢
                    simp only [SetupRes.go.injEq] at h ⊢
                    rw [← h]

theorem envOf_tols (k : Kernels K F) (U : User (List K) K) (ex : Extra) (i : MainIn K) (G H B : ℚ) (e : Env K F)
    (h : envOf k U ex i = some e) :
    envOf k U ex { i with opts := loosened i.opts G H B } = some (withTols e ⟨(G : K), (H : K), (B : K)⟩) := by
  unfold envOf at h ⊢
  have h2 : hessRaise (loosened i.opts G H B) ex = hessRaise i.opts ex := rfl
  dsimp only [loosened] at h2 ⊢
  rw [h2]
  cases h3 : (tolOf i.opts.tolGrad : Option K) with
  | none => rw [h3] at h; cases h
  | some tg =>
  cases h4 : (tolOf i.opts.tolFeas : Option K) with
  | none => rw [h3, h4] at h; cases h
  | some tf =>
  cases h5 : (tolOf i.opts.tolBnds : Option K) with
  | none => rw [h3, h4, h5] at h; cases h
  | some tb =>
  cases h6 : i.opts.miter with
  | none => rw [h3, h4, h5, h6] at h; cases h
  | some mi =>
  cases h7 : i.opts.msimul with
  | none => rw [h3, h4, h5, h6, h7] at h; cases h
  | some ms =>
  cases h8 : finalDegOf i.opts.finalDegree with
  | none => rw [h3, h4, h5, h6, h7, h8] at h; cases h
  | some fd =>
  cases h9 : hessRaise i.opts ex with
  | some r => rw [h3, h4, h5, h6, h7, h8, h9] at h; cases h
  | none =>
  rw [h3, h4, h5, h6, h7, h8, h9] at h
  simp only [tolOf, Option.some.injEq] at h ⊢
  rw [← h]
  rfl

/-- **C120.**  The full statement says that *a call with looser tolerances needs at most as many evaluations and ends with status 0 if the other
call does*, which is false (`C120_more_false`).  Proved: `optimize` is called twice with the same arguments and options, except that the tolerances are at least as
large (and finite) in the second call; the numerical kernels return the same results in the passes that both calls make (without constraints they do not use the tolerances, `sqpdfo_solve_TR_bc.py` L67-L87; with
constraints see `C120_tangent`, `C120_tangent_false`).  If the first call ends regularly, then either the second call returns
the same result, or both calls make the same passes up to one that tells the tolerances apart (`ToldApart`: in particular some measure lies
between the tolerances of the two calls, or between 100 times them).  If in this pass the measures are within the looser
tolerances and the models are good, then the second call ends there with status 0, returns the current iterate, and the first call goes on: its history begins with the complete history of the
second call. -/
theorem C120_call_partial (k : Kernels K F) (hn : ∀ v, 0 ≤ k.nrm v) (ho : ∀ d, SortedDesc d (k.order d)) (U : User (List K) K) (m : ℕ)
    (hC : Counts U m) (fuel : ℕ) (os : List (Orc K F)) (a : Args K) (ex : Extra) (g : Globals K) (hw : WellFormed a)
    (u : Opts) (ha : a.opts = .inst u) (tg tf tb G H B : ℚ) (hg : TolIs u.tolGrad tg) (hf : TolIs u.tolFeas tf) (hb : TolIs u.tolBnds tb)
    (hgG : tg ≤ G) (hfH : tf ≤ H) (hbB : tb ≤ B) (x : List K) (t : MSt K F) (h : call k U fuel os a ex g = .done x t) :
    call k U fuel os { a with opts := .inst (loosened u G H B) } ex g = .done x t ∨
    ∃ (i : MainIn K) (e : Env K F) (s0 s : MSt K F) (j : ℕ) (o : Orc K F),
      (setup U k.sqrt k.nrm fuel a g).res = .go i ∧ envOf k U ex i = some e ∧ mainInit e i.Δ i.slacks i.ev = some s0 ∧
      os[j]? = some o ∧ mainLoop e (os.take j) s0 = .running s ∧ (∃ d, Longer U s.ev t.ev d) ∧
      call k U fuel (os.take j) { a with opts := .inst (loosened u G H B) } ex g = .running ∧
      ToldApart e ⟨(tg : K), (tf : K), (tb : K)⟩ ⟨(G : K), (H : K), (B : K)⟩ o s ∧
      ((⟨(G : K), (H : K), (B : K)⟩ : Tols K).Met 1 o.k1 → ModelsGood o s →
        ∃ t' : MSt K F, call k U fuel os { a with opts := .inst (loosened u G H B) } ex g = .done s.x t' ∧
          t'.ev.flag = 0 ∧ t'.ev.nsimul = s.ev.nsimul ∧ ∃ d, Longer U t'.ev t.ev d) := by
  obtain ⟨i, e, s0, hset, hpre, henv, hini, hml, hx⟩ := call_done k U fuel os a ex g x t h
  obtain ⟨y, Δ, hst, -⟩ := call_starts k hn ho U m hC fuel a ex g hw i hset e henv s0 hini
  have hU : e.U = U := (envOf_withU k U U ex i e henv).2
  have hpos : (0 < tg ∧ 0 < tf ∧ 0 < tb) ∧ tolsOf e = ⟨(tg : K), (tf : K), (tb : K)⟩ := by
    obtain ⟨-, -, hv, -⟩ := setup_go U _ _ _ _ _ hw i hset
    rw [ha] at hv
    obtain ⟨hc, hl⟩ := C02_accepted_complete_legal_faithful hv
    obtain ⟨-, -, ⟨q1, e1, e1'⟩, ⟨q2, e2, e2'⟩, ⟨q3, e3, e3'⟩, -⟩ := envOf_some henv
    have f1 := tol_env hc.tolGrad hg
    have f2 := tol_env hc.tolFeas hf
    have f3 := tol_env hc.tolBnds hb
    rw [e1] at f1
    rw [e2] at f2
    rw [e3] at f3
    cases f1
    cases f2
    cases f3
    have pos : ∀ {v : Option (Fl ℚ)} {q : ℚ}, (∃ w, v = some w ∧ PosOrNan w) → v = some (.fin q) → 0 < q := by
      rintro v q ⟨w, h1, h2⟩ h3
      rw [h3] at h1
      cases h1
      rcases h2 with h | h | ⟨r, hr, h⟩
      · cases h
      · cases h
      · cases h; exact hr
    exact ⟨⟨pos hl.tolGrad e1, pos hl.tolFeas e2, pos hl.tolBnds e3⟩, by rw [tolsOf, e1', e2', e3']⟩
  obtain ⟨⟨g0, f0, b0⟩, htol⟩ := hpos
  have hloose : (tolsOf e).Looser ⟨(G : K), (H : K), (B : K)⟩ := by
    rw [htol]
    exact ⟨Rat.cast_le.2 hgG, Rat.cast_le.2 hfH, Rat.cast_le.2 hbB⟩
  have hset' := setup_tols U k.sqrt k.nrm fuel a g u ha G H B (lt_of_lt_of_le g0 hgG) (lt_of_lt_of_le f0 hfH) (lt_of_lt_of_le b0 hbB) i hset
  have henv' := envOf_tols k U ex i G H B e henv
  have hpre' : prelimRaise ex { i with opts := loosened i.opts G H B } = none := hpre
  have hini' : mainInit (withTols e ⟨(G : K), (H : K), (B : K)⟩) i.Δ i.slacks i.ev = some s0 := hini
  have hcall : ∀ os', call k U fuel os' { a with opts := .inst (loosened u G H B) } ex g =
      match mainLoop (withTols e ⟨(G : K), (H : K), (B : K)⟩) os' s0 with
        | .running _ => .running
        | .crash c => .crash c
        | .done t =>
          match t.ev.X[t.ixbest]? with
          | none => .crash .index
          | some x => .done x t := by
    intro os'
    simp only [call, hset', runMain, hpre', henv', hini']
    cases mainLoop (withTols e ⟨(G : K), (H : K), (B : K)⟩) os' s0 with
    | running v => rfl
    | crash c => rfl
    | done v => dsimp only; cases v.ev.X[v.ixbest]? <;> rfl
  rcases C120_loop e _ hloose os s0 with hl | ⟨j, o, s, hj, g1, g2, g3⟩
  · left
    rw [hcall, hl, hml]
    simp only [hx]
  · right
    have hmem := hst.memory _ s g1
    have hsplit : os = os.take j ++ os.drop j := (List.take_append_drop j os).symm
    have hdrop : os.drop j = o :: os.drop (j + 1) := by
      obtain ⟨hlt, rfl⟩ := List.getElem?_eq_some_iff.1 hj
      exact List.drop_eq_getElem_cons hlt
    have hlong : ∃ d, Longer U s.ev t.ev d := by
      have hrest : mainLoop e (os.drop j) s = .done t := by
        rw [← mainLoop_append e _ (os.drop j) s0 s g1, ← hsplit]; exact hml
      obtain ⟨d, hd⟩ := mainLoop_added _ _ s t hmem.inv.hlen (Or.inr hrest)
      rw [hU] at hd
      exact ⟨d, hd⟩
    refine ⟨i, e, s0, s, j, o, hset, henv, hini, hj, g1, hlong, by rw [hcall, g2], htol ▸ g3, fun hm hgood => ?_⟩
    obtain ⟨l1, l2, l3, -⟩ := g3
    obtain ⟨t', p1, p2, p3, p4, p5⟩ := pass_succeeds (withTols e ⟨(G : K), (H : K), (B : K)⟩) o s l1 l2 l3 hmem.inv.lo hm hgood
    have hdone : mainLoop (withTols e ⟨(G : K), (H : K), (B : K)⟩) os s0 = .done t' := by
      rw [hsplit, mainLoop_append _ _ _ _ _ g2, hdrop]
      simp only [mainLoop, p1]
    have hx' : s.ev.X[s.ixbest]? = some s.x := by
      obtain ⟨i', y', f', b1, b2, -, b4, -⟩ := hmem.inv.link 0 (by have := hmem.inv.lo; omega) (by simp)
      rw [hmem.inv.ind0] at b1
      rw [hmem.inv.Y0] at b2
      cases b1
      cases b2
      exact b4
    refine ⟨t', ?_, by rw [p2], by rw [p2], ?_⟩
    · rw [hcall, hdone]
      simp only [p2, p5, hx']
    · obtain ⟨d, hd⟩ := hlong
      exact ⟨d, by rw [p2]; exact ⟨hd.X, hd.logF, hd.logC, hd.nsimul, hd.fX, hd.ce⟩⟩

/-! ### The number of evaluations -/

namespace Ex

/-- First pass: gradient of the Lagrangian `1e-4`, trial point 2. -/
def tolA : Orc ℚ Unit := { improve2 with k1 := ⟨false, 1 / 10 ^ 4, 0, 0⟩, xnew := [2], qcost := -1 }

/-- The same with good models. -/
def tolA' : Orc ℚ Unit := { tolA with poisedness := fun _ _ => (1, 1 / 10 ^ 4) }

/-- Second pass: stationary, good models. -/
def tolB : Orc ℚ Unit := { orc [9] 1 with k1 := ⟨false, 0, 0, 0⟩, poisedness := fun _ _ => (1, 1 / 10 ^ 4) }

/-- At most four evaluations, tolerances `1e-5`. -/
def tolOpts : Opts := { Opts.empty with msimul := some (.fin 4), finalDegree := some (.str "quadratic".toList) }

theorem tolOpts_typed : Typed tolOpts := ⟨by simp [tolOpts, Opts.empty], by simp [tolOpts, Opts.empty],
  by simp [tolOpts, Opts.empty], by simp [tolOpts, Opts.empty]⟩

end Ex

/-- The negation: the minimisation of `-x` from 0 with at most four evaluations.  With the tolerances `1e-5` the first pass makes a step, the second one finds
the point stationary, status 0 after three evaluations.  With the tolerance `1e-3` for the gradient the first pass takes the point for nearly stationary, but the models are
not good enough for a stop: it evaluates one more point to improve them and then makes the same step, so that the second pass stops at the limit, status 6 after
four evaluations. -/
theorem C120_more_false :
    ∃ t t', call Ex.wKern Ex.down 1 [Ex.tolA, Ex.tolB] (Ex.wArgs Ex.tolOpts) Ex.wPlain .fresh = .done [2] t ∧
      call Ex.wKern Ex.down 1 [Ex.tolA, Ex.tolB] (Ex.wArgs (loosened Ex.tolOpts (1 / 1000) (1 / 10 ^ 5) (1 / 10 ^ 5))) Ex.wPlain .fresh = .done [2] t' ∧
      t.ev.flag = 0 ∧ t.ev.nsimul = 3 ∧ t'.ev.flag = 6 ∧ t'.ev.nsimul = 4 := by
  have h : (match call Ex.wKern Ex.down 1 [Ex.tolA, Ex.tolB] (Ex.wArgs Ex.tolOpts) Ex.wPlain .fresh,
      call Ex.wKern Ex.down 1 [Ex.tolA, Ex.tolB] (Ex.wArgs (loosened Ex.tolOpts (1 / 1000) (1 / 10 ^ 5) (1 / 10 ^ 5))) Ex.wPlain .fresh with
    | .done x t, .done x' t' => decide (x = [2] ∧ x' = [2] ∧ t.ev.flag = 0 ∧ t.ev.nsimul = 3 ∧ t'.ev.flag = 6 ∧ t'.ev.nsimul = 4)
    | _, _ => false) = true := by decide +kernel
  split at h
  · rename_i x t x' t' h1 h2
    obtain ⟨rfl, rfl, h3, h4, h5, h6⟩ := of_decide_eq_true h
    exact ⟨t, t', h1, h2, h3, h4, h5, h6⟩
  · cases h

/-- With good models the call with the looser tolerance ends before the step (status 0, two evaluations), as in the last part of
`C120_call_partial`. -/
example : (match call Ex.wKern Ex.down 1 [Ex.tolA', Ex.tolB] (Ex.wArgs Ex.tolOpts) Ex.wPlain .fresh,
      call Ex.wKern Ex.down 1 [Ex.tolA', Ex.tolB] (Ex.wArgs (loosened Ex.tolOpts (1 / 1000) (1 / 10 ^ 5) (1 / 10 ^ 5))) Ex.wPlain .fresh with
    | .done x t, .done x' t' => decide (x = [2] ∧ x' = [0] ∧ t.ev.flag = 0 ∧ t.ev.nsimul = 3 ∧ t'.ev.flag = 0 ∧ t'.ev.nsimul = 2)
    | _, _ => false) = true := by decide +kernel

/-- `C120_call_partial` for the first of these pairs of calls: the results differ, so there is a pass that tells the tolerances apart. -/
example : ∃ (i : MainIn ℚ) (e : Env ℚ Unit) (s0 s : MSt ℚ Unit) (j : ℕ) (o : Orc ℚ Unit),
    envOf Ex.wKern Ex.down Ex.wPlain i = some e ∧ mainInit e i.Δ i.slacks i.ev = some s0 ∧ [Ex.tolA, Ex.tolB][j]? = some o ∧
    mainLoop e ([Ex.tolA, Ex.tolB].take j) s0 = .running s ∧
    ToldApart e ⟨((1 / 10 ^ 5 : ℚ) : ℚ), ((1 / 10 ^ 5 : ℚ) : ℚ), ((1 / 10 ^ 5 : ℚ) : ℚ)⟩
      ⟨((1 / 1000 : ℚ) : ℚ), ((1 / 10 ^ 5 : ℚ) : ℚ), ((1 / 10 ^ 5 : ℚ) : ℚ)⟩ o s := by
  obtain ⟨t, t', h, h', h0, -, h6, -⟩ := C120_more_false
  rcases C120_call_partial Ex.wKern Ex.nrm1_nonneg Ex.descOrder_sorted Ex.down 0 ⟨fun _ => rfl, fun c h => by cases h⟩ 1 [Ex.tolA, Ex.tolB]
    (Ex.wArgs Ex.tolOpts) Ex.wPlain .fresh (Ex.wArgs_wellFormed _ Ex.tolOpts_typed) Ex.tolOpts rfl (1 / 10 ^ 5) (1 / 10 ^ 5) (1 / 10 ^ 5)
    (1 / 1000) (1 / 10 ^ 5) (1 / 10 ^ 5) (Or.inl ⟨Or.inl rfl, rfl⟩) (Or.inl ⟨Or.inl rfl, rfl⟩) (Or.inl ⟨Or.inl rfl, rfl⟩)
    (by norm_num) le_rfl le_rfl _ t h with g | ⟨i, e, s0, s, j, o, -, g2, g3, g4, g5, -, -, g6, -⟩
  · exfalso
    have : CallRes.done [2] t' = CallRes.done [2] t := h'.symm.trans g
    simp only [CallRes.done.injEq, true_and] at this
    rw [this, h0] at h6
    cases h6
  · exact ⟨i, e, s0, s, j, o, g2, g3, g4, g5, g6⟩

/-- A pass that tells `1e-5` and `1e-3` apart, and one that does not. -/
example : (Ex.tolA.k1.glagn = 1 / 10 ^ 4) ∧ (⟨1 / 1000, 1 / 10 ^ 5, 1 / 10 ^ 5⟩ : Tols ℚ).Met 1 Ex.tolA.k1 ∧
    ¬ (⟨1 / 10 ^ 5, 1 / 10 ^ 5, 1 / 10 ^ 5⟩ : Tols ℚ).Met 1 Ex.tolA.k1 ∧ (⟨1 / 10 ^ 5, 1 / 10 ^ 5, 1 / 10 ^ 5⟩ : Tols ℚ).Met 1 Ex.tolB.k1 := by
  refine ⟨rfl, ?_, ?_, ?_⟩
  · simp only [Tols.Met, Ex.tolA]; norm_num
  · simp only [Tols.Met, Ex.tolA]; norm_num
  · simp only [Tols.Met, Ex.tolB]; norm_num

/-! ### The precision of the tangent step -/

section Tangent
open Matrix
variable {n : ℕ}

theorem cgLoop_trace (A : Matrix (Fin n) (Fin n) ℝ) (δ tol : ℝ) (maxIter : ℕ) (iter : ℕ) (s : CGState n) (curv : Option ℝ)
    (trace : List (Fin n → ℝ)) : trace <+: (cgLoop A δ tol maxIter iter s curv trace).trace := by
  fun_induction cgLoop A δ tol maxIter iter s curv trace with
  | case1 => exact List.prefix_rfl
  | case2 => exact List.prefix_rfl
  | case3 => exact List.prefix_append _ _
  | case4 => exact List.prefix_append _ _
  | case5 _ _ _ _ _ _ _ _ _ _ _ _ _ _ _ ih => exact (List.prefix_append _ _).trans ih

theorem cgLoop_tols (A : Matrix (Fin n) (Fin n) ℝ) (δ tol tol' : ℝ) (h0 : 0 ≤ tol) (h : tol ≤ tol') (maxIter : ℕ) (iter : ℕ) (s : CGState n)
    (curv : Option ℝ) (trace : List (Fin n → ℝ)) :
    cgLoop A δ tol' maxIter iter s curv trace = cgLoop A δ tol maxIter iter s curv trace ∨
    (cgLoop A δ tol' maxIter iter s curv trace).flag = 0 ∧ tol < (cgLoop A δ tol' maxIter iter s curv trace).prec ∧
      (cgLoop A δ tol' maxIter iter s curv trace).prec ≤ tol' ∧
      (cgLoop A δ tol' maxIter iter s curv trace).trace <+: (cgLoop A δ tol maxIter iter s curv trace).trace := by
  fun_induction cgLoop A δ tol' maxIter iter s curv trace with
  | case1 iter s curv trace h1 =>
    by_cases h2 : s.g2 ≤ tol * tol
    · left
      unfold cgLoop
      rw [if_pos h2]
    · right
      refine ⟨rfl, ?_, ?_, cgLoop_trace ..⟩
      · exact Real.lt_sqrt h0 |>.2 (by rw [sq]; exact lt_of_not_ge h2)
      · exact Real.sqrt_le_iff.2 ⟨h0.trans h, by rw [sq]; exact h1⟩
  | case2 iter s curv trace h1 h2 =>
    left
    unfold cgLoop
    rw [if_neg (fun h' => h1 (h'.trans (mul_self_le_mul_self h0 h))), if_pos h2]
  | case3 iter s curv trace h1 h2 d Ad dAd curv' h3 x =>
    left
    unfold cgLoop
    rw [if_neg (fun h' => h1 (h'.trans (mul_self_le_mul_self h0 h))), if_neg h2]
    dsimp only
    rw [if_pos h3]
  | case4 iter s curv trace h1 h2 d Ad dAd curv' h3 α xx h4 x =>
    left
    unfold cgLoop
    rw [if_neg (fun h' => h1 (h'.trans (mul_self_le_mul_self h0 h))), if_neg h2]
    dsimp only
    rw [if_neg h3, if_pos h4]
  | case5 iter s curv trace h1 h2 d Ad dAd curv' h3 α xx h4 g ih =>
    have e : cgLoop A δ tol maxIter iter s curv trace = cgLoop A δ tol maxIter (iter + 1)
          { x := xx, g := g, g2 := g ⬝ᵥ g, g2p := s.g2, d := d } curv' (trace ++ [xx]) := by
      rw [cgLoop, if_neg (fun h' => h1 (h'.trans (mul_self_le_mul_self h0 h))), if_neg h2]
      dsimp only
      rw [if_neg h3, if_neg h4]
    rw [e]
    exact ih

/-- The tolerance also sets the precision of the tangent step (`prec_t`, a tenth of `tol_grad`, `sqpdfo_main.py` L660-L663).  With a looser precision
the conjugate gradient method returns the same result, or it stops earlier on the same path, with status 0 and a residual between the two precisions. -/
theorem C120_tangent (A : Matrix (Fin n) (Fin n) ℝ) (b : Fin n → ℝ) (δ tol tol' : ℝ) (h0 : 0 ≤ tol) (h : tol ≤ tol') (maxIter : ℕ) :
    truncCG A b δ tol' maxIter = truncCG A b δ tol maxIter ∨
    (truncCG A b δ tol' maxIter).flag = 0 ∧ tol < (truncCG A b δ tol' maxIter).prec ∧ (truncCG A b δ tol' maxIter).prec ≤ tol' ∧
      (truncCG A b δ tol' maxIter).trace <+: (truncCG A b δ tol maxIter).trace :=
  cgLoop_tols A δ tol tol' h0 h maxIter _ _ _ _

/-- So the kernels need not return the same results in both calls: the tangent step can be 0 with the looser precision and is not 0 with the other one. -/
theorem C120_tangent_false : ∃ (A : Matrix (Fin 1) (Fin 1) ℝ) (b : Fin 1 → ℝ),
    (truncCG A b 1 (1 / 10 ^ 6) 20).x = ![1 / 10 ^ 5] ∧ (truncCG A b 1 (1 / 10 ^ 4) 20).x = 0 := by
  refine ⟨!![1], ![1 / 10 ^ 5], ?_, ?_⟩
  · unfold truncCG
    obtain ⟨c, t, h⟩ := cgLoop_inside !![1] 1 (1 / 10 ^ 6) 20 1
      { x := 0, g := -![1 / 10 ^ 5], g2 := (-![1 / 10 ^ 5]) ⬝ᵥ (-![1 / 10 ^ 5]), g2p := 0, d := 0 } none [0]
      ![1 / 10 ^ 5] ![1 / 10 ^ 5] 1 (by simp [cgDir])
      (by funext i; fin_cases i; simp [mulVec, dotProduct]) (by simp) (by norm_num)
      (by norm_num) (by norm_num) (by norm_num)
    rw [h, cgLoop, if_pos (by norm_num)]
    simp
  · rw [truncCG, cgLoop, if_pos]
    simp [dotProduct]; norm_num

end Tangent

#print axioms C120_loop
#print axioms C120_call_partial
#print axioms C120_more_false
#print axioms C120_tangent
#print axioms C120_tangent_false

end Sqpdfo
