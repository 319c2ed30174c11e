import Verif.Model.Report
import Verif.Props.C80_InitialCall
import Verif.Props.C116_Order

/-! # C124: what the report at the end of a call says -/

set_option linter.unusedSectionVars false

namespace Sqpdfo
open Spec
variable {K F : Type} [Field K] [LinearOrder K] [IsStrictOrderedRing K]

/-- The file identifier in effect: 1 if missing or negative. -/
def Spec.EffFout (u : Opts) (p : Int) : Prop :=
  (u.fout = some p ∧ 0 ≤ p) ∨ (p = 1 ∧ ∀ w, u.fout = some w → w < 0)

/-- The texts for the statuses of a run. -/
def Spec.statusTexts : List (ℕ × String) :=
  [(0, "converged"), (3, "error during function evaluation"), (5, "maximum number of iterations"),
    (6, "maximum number of function evaluations"), (15, "trust region radius too small"),
    (30, "unexpected (possible premature) termination")]

theorem effFout_completion {u o : Opts} (hc : Completion u o) {p : Int} (hp : EffFout u p) : o.fout = some p := by
  obtain ⟨w, hw, -, h1, h2, h3⟩ := hc.fout
  rw [hw]
  rcases hp with ⟨g1, g2⟩ | ⟨rfl, g⟩
  · rw [h1 p g1 g2]
  · cases hu : u.fout with
    | none => rw [h2 hu]
    | some w' => rw [h3 w' hu (g w' hu)]

/-- The bounds handed to the main part. -/
theorem go_bounds (k : Kernels K F) (U : User (List K) K) (m : ℕ) (hC : Counts U m) (fuel : ℕ) (a : Args K) (g : Globals K)
    (hw : WellFormed a) (i : MainIn K) (h : (setup U k.sqrt k.nrm fuel a g).res = .go i) :
    ceRows i.ev = m ∧ dimOf i.ev = (boxes a).length ∧ varBounds i = (boxes a).map (fun v => (v.lb, v.ub)) ∧
      (0 < nbBounds (infOf i.opts) (varBounds i) ↔ Bounded (userOpts a.opts) (boxes a)) := by
  obtain ⟨hA, hB, hval, hne, Δ, ys, h1, h2, h3⟩ := setup_go U _ _ _ _ _ hw i h
  obtain ⟨o, g', lb, ub, Δ', ys', hval', -, hcb, -, -, hzip, he⟩ := setup_checked U k.sqrt k.nrm fuel a g hw hA hB
  rw [h1] at hcb
  cases hcb
  obtain ⟨D, zs, d1, d2, d3, d4, -⟩ := C04_initial_points (boxes a) (proper_bounds _ _ _ h1 h2)
  rw [h1] at d1
  cases d1
  have hX := (C48_done_complete U _ _ _ _ _ _ _ rfl h3).2.1
  have hc := (C02_accepted_complete_legal_faithful hval).1
  have hlb : i.lb = lb ∧ i.ub = ub := by
    rw [he] at h
    unfold setupTail at h
    split at h
    · cases h
    dsimp only at h
    split at h
    · cases h
    · cases h
    · cases h
    · cases h
    · split at h
      · split at h
        · cases h
        · cases h; exact ⟨rfl, rfl⟩
      · cases h; exact ⟨rfl, rfl⟩
  have hdim : dimOf i.ev = (boxes a).length := by
    unfold dimOf; rw [hX]
    simp only [simplex]
    exact d4.length_eq.symm
  have hvb : varBounds i = (boxes a).map (fun v => (v.lb, v.ub)) := by
    unfold varBounds; rw [hdim, hlb.1, hlb.2]; exact hzip
  exact ⟨ceRows_eq k U m hC _ _ _ _ _ _ h3, hdim, hvb, by rw [hvb]; exact bounded_iff hc (boxes a) hne⟩

/-- The report of a regular end. -/
theorem callReport_done (k : Kernels K F) (U : User (List K) K) (fuel : ℕ) (os : List (Orc K F)) (a : Args K) (ex : Extra) (g : Globals K)
    (hw : WellFormed a) (x : List K) (t : MSt K F) (h : call k U fuel os a ex g = .done x t)
    (v p : Int) (hv : EffVerbose (userOpts a.opts) v) (hp : EffFout (userOpts a.opts) p) :
    ∃ i, (setup U k.sqrt k.nrm fuel a g).res = .go i ∧ i.opts.verbose = some v ∧ i.opts.fout = some p ∧
      callReport k U fuel os a ex g =
        report i.opts (nbBounds (infOf i.opts) (varBounds i)) (ceRows i.ev) (dimOf i.ev) i.lb i.ub x t := by
  have hg : ∃ i, (setup U k.sqrt k.nrm fuel a g).res = .go i := by
    cases hs : (setup U k.sqrt k.nrm fuel a g).res with
    | go i => exact ⟨i, rfl⟩
    | ret fl => simp [call, hs] at h
    | crash => simp [call, hs] at h
    | running => simp [call, hs] at h
  obtain ⟨i, hi⟩ := hg
  obtain ⟨-, -, hval, -⟩ := setup_go U _ _ _ _ _ hw i hi
  have hc := (C02_accepted_complete_legal_faithful hval).1
  exact ⟨i, hi, effVerbose_completion hc hv, effFout_completion hc hp, by unfold callReport; rw [hi, h]⟩

/-- **C124, summary.** After a regular end, below verbosity 1 nothing is reported.  From verbosity 1 on the report gives the returned status
with its text, the (capped) value of the user's objective at the returned point, the returned measures of optimality (the infeasibility exactly
if there is a bound below `options.inf` or a constraint), the number of iterations and the number of calls of the objective.  It goes to the
screen exactly for the identifier 1 (the default) and to the standard error output exactly for 2.  Tables follow exactly from verbosity 3 on.

The full property also says that *every* call that returns reports its status (false: `C124_early_false`), that legal options `fout` show the
report somewhere (false: `C124_fout_false`), and that the reported value is the returned `info.f` (false: `C124_value_false`). -/
theorem C124_summary_partial (k : Kernels K F) (hn : ∀ v, 0 ≤ k.nrm v) (ho : ∀ d, SortedDesc d (k.order d)) (U : User (List K) K) (m : ℕ)
    (hC : Counts U m) (fuel : ℕ) (os : List (Orc K F)) (a : Args K) (ex : Extra) (g : Globals K) (hw : WellFormed a)
    (x : List K) (t : MSt K F) (h : call k U fuel os a ex g = .done x t)
    (v p : Int) (hv : EffVerbose (userOpts a.opts) v) (hp : EffFout (userOpts a.opts) p) :
    (v < 1 → callReport k U fuel os a ex g = none) ∧
    (1 ≤ v → ∃ r, callReport k U fuel os a ex g = some r ∧
      r.code = t.ev.flag ∧ (t.ev.flag, r.text) ∈ statusTexts ∧
      (∃ (w : World (List K)) (q : K), w.logF ++ [x] <+: t.ev.w.logF ∧ U.f w x = .num (.fin q) ∧
        r.f = if q ≤ 10 ^ 25 then q else 10 ^ 25) ∧
      r.glagn = t.glagn ∧
      (0 < m ∨ Bounded (userOpts a.opts) (boxes a) → r.feasn = some t.feasn) ∧
      (¬ (0 < m ∨ Bounded (userOpts a.opts) (boxes a)) → r.feasn = none) ∧
      r.nit = t.niter ∧ r.evals = t.ev.w.logF.length ∧
      (r.sink = .screen ↔ p = 1) ∧ (r.sink = .err ↔ p = 2) ∧ (r.tables.isSome ↔ 3 ≤ v)) := by
  obtain ⟨i, hi, hov, hof, hr⟩ := callReport_done k U fuel os a ex g hw x t h v p hv hp
  obtain ⟨g1, g2, g3, g4⟩ := go_bounds k U m hC fuel a g hw i hi
  obtain ⟨-, -, -, c4, -⟩ := C81_call_results k hn ho U m hC fuel os a ex g hw
  obtain ⟨-, -, f1, f2, f3, w, q, q1, q2, q3⟩ := c4 x t h
  rw [hr]
  unfold report
  rw [hov, hof]
  dsimp only
  refine ⟨fun hlt => if_neg (by omega), fun hge => ⟨_, if_pos hge, rfl, ?_, ⟨w, q, q1, q2, q3⟩, rfl, ?_, ?_, rfl, f2, ?_, ?_, ?_⟩⟩
  · dsimp only
    generalize t.ev.flag = fl at f1
    simp only [List.mem_cons, List.not_mem_nil, or_false] at f1
    rcases f1 with rfl | rfl | rfl | rfl | rfl | rfl <;> decide
  · intro hb
    dsimp only
    rw [if_pos]
    rcases hb with hb | hb
    · omega
    · have := g4.2 hb; omega
  · intro hb
    dsimp only
    rw [if_neg]
    intro hpos
    apply hb
    rcases Nat.eq_zero_or_pos m with h0 | h0
    · exact Or.inr (g4.1 (by omega))
    · exact Or.inl h0
  · dsimp only; unfold sinkOf
    split
    · simp_all
    · split <;> simp_all
  · dsimp only; unfold sinkOf
    split
    · simp_all
    · split <;> simp_all
  · dsimp only
    by_cases h3 : v > 2
    · rw [if_pos h3]; simp; omega
    · rw [if_neg h3]; simp; omega

theorem varRows_get (nb n : ℕ) (lb ub x : List K) (j : ℕ) (hj : j < min n 40) :
    (varRows nb n lb ub x)[j]? = some (if nb ≠ 0 then ⟨j, lb[j]?, x[j]?, ub[j]?⟩ else ⟨j, none, x[j]?, none⟩) := by
  unfold varRows
  rw [List.getElem?_map, List.getElem?_range hj]
  rfl

/-- **C124, variables.** From verbosity 3 on the report lists the first 40 variables in order, each with the corresponding component of the
returned point, and, if any bound is below `options.inf`, with the bounds in effect for this variable; dots follow exactly if there are more. -/
theorem C124_variables (k : Kernels K F) (U : User (List K) K) (m : ℕ)
    (hC : Counts U m) (fuel : ℕ) (os : List (Orc K F)) (a : Args K) (ex : Extra) (g : Globals K) (hw : WellFormed a)
    (x : List K) (t : MSt K F) (h : call k U fuel os a ex g = .done x t)
    (v p : Int) (hv : EffVerbose (userOpts a.opts) v) (hp : EffFout (userOpts a.opts) p) (h3 : 3 ≤ v) :
    ∃ r T, callReport k U fuel os a ex g = some r ∧ r.tables = some T ∧
      T.vars.length = min (boxes a).length 40 ∧ (T.moreVars = true ↔ 40 < (boxes a).length) ∧
      ∀ j b, j < 40 → (boxes a)[j]? = some b → ∃ row, T.vars[j]? = some row ∧ row.i = j ∧ row.x = x[j]? ∧
        (Bounded (userOpts a.opts) (boxes a) → row.lb = some b.lb ∧ row.ub = some b.ub) ∧
        (¬ Bounded (userOpts a.opts) (boxes a) → row.lb = none ∧ row.ub = none) := by
  obtain ⟨i, hi, hov, hof, hr⟩ := callReport_done k U fuel os a ex g hw x t h v p hv hp
  obtain ⟨g1, g2, g3, g4⟩ := go_bounds k U m hC fuel a g hw i hi
  rw [hr]
  unfold report
  rw [hov, hof]
  dsimp only
  rw [if_pos (by omega : v ≥ 1), if_pos (by omega : v > 2)]
  refine ⟨_, _, rfl, rfl, by simp [varRows, g2], by simp [g2], ?_⟩
  intro j b hj hb
  have hjn : j < (boxes a).length := (List.getElem?_eq_some_iff.1 hb).1
  have hz : i.lb[j]? = some b.lb ∧ i.ub[j]? = some b.ub := by
    have : (varBounds i)[j]? = some (b.lb, b.ub) := by rw [g3, List.getElem?_map, hb]; rfl
    unfold varBounds at this
    rw [List.getElem?_take_of_lt (by rw [g2]; exact hjn), List.getElem?_zip_eq_some] at this
    exact this
  refine ⟨_, varRows_get _ _ _ _ _ j (by rw [g2]; omega), ?_, ?_, ?_, ?_⟩
  · split <;> rfl
  · split <;> rfl
  · intro hb'
    have := g4.2 hb'
    rw [if_pos (by omega)]
    exact hz
  · intro hb'
    rw [if_neg (by intro hne; exact hb' (g4.1 (Nat.pos_of_ne_zero hne)))]
    exact ⟨rfl, rfl⟩

/-- **C124, constraints.** From verbosity 3 on, with constraint values of size below `1e25`, the report lists the first 40 values that the constraint function
gave at the returned point, in order; dots follow exactly if there are more. -/
theorem C124_constraints (k : Kernels K F) (hn : ∀ v, 0 ≤ k.nrm v) (ho : ∀ d, SortedDesc d (k.order d)) (U : User (List K) K) (m : ℕ)
    (hC : Counts U m) (hT : ∀ c, U.c = some c → ∀ w y vs, c w y = .nums vs → ∀ v ∈ vs, v = .nan ∨ ∃ q : K, v = .fin q ∧ |q| < 10 ^ 25)
    (hm : 0 < m) (fuel : ℕ) (os : List (Orc K F)) (a : Args K) (ex : Extra) (g : Globals K) (hw : WellFormed a)
    (x : List K) (t : MSt K F) (h : call k U fuel os a ex g = .done x t)
    (v p : Int) (hv : EffVerbose (userOpts a.opts) v) (hp : EffFout (userOpts a.opts) p) (h3 : 3 ≤ v) :
    ∃ r T, callReport k U fuel os a ex g = some r ∧ r.tables = some T ∧
      T.ces.length = min m 40 ∧ (T.moreCe = true ↔ 40 < m) ∧
      ∃ (w : World (List K)) (c : List K), w.logF ++ [x] <+: t.ev.w.logF ∧ answerC U w x = some (.nums (c.map Fl.fin)) ∧ c.length = m ∧
        ∀ j q, j < 40 → c[j]? = some q → T.ces[j]? = some (j, some (.fin q)) := by
  obtain ⟨i, hi, hov, hof, hr⟩ := callReport_done k U fuel os a ex g hw x t h v p hv hp
  obtain ⟨g1, g2, g3, g4⟩ := go_bounds k U m hC fuel a g hw i hi
  obtain ⟨i', e, s0, y, Δ, hi', he, hst, -, -, -, hml, hx⟩ := (call_main k hn ho U m hC fuel os a ex g hw).1 x t h
  rw [hi] at hi'
  cases hi'
  obtain ⟨-, -, -, -, -, -, -, -, e2, -, -, e5, -⟩ := envOf_some he
  have hme : e.me = m := by rw [e2, g1]
  have hT' : e.Tame := ⟨by rw [hme]; exact hm, by rw [e5]; exact hT⟩
  have hps : ∀ o s, (Inv e [] s ∧ Ce e [] s) → (pass e o s).Sat (fun s => Inv e [] s ∧ Ce e [] s)
      (fun s => Core e [] s ∧ CeCore e [] s) (fun _ => True) := by
    rintro o s ⟨hI, hc⟩
    exact ((pass_sat e hst.ok o s hI).and (pass_ce hst.ok hst.constr hT' o s hc hI)).mono
      (fun _ h => ⟨h.1.1, h.2⟩) (fun _ h => ⟨h.1.1.core, h.2⟩) (fun _ _ => trivial)
  have key := mainLoop_induct e _ _ _ hps os s0 ⟨hst.started.1, startState_ce hst.constr hT' y fuel Δ _ s0 hst.state⟩
  rw [hml] at key
  obtain ⟨hI, hc⟩ := key
  obtain ⟨col, c1, c2⟩ := hc.pair.2 0 (by simp) _ hI.ind0
  obtain ⟨c', d1, d2, -⟩ := hc.cols _ (List.mem_of_getElem? c1)
  obtain ⟨z, w, z1, z2, z3⟩ := hc.hist _ _ c1
  rw [hx] at z1
  cases z1
  rw [d1, e5] at z3
  rw [d1] at c1
  rw [hr]
  unfold report
  rw [hov, hof]
  dsimp only
  rw [if_pos (by omega : v ≥ 1), if_pos (by omega : v > 2)]
  refine ⟨_, _, rfl, rfl, ?_, by simp [g1], w, c', z2, z3, by rw [d2, hme], ?_⟩
  · simp only [ceLines, g1]
    rw [if_pos (by omega)]
    simp
  · intro j q hj hq
    have hjm : j < m := by rw [← hme, ← d2]; exact (List.getElem?_eq_some_iff.1 hq).1
    simp only [ceLines, g1]
    rw [if_pos (by omega), List.getElem?_map, List.getElem?_range (by omega), c1]
    simp [hq]

/-- **C124, no constraints.** Without constraints there is no table of constraints. -/
theorem C124_no_constraints (k : Kernels K F) (U : User (List K) K) (hC : Counts U 0) (fuel : ℕ) (os : List (Orc K F)) (a : Args K)
    (ex : Extra) (g : Globals K) (hw : WellFormed a) (r : Report K) (T : Tables K) (h : callReport k U fuel os a ex g = some r)
    (hT : r.tables = some T) : T.ces = [] ∧ T.moreCe = false := by
  unfold callReport at h
  split at h
  · rename_i i x t hi _
    obtain ⟨g1, -⟩ := go_bounds k U 0 hC fuel a g hw i hi
    unfold report at h
    split at h
    · split at h
      · cases h
        dsimp only at hT
        split at hT
        · cases hT
          simp [ceLines, g1]
        · cases hT
      · cases h
    · cases h
  · cases h

/-- Different statuses of a run have different texts, none is empty. -/
theorem C124_texts : (∀ p ∈ statusTexts, p.2 ≠ "") ∧
    ∀ p ∈ statusTexts, ∀ q ∈ statusTexts, p.2 = q.2 → p.1 = q.1 := by decide

/-- A call that ends before the main loop reports nothing: no status, whatever the verbosity. -/
theorem C124_early (k : Kernels K F) (U : User (List K) K) (fuel : ℕ) (os : List (Orc K F)) (a : Args K) (ex : Extra) (g : Globals K)
    (fl : ℕ) (w : World (List K)) (h : call k U fuel os a ex g = .early fl w) : callReport k U fuel os a ex g = none := by
  unfold callReport
  rw [h]
  split
  · rename_i h'; cases h'
  · rfl

namespace Ex

/-- At most three iterations, verbosity `v`, file identifier `p`. -/
def loud (v p : Int) : Opts := { wThree with verbose := some v, fout := some p }

theorem loud_typed (v p : Int) : Typed (loud v p) := ⟨by simp [loud, wThree, Opts.empty], by simp [loud, wThree, Opts.empty],
  by simp [loud, wThree, Opts.empty], by simp [loud, wThree, Opts.empty]⟩

end Ex

/-- Negation of C124, first part: with verbosity 6 a call whose objective fails at the start point returns status 3 without any report. -/
theorem C124_early_false : ∃ U : User (List ℚ) ℚ, WellFormed (Ex.wArgs (Ex.loud 6 1)) ∧ EffVerbose (userOpts (Ex.wArgs (Ex.loud 6 1)).opts) 6 ∧
    (∃ w, call Ex.wKern U 1 [] (Ex.wArgs (Ex.loud 6 1)) Ex.wPlain .fresh = .early 3 w) ∧
    callReport Ex.wKern U 1 [] (Ex.wArgs (Ex.loud 6 1)) Ex.wPlain .fresh = none := by
  refine ⟨⟨fun _ _ => .raised, none⟩, Ex.wArgs_wellFormed _ (Ex.loud_typed _ _), Or.inl ⟨rfl, by decide, by decide⟩, ?_⟩
  have h : (match call Ex.wKern (⟨fun _ _ => .raised, none⟩ : User (List ℚ) ℚ) 1 [] (Ex.wArgs (Ex.loud 6 1)) Ex.wPlain .fresh with
    | .early fl _ => decide (fl = 3)
    | _ => false) = true := by decide +kernel
  generalize hc : call Ex.wKern (⟨fun _ _ => .raised, none⟩ : User (List ℚ) ℚ) 1 [] (Ex.wArgs (Ex.loud 6 1)) Ex.wPlain .fresh = c at h
  cases c with
  | early fl w =>
    obtain rfl := of_decide_eq_true h
    exact ⟨⟨w, rfl⟩, C124_early _ _ _ _ _ _ _ _ _ hc⟩
  | _ => cases h

/-- Negation of C124, second part: the file identifier 3 is accepted, and then the report goes nowhere. -/
theorem C124_fout_false : (∃ o, validate (Ex.loud 1 3) = .ok o ∧ o.fout = some 3) ∧
    Ex.wStatus (call Ex.wKern Ex.down 1 [Ex.orc [1] 1, Ex.orc [2] 1, Ex.orc [3] 1, Ex.orc [4] 1] (Ex.wArgs (Ex.loud 1 3)) Ex.wPlain .fresh) = some 5 ∧
    ((callReport Ex.wKern Ex.down 1 [Ex.orc [1] 1, Ex.orc [2] 1, Ex.orc [3] 1, Ex.orc [4] 1] (Ex.wArgs (Ex.loud 1 3)) Ex.wPlain .fresh).map
      fun r => (r.sink, r.code)) = some (.nowhere, 5) := by
  refine ⟨⟨_, rfl, rfl⟩, ?_, ?_⟩ <;> decide +kernel

/-- Negation of C124, third part: the report gives the value 0 of the returned point 0, the returned `info.f` is the value -5 of a refused
trial point. -/
theorem C124_value_false :
    (match call Ex.wKern Ex.down 1 [Ex.orc [5] 0, { Ex.orc [1] 1 with k1 := ⟨false, 0, 0, 0⟩, poisedness := fun _ _ => (0, 0) }]
        (Ex.wArgs (Ex.loud 1 1)) Ex.wPlain .fresh with
      | .done x t => some (x, t.ev.flag, t.ev.infoF.val?)
      | _ => none) = some ([0], 0, some (-5)) ∧
    ((callReport Ex.wKern Ex.down 1 [Ex.orc [5] 0, { Ex.orc [1] 1 with k1 := ⟨false, 0, 0, 0⟩, poisedness := fun _ _ => (0, 0) }]
        (Ex.wArgs (Ex.loud 1 1)) Ex.wPlain .fresh).map fun r => (r.code, r.text, r.f)) = some (0, "converged", 0) := by
  constructor <;> decide +kernel

open Ex

/-- C124 is not void: a call in one variable with two constraints at verbosity 3 ends regularly; the report has the status 5, the value, the
counters, the default bounds and both constraint values at the returned point. -/
example : ((callReport Ex.wKern twoEq.U 1 ([1, 2, 3, 4].map fun j => stepC [j] 1) { twoArgs with opts := .inst (Ex.loud 3 1) } Ex.wPlain .fresh).map
      fun r => (r.sink, r.code, r.text, r.f, r.nit, r.evals)) = some (.screen, 5, "maximum number of iterations", -2, 3, 5) ∧
    ((callReport Ex.wKern twoEq.U 1 ([1, 2, 3, 4].map fun j => stepC [j] 1) { twoArgs with opts := .inst (Ex.loud 3 1) } Ex.wPlain .fresh).bind
      fun r => r.tables) = some ⟨[⟨0, some (-10 ^ 20), some 2, some (10 ^ 20)⟩], false, [(0, some (.fin 1)), (1, some (.fin 0))], false⟩ := by
  constructor <;> decide +kernel

/-- The hypotheses of `C124_constraints` and `C124_summary_partial` are met in this call. -/
example : (∀ v, 0 ≤ Ex.wKern.nrm v) ∧ (∀ d, SortedDesc d (Ex.wKern.order d)) ∧ Counts twoEq.U 2 ∧
    (∀ c, twoEq.U.c = some c → ∀ w y vs, c w y = .nums vs → ∀ v ∈ vs, v = .nan ∨ ∃ q : ℚ, v = .fin q ∧ |q| < 10 ^ 25) ∧
    WellFormed { twoArgs with opts := .inst (Ex.loud 3 1) } ∧ EffVerbose (userOpts (.inst (Ex.loud 3 1))) 3 ∧
    EffFout (userOpts (.inst (Ex.loud 3 1))) 1 := by
  have hw := Ex.wArgs_wellFormed _ (Ex.loud_typed 3 1)
  exact ⟨Ex.nrm1_nonneg, Ex.descOrder_sorted, ⟨twoEq_constr.none, twoEq_constr.some⟩, twoEq_tame.small,
    ⟨hw.f, (by intro h; cases h), hw.opts, (by intro l h; cases h), (by intro l h; cases h), hw.data, hw.lb, hw.ub⟩,
    Or.inl ⟨rfl, by decide, by decide⟩, Or.inl ⟨rfl, by decide⟩⟩

#print axioms C124_summary_partial
#print axioms C124_variables
#print axioms C124_constraints
#print axioms C124_no_constraints
#print axioms C124_texts
#print axioms C124_early
#print axioms C124_early_false
#print axioms C124_fout_false
#print axioms C124_value_false

end Sqpdfo
