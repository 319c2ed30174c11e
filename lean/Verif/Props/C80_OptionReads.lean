import Verif.Lemmas.Whole
import Verif.Lemmas.MainExample

/-! # C80: reads of the options after the validation -/

set_option linter.unusedSectionVars false

namespace Sqpdfo
open Spec
variable {K F : Type} [Field K] [LinearOrder K] [IsStrictOrderedRing K]

theorem effVerbose_completion {u o : Opts} (hc : Completion u o) {v : Int} (hv : EffVerbose u v) : o.verbose = some v := by
  obtain ⟨w, hw, -, -, h1, h2, h3⟩ := hc.verbose
  rw [hw]
  rcases hv with ⟨g1, g2, g3⟩ | ⟨rfl, g⟩
  · rw [h1 v g1 g2 g3]
  · cases hu : u.verbose with
    | none => rw [h2 hu]
    | some z => rw [h3 z hu (g z hu)]

theorem bfgs_ne_model {s : List Char} (h1 : Spells "bfgs".toList s) (h2 : Spells "model".toList s) : False := by
  rw [← normName_eq_iff] at h1 h2
  rw [h1] at h2
  exact absurd h2 (by decide)

theorem printsAsInt_iff {given out : Option (Fl ℚ)} (h : Faithful given out (.fin 1000)) :
    printsAsInt out = true ↔ FiniteLimit given := by
  unfold FiniteLimit
  cases given with
  | none => rw [h.2 rfl]; simp [printsAsInt, Fl.isFin]
  | some v =>
    rw [h.1 v rfl]
    cases v <;> simp [printsAsInt, Fl.isFin]

/-- **C80.** Full statement: *options accepted by the validation never make the rest of the call raise*.  It is false
(`C80_verbosity_raises`, `C80_bfgs_raises`).  Proved instead: exactly when the reads between validation and main loop raise, in terms
of the user's options (verbosity `v` in effect): never below verbosity 4, except without bounds and constraints at a start point that
is next to a bound beyond `options.inf`; from verbosity 4 on always without bounds and constraints, and always if the limit of the
iterations or of the evaluations is infinite or NaN. -/
theorem C80_initial_reads_partial (u o : Opts) (h : validate u = .ok o) (v : Int) (hv : EffVerbose u v) (ex : Extra) (nb me : ℕ)
    (near : Bool) :
    lateRaise o ex nb me near = none ↔
      (v < 4 ∧ (0 < nb + me ∨ near = false)) ∨ (4 ≤ v ∧ 0 < nb + me ∧ FiniteLimit u.miter ∧ FiniteLimit u.msimul) := by
  have hc := (C02_accepted_complete_legal_faithful h).1
  have hvb := effVerbose_completion hc hv
  have h1 := printsAsInt_iff hc.miter
  have h2 := printsAsInt_iff hc.msimul
  rw [← h1, ← h2]
  unfold lateRaise Opts.verbose4
  rw [hvb]
  simp only [decide_eq_true_eq]
  by_cases hge : 4 ≤ v
  · have : ¬ v < 4 := by omega
    by_cases h0 : nb + me = 0
    · have : ¬ 0 < nb + me := by omega
      simp only [hge, if_true, h0, true_and]
      split_ifs <;> simp_all
    · have : 0 < nb + me := by omega
      simp only [hge, if_true, h0, false_and, if_false]
      split_ifs <;> simp_all
  · have : v < 4 := by omega
    by_cases h0 : nb + me = 0
    · simp only [hge, if_false, h0, true_and]
      cases near <;> simp [this]
    · have h00 : 0 < nb + me := by omega
      simp only [hge, if_false, h0, false_and, this, h00, true_or, and_true, true_and]

/-- C80, the Hessian: it can be computed without an exception from the options exactly if the BFGS mode is not chosen or the
undocumented attribute `bfgs_restart` is given. -/
theorem C80_hessian_read_partial (u o : Opts) (h : validate u = .ok o) (ex : Extra) :
    hessRaise o ex = none ↔ (ChoosesBfgs u → ex.bfgsRestart = true) := by
  have hc := (C02_accepted_complete_legal_faithful h).1.hess
  have key : o.hessApprox = some (.code 130) ↔ ChoosesBfgs u := by
    unfold ChoosesBfgs
    cases hu : u.hessApprox with
    | none => rw [hc.2 hu]; simp
    | some w =>
      cases w with
      | code k =>
        exfalso
        obtain ⟨s, k', e, -⟩ := ((C01_accepts_iff_legal u).1 ⟨o, h⟩).hess _ hu
        cases e
      | str s =>
        obtain ⟨k, hk, ho⟩ := hc.1 s hu
        rw [ho]
        constructor
        · intro e; simp only [Option.some.injEq, PyName.code.injEq] at e; subst e; exact ⟨s, rfl, hk⟩
        · rintro ⟨s', e, h'⟩
          simp only [Option.some.injEq, PyName.str.injEq] at e
          subst e
          cases hk with
          | bfgs _ => rfl
          | model hm =>
            exfalso
            cases h' with
            | bfgs hb => exact bfgs_ne_model hb hm
  unfold hessRaise
  have h130 : Status.bfgs = 130 := rfl
  rw [h130]
  by_cases hb : ChoosesBfgs u
  · have := key.2 hb
    cases ex.bfgsRestart <;> simp [hb, this]
  · have : ¬ o.hessApprox = some (.code 130) := fun e => hb (key.1 e)
    cases ex.bfgsRestart <;> simp [hb, this]

namespace Ex

/-- Kernels of the examples. -/
def wKern : Kernels ℚ Unit := ⟨nrm1, id, id, descOrder, fun _ => (), fun _ _ _ _ => ⟨[], []⟩⟩

/-- A call in one variable from 0 without explicit bounds. -/
def wArgs (o : Opts) : Args ℚ := ⟨.inst o, .fn, .mat 1 1 [0], .missing, .missing, 0, 0, .missing, none, none⟩

/-- Status of a finished call. -/
def wStatus : CallRes ℚ Unit → Option ℕ
  | .done _ s => some s.ev.flag
  | .early fl _ => some fl
  | _ => none

/-- An exception before the main loop. -/
def wRaised : CallRes ℚ Unit → Bool
  | .raised => true
  | _ => false

/-- No attribute is set beyond the documented ones. -/
def wPlain : Extra := ⟨false, false, false⟩

/-- No limit of the iterations, at most 4 evaluations. -/
def wNoLimit (v : Int) : Opts :=
  { Opts.empty with verbose := some v, miter := some .pinf, msimul := some (.fin 4), finalDegree := some (.str "linear".toList) }

end Ex

/-- The negation, first case: without a limit of the iterations (legal, the limit of the evaluations ends the run) the call ends
regularly with verbosity 3 and raises with verbosity 4. -/
theorem C80_verbosity_raises :
    (∃ o, validate (Ex.wNoLimit 4) = .ok o) ∧
    Ex.wRaised (call Ex.wKern Ex.down 1 [Ex.orc [1] 1, Ex.orc [2] 1, Ex.orc [3] 1, Ex.orc [4] 1] (Ex.wArgs (Ex.wNoLimit 4)) Ex.wPlain .fresh) = true ∧
    Ex.wStatus (call Ex.wKern Ex.down 1 [Ex.orc [1] 1, Ex.orc [2] 1, Ex.orc [3] 1, Ex.orc [4] 1] (Ex.wArgs (Ex.wNoLimit 3)) Ex.wPlain .fresh) = some 6 := by
  refine ⟨⟨_, rfl⟩, ?_, ?_⟩ <;> decide +kernel

/-- The negation, second case: from verbosity 4 on every problem without bounds and constraints raises, whatever else the user sets. -/
theorem C80_unconstrained_raises (u o : Opts) (h : validate u = .ok o) (v : Int) (hv : EffVerbose u v) (h4 : 4 ≤ v) (ex : Extra)
    (near : Bool) : lateRaise o ex 0 0 near ≠ none := by
  rw [Ne, C80_initial_reads_partial u o h v hv]
  omega

/-- The negation, third case: the documented BFGS mode raises at the first Hessian. -/
theorem C80_bfgs_raises : ∃ u o, validate u = .ok o ∧ ChoosesBfgs u ∧ hessRaise o Ex.wPlain = some .bfgsRestart := by
  refine ⟨{ Opts.empty with hessApprox := some (.str "BFGS".toList) }, _, rfl, ⟨_, rfl, .bfgs ?_⟩, rfl⟩
  rw [← normName_eq_iff]
  decide

/-- The regular cases are not empty. -/
example : ∃ o, validate Opts.empty = .ok o ∧ EffVerbose Opts.empty 1 ∧ lateRaise o Ex.wPlain 1 0 true = none ∧ hessRaise o Ex.wPlain = none :=
  ⟨_, rfl, Or.inr ⟨rfl, fun _ h => by cases h⟩, rfl, rfl⟩
example : ∃ o, validate { Opts.empty with verbose := some 5, miter := some (.fin 7) } = .ok o ∧ lateRaise o Ex.wPlain 1 0 true = none :=
  ⟨_, rfl, rfl⟩

#print axioms C80_initial_reads_partial
#print axioms C80_hessian_read_partial
#print axioms C80_verbosity_raises
#print axioms C80_unconstrained_raises
#print axioms C80_bfgs_raises

end Sqpdfo
