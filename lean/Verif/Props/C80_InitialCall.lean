import Verif.Props.C81_Whole

/-! # C80 for calls: which calls raise between sampling and main loop -/

set_option linter.unusedSectionVars false

namespace Sqpdfo
open Spec
variable {K F : Type} [Field K] [LinearOrder K] [IsStrictOrderedRing K]

/-- All components of the point are at least `1e-5` away from both bounds. -/
def Spec.Apart (vs : List (Var K)) (x : List K) : Prop :=
  List.Forall₂ (fun v t => 1 / 100000 ≤ |v.lb - t| ∧ 1 / 100000 ≤ |v.ub - t|) vs x

theorem bounded_iff {u o : Opts} (hc : Completion u o) (vs : List (Var K)) (hne : vs ≠ []) :
    0 < nbBounds (infOf o) (vs.map fun v => (v.lb, v.ub)) ↔ Bounded u vs := by
  refine ⟨fun h => ?_, bounded_pos hc vs hne⟩
  cases hu : u.inf with
  | none => exact Or.inl hu
  | some w =>
    unfold nbBounds infOf at h
    rw [List.countP_pos_iff, hc.inf.1 _ hu] at h
    obtain ⟨b, hb, h⟩ := h
    obtain ⟨v, hv, rfl⟩ := List.mem_map.1 hb
    cases w with
    | nan => simp [Fl.cast, Fl.neg, Fl.lt] at h
    | pinf => exact Or.inr (Or.inl hu)
    | ninf => simp [Fl.cast, Fl.neg, Fl.lt] at h
    | fin q => exact Or.inr (Or.inr ⟨q, hu, v, hv, by simpa [Fl.cast, Fl.neg, Fl.lt] using h⟩)

theorem near_iff : ∀ (vs : List (Var K)) (x : List K), vs.length = x.length →
    (nearAny (vs.map fun v => (v.lb, v.ub)) x = false ↔ Apart vs x)
  | [], [], _ => by simp [nearAny, Apart]
  | [], _ :: _, h => by simp at h
  | _ :: _, [], h => by simp at h
  | v :: vs, t :: x, h => by
    have ih := near_iff vs x (by simpa using h)
    unfold nearAny Apart at *
    rw [List.forall₂_cons, ← ih, List.map_cons, List.zip_cons_cons, List.any_cons, Bool.or_eq_false_iff, Bool.or_eq_false_iff,
      decide_eq_false_iff_not, decide_eq_false_iff_not, not_lt, not_lt]

/-- **C80 (calls).** Between the sampling and the main loop of a call with arguments of the right types, `x` being the first sampled point and `m` the
number of constraint values: below verbosity 4 nothing is raised exactly if there is a bound (below `options.inf`) or a constraint or `x` is
away from all bounds; from verbosity 4 on, exactly if there is a bound or a constraint and both limits are finite. -/
theorem C80_calls_partial (k : Kernels K F) (U : User (List K) K) (m : ℕ) (hC : Counts U m) (fuel : ℕ) (a : Args K) (ex : Extra)
    (g : Globals K) (hw : WellFormed a) (i : MainIn K) (h : (setup U k.sqrt k.nrm fuel a g).res = .go i) (v : Int)
    (hv : EffVerbose (userOpts a.opts) v) :
    ∃ x X, i.ev.X = x :: X ∧ (prelimRaise ex i = none ↔
      (v < 4 ∧ (0 < m ∨ Bounded (userOpts a.opts) (boxes a) ∨ Apart (boxes a) x)) ∨
      (4 ≤ v ∧ (0 < m ∨ Bounded (userOpts a.opts) (boxes a)) ∧ FiniteLimit (userOpts a.opts).miter ∧
        FiniteLimit (userOpts a.opts).msimul)) := by
  obtain ⟨hA, hB, hval, hne, Δ, ys, h1, h2, h3⟩ := setup_go U _ _ _ _ _ hw i h
  obtain ⟨o, g', lb, ub, Δ', ys', hval', -, hcb, -, -, hzip, he⟩ := setup_checked U k.sqrt k.nrm fuel a g hw hA hB
  rw [h1] at hcb
  cases hcb
  obtain ⟨D, zs, d1, d2, d3, d4, -⟩ := C04_initial_points (boxes a) (proper_bounds _ _ _ h1 h2)
  rw [h1] at d1
  cases d1
  have hX := (C48_done_complete U _ _ _ _ _ _ _ rfl h3).2.1
  have hc := (C02_accepted_complete_legal_faithful hval).1
  have hlb : i.lb = lb ∧ i.ub = ub := by
    rw [he] at h
    unfold setupTail at h
    split at h
    · cases h
    dsimp only at h
    split at h
    · cases h
    · cases h
    · cases h
    · cases h
    · split at h
      · split at h
        · cases h
        · cases h; exact ⟨rfl, rfl⟩
      · cases h; exact ⟨rfl, rfl⟩
  have hrows : ceRows i.ev = m := ceRows_eq k U m hC _ _ _ _ _ _ h3
  have hdim : dimOf i.ev = (boxes a).length := by
    unfold dimOf; rw [hX]
    simp only [simplex]
    exact d4.length_eq.symm
  have hvb : varBounds i = (boxes a).map (fun v => (v.lb, v.ub)) := by
    unfold varBounds; rw [hdim, hlb.1, hlb.2]; exact hzip
  have hX' : i.ev.X = ys.map (·.1) :: (simplex (ys.map (·.1)) i.Δ).tail := by rw [hX]; rfl
  refine ⟨_, _, hX', ?_⟩
  unfold prelimRaise
  rw [C80_initial_reads_partial _ i.opts hval v hv, hrows, hvb, hX']
  dsimp only
  rw [near_iff _ _ d4.length_eq, ← bounded_iff hc (boxes a) hne]
  constructor
  · rintro (⟨q1, q2⟩ | ⟨q1, q2, q3⟩)
    · refine Or.inl ⟨q1, ?_⟩
      rcases q2 with q2 | q2
      · by_cases hm : 0 < m
        · exact Or.inl hm
        · exact Or.inr (Or.inl (by omega))
      · exact Or.inr (Or.inr q2)
    · exact Or.inr ⟨q1, by omega, q3⟩
  · rintro (⟨q1, q2 | q2 | q2⟩ | ⟨q1, q2, q3⟩)
    · exact Or.inl ⟨q1, Or.inl (by omega)⟩
    · exact Or.inl ⟨q1, Or.inl (by omega)⟩
    · exact Or.inl ⟨q1, Or.inr q2⟩
    · exact Or.inr ⟨q1, by omega, q3⟩

namespace Ex

/-- Three iterations; numbers from 1 on count as infinite. -/
def wFar (v : Int) : Opts := { wThree with inf := some (.fin 1), verbose := some v }

/-- The bounds `-2` and `2` count as infinite then. -/
def wNarrow (v : Int) : Args ℚ := { wArgs (wFar v) with lb := .col [-2], ub := .col [2] }

/-- A box of width `2e-6` whose bounds count as infinite. -/
def wTiny (v : Int) : Args ℚ :=
  { wArgs { wThree with inf := some (.fin (1 / 1000000)), verbose := some v } with lb := .col [-1 / 1000000], ub := .col [1 / 1000000] }

/-- A set-up that reaches the main loop. -/
def wRaises (a : Args ℚ) : Option Bool :=
  match (setup down wKern.sqrt wKern.nrm 1 a .fresh).res with
  | .go i => some (prelimRaise wPlain i).isSome
  | _ => none

end Ex

/-- A start point near bounds that count as infinite raises, a start point away from such bounds does not below verbosity 4. -/
example : Ex.wRaises (Ex.wTiny 3) = some true ∧ Ex.wRaises (Ex.wNarrow 3) = some false ∧ Ex.wRaises (Ex.wNarrow 4) = some true := by
  refine ⟨?_, ?_, ?_⟩ <;> decide +kernel

/-- Without bounds below `options.inf` the call ends regularly with verbosity 3 and raises with verbosity 4. -/
example :
    Ex.wStatus (call Ex.wKern Ex.down 1 [Ex.orc [1] 1, Ex.orc [2] 1, Ex.orc [3] 1, Ex.orc [4] 1] (Ex.wNarrow 3) Ex.wPlain .fresh) = some 5 ∧
    Ex.wRaised (call Ex.wKern Ex.down 1 [Ex.orc [1] 1, Ex.orc [2] 1, Ex.orc [3] 1, Ex.orc [4] 1] (Ex.wNarrow 4) Ex.wPlain .fresh) = true := by
  refine ⟨?_, ?_⟩ <;> decide +kernel

/-- Lower and upper bounds are looked at. -/
example : nearAny [((0 : ℚ), 5)] [1 / 1000000] = true ∧ nearAny [((-5 : ℚ), 0)] [1 / 1000000] = true ∧ nearAny [((-5 : ℚ), 5)] [0] = false := by
  decide +kernel

end Sqpdfo

#print axioms Sqpdfo.C80_calls_partial
