import Verif.Spec.Options

/-! Auxiliary lemmas about option names and field checks. -/

namespace Sqpdfo
open Spec

theorem upper_iff (d : Char) : (d.val ≥ 'A'.val ∧ d.val ≤ 'Z'.val) ↔ ('A' ≤ d ∧ d ≤ 'Z') := by
  rfl

theorem toLower_of_upper {d : Char} (h : 'A' ≤ d ∧ d ≤ 'Z') :
    d.toLower.toNat = d.toNat + 32 := by
  have h' : d.val ≥ 'A'.val ∧ d.val ≤ 'Z'.val := h
  have hz : d.val.toNat ≤ 90 := h'.2
  simp only [Char.toLower, h', and_self, dite_true, Char.toNat]
  show (d.val + 32).toNat = _
  rw [UInt32.toNat_add]
  have : (32 : UInt32).toNat = 32 := rfl
  omega

theorem toLower_of_not_upper {d : Char} (h : ¬ ('A' ≤ d ∧ d ≤ 'Z')) : d.toLower = d := by
  have h' : ¬ (d.val ≥ 'A'.val ∧ d.val ≤ 'Z'.val) := h
  simp only [Char.toLower, h', dite_false]

theorem toLower_space_iff (d : Char) : d.toLower = ' ' ↔ d = ' ' := by
  by_cases h : 'A' ≤ d ∧ d ≤ 'Z'
  · have h1 := toLower_of_upper h
    have hA : 65 ≤ d.toNat := h.1
    constructor
    · intro h2
      rw [h2] at h1
      have : (' ' : Char).toNat = 32 := rfl
      omega
    · intro h2
      rw [h2] at hA
      have : (' ' : Char).toNat = 32 := rfl
      omega
  · rw [toLower_of_not_upper h]

theorem toLower_eq_iff (c d : Char) : d.toLower = c ↔
    (d = c ∧ ¬ ('A' ≤ d ∧ d ≤ 'Z')) ∨ ('A' ≤ d ∧ d ≤ 'Z' ∧ c.toNat = d.toNat + 32) := by
  by_cases h : 'A' ≤ d ∧ d ≤ 'Z'
  · have h1 := toLower_of_upper h
    constructor
    · intro h2
      right
      refine ⟨h.1, h.2, ?_⟩
      rw [← h2, h1]
    · rintro (h2 | h2)
      · exact absurd h h2.2
      · apply Char.ext
        apply UInt32.toNat_inj.mp
        show d.toLower.toNat = c.toNat
        rw [h1, h2.2.2]
  · rw [toLower_of_not_upper h]
    constructor
    · intro h2
      left
      exact ⟨h2, h⟩
    · rintro (h2 | h2)
      · exact h2.1
      · exact absurd ⟨h2.1, h2.2.1⟩ h

theorem normName_cons (d : Char) (s : List Char) :
    normName (d :: s) = if d = ' ' then normName s else d.toLower :: normName s := by
  unfold normName
  by_cases h : d = ' '
  · have := (toLower_space_iff d).mpr h
    simp [h, show Char.toLower ' ' = ' ' from rfl]
  · have : d.toLower ≠ ' ' := fun h' => h ((toLower_space_iff d).mp h')
    simp [h, this]

/-- The code's normalisation decides the specification relation. -/
theorem normName_eq_iff (s w : List Char) : normName s = w ↔ Spells w s := by
  induction s generalizing w with
  | nil =>
    constructor
    · intro h
      have : w = [] := by rw [← h]; rfl
      subst this
      exact .done
    · intro h
      cases h
      rfl
  | cons d s ih =>
    rw [normName_cons]
    by_cases h : d = ' '
    · subst h
      simp only [if_true]
      rw [ih]
      constructor
      · exact .space
      · intro h
        cases h with
        | space h => exact h
        | letter c _ hd _ _ => exact absurd rfl hd
    · simp only [h, if_false]
      constructor
      · intro h2
        subst h2
        exact .letter _ _ h ((toLower_eq_iff _ _).mp rfl) ((ih _).mp rfl)
      · intro h2
        cases h2 with
        | space h2 => exact absurd rfl h
        | letter c _ hd hc hs =>
          rw [(toLower_eq_iff _ _).mpr hc, (ih _).mpr hs]

theorem le_zero_iff (v : Fl ℚ) : v.le (.fin 0) = false ↔ PosOrNan v := by
  cases v <;> simp [Fl.le, PosOrNan]

theorem lt_zero_iff (v : Fl ℚ) : v.lt (.fin 0) = false ↔ NonnegOrNan v := by
  cases v <;> simp [Fl.lt, NonnegOrNan]

theorem eq_zero_iff (v : Fl ℚ) : v.eq (.fin 0) = true ↔ v = .fin 0 := by
  cases v <;> simp [Fl.eq]

/-- Result of a positive-number check. -/
theorem checkPos_ok (d : Fl ℚ) (g : Option (Fl ℚ)) (v : Fl ℚ) :
    checkPos d g = .ok v ↔ (g = none ∧ v = d) ∨ (g = some v ∧ PosOrNan v) := by
  cases g with
  | none => simp [checkPos, eq_comm]
  | some u =>
    have := le_zero_iff u
    simp only [checkPos]
    cases h : u.le (.fin 0)
    · have hp := this.mp h
      simp only [Bool.false_eq_true, if_false, Except.ok.injEq, reduceCtorEq, false_and,
        Option.some.injEq, false_or]
      constructor
      · rintro rfl; exact ⟨rfl, hp⟩
      · exact fun h => h.1
    · have hp : ¬ PosOrNan u := fun hp => by simp [this.mpr hp] at h
      simp only [if_true, reduceCtorEq, false_and, Option.some.injEq, false_or, false_iff]
      rintro ⟨rfl, h2⟩
      exact hp h2

theorem checkPos_err (d : Fl ℚ) (g : Option (Fl ℚ)) (e : FieldFail) :
    checkPos d g = .error e ↔ e = .reject ∧ ∃ v, g = some v ∧ ¬ PosOrNan v := by
  cases g with
  | none => simp [checkPos]
  | some u =>
    have := le_zero_iff u
    simp only [checkPos]
    cases h : u.le (.fin 0)
    · have hp := this.mp h
      simp [hp]
    · have hp : ¬ PosOrNan u := fun hp => by simp [this.mpr hp] at h
      simp [hp, eq_comm]

theorem checkTol_ok (g : Option (Fl ℚ)) (v : Fl ℚ) :
    checkTol g = .ok v ↔ (g = none ∧ v = defTol) ∨ (g = some (.fin 0) ∧ v = defTol) ∨
      (g = some v ∧ v ≠ .fin 0 ∧ NonnegOrNan v) := by
  cases g with
  | none => simp [checkTol, eq_comm]
  | some u =>
    have h1 := lt_zero_iff u
    have h2 := eq_zero_iff u
    simp only [checkTol]
    cases h : u.lt (.fin 0)
    · have hp := h1.mp h
      cases h' : u.eq (.fin 0)
      · have hq : u ≠ .fin 0 := fun hq => by simp [h2.mpr hq] at h'
        simp only [Bool.false_eq_true, if_false, Except.ok.injEq, reduceCtorEq, false_and,
          Option.some.injEq, false_or, hq]
        constructor
        · rintro rfl; exact ⟨rfl, hq, hp⟩
        · exact fun h => h.1
      · have hq := h2.mp h'
        subst hq
        simp only [Bool.false_eq_true, if_false, if_true, Except.ok.injEq, reduceCtorEq,
          false_and, Option.some.injEq, false_or, true_and]
        constructor
        · rintro rfl; exact Or.inl rfl
        · rintro (h | ⟨h, h3, _⟩)
          · exact h.symm
          · exact absurd h.symm h3
    · have hp : ¬ NonnegOrNan u := fun hp => by simp [h1.mpr hp] at h
      have hq : u ≠ .fin 0 := by
        rintro rfl
        simp [Fl.lt] at h
      simp only [if_true, reduceCtorEq, false_and, Option.some.injEq, hq, false_or, false_iff]
      rintro ⟨rfl, _, h2⟩
      exact hp h2

theorem checkTol_err (g : Option (Fl ℚ)) (e : FieldFail) :
    checkTol g = .error e ↔ e = .reject ∧ ∃ v, g = some v ∧ ¬ NonnegOrNan v := by
  cases g with
  | none => simp [checkTol]
  | some u =>
    have := lt_zero_iff u
    simp only [checkTol]
    cases h : u.lt (.fin 0)
    · have hp := this.mp h
      cases u.eq (.fin 0) <;> simp [hp]
    · have hp : ¬ NonnegOrNan u := fun hp => by simp [this.mpr hp] at h
      simp [hp, eq_comm]

/-- A word table implements a word relation. -/
def TableFor (t : List (String × ℕ)) (W : List Char → ℕ → Prop) : Prop :=
  ∀ s, (∀ e, t.find? (fun e => normName s = e.1.toList) = some e → W s e.2) ∧
    (t.find? (fun e => normName s = e.1.toList) = none → ∀ k, ¬ W s k)

theorem table_of {t : List (String × ℕ)} {W : List Char → ℕ → Prop}
    (h1 : ∀ e ∈ t, ∀ s, Spells e.1.toList s → W s e.2)
    (h2 : ∀ s k, W s k → ∃ e ∈ t, Spells e.1.toList s) : TableFor t W := by
  intro s
  constructor
  · intro e he
    have h3 := List.find?_some he
    simp only [decide_eq_true_eq, normName_eq_iff] at h3
    exact h1 e (List.mem_of_find?_eq_some he) s h3
  · intro hn k hk
    rw [List.find?_eq_none] at hn
    obtain ⟨e, he, hs⟩ := h2 s k hk
    have := hn e he
    simp only [decide_eq_true_eq, normName_eq_iff] at this
    exact this hs

theorem algo_table : TableFor algoTable AlgoWord := by
  refine table_of ?_ ?_
  · intro e he s hs
    simp only [algoTable, List.mem_cons, List.not_mem_nil, or_false] at he
    rcases he with rfl | rfl
    · exact .powell hs
    · exact .wolfe hs
  · intro s k hk
    cases hk with
    | powell h => exact ⟨("powell", Status.powell), by simp [algoTable], h⟩
    | wolfe h => exact ⟨("wolfe", Status.wolfe), by simp [algoTable], h⟩

theorem hess_table : TableFor hessTable HessWord := by
  refine table_of ?_ ?_
  · intro e he s hs
    simp only [hessTable, List.mem_cons, List.not_mem_nil, or_false] at he
    rcases he with rfl | rfl
    · exact .bfgs hs
    · exact .model hs
  · intro s k hk
    cases hk with
    | bfgs h => exact ⟨("bfgs", Status.bfgs), by simp [hessTable], h⟩
    | model h => exact ⟨("model", Status.model), by simp [hessTable], h⟩

theorem model_table : TableFor modelTable ModelWord := by
  refine table_of ?_ ?_
  · intro e he s hs
    simp only [modelTable, List.mem_cons, List.not_mem_nil, or_false] at he
    rcases he with rfl | rfl | rfl | rfl
    · exact .subbasis hs
    · exact .frobnorm hs
    · exact .l2norm hs
    · exact .regression hs
  · intro s k hk
    cases hk with
    | subbasis h => exact ⟨("subbasis", Status.subbasis), by simp [modelTable], h⟩
    | frobnorm h => exact ⟨("frobnorm", Status.frobnorm), by simp [modelTable], h⟩
    | l2norm h => exact ⟨("l2norm", Status.l2norm), by simp [modelTable], h⟩
    | regression h => exact ⟨("regression", Status.regression), by simp [modelTable], h⟩

theorem degree_table : TableFor degreeTable DegreeWord := by
  refine table_of ?_ ?_
  · intro e he s hs
    simp only [degreeTable, List.mem_cons, List.not_mem_nil, or_false] at he
    rcases he with rfl | rfl | rfl
    · exact .linear hs
    · exact .diagonal hs
    · exact .quadratic hs
  · intro s k hk
    cases hk with
    | linear h => exact ⟨("linear", Status.linear), by simp [degreeTable], h⟩
    | diagonal h => exact ⟨("diagonal", Status.diagonal), by simp [degreeTable], h⟩
    | quadratic h => exact ⟨("quadratic", Status.quadratic), by simp [degreeTable], h⟩

theorem checkName_ok {t W} (ht : TableFor t W) {d : ℕ} {g : Option PyName} {k : ℕ}
    (h : checkName t d g = .ok k) :
    (g = none ∧ k = d) ∨ ∃ s, g = some (.str s) ∧ W s k := by
  cases g with
  | none => left; simp [checkName] at h; exact ⟨rfl, h.symm⟩
  | some v =>
    cases v with
    | code c => simp [checkName] at h
    | str s =>
      right
      simp only [checkName] at h
      split at h
      · rename_i e he
        have := (ht s).1 e he
        simp only [Except.ok.injEq] at h
        exact ⟨s, rfl, h ▸ this⟩
      · simp at h

theorem checkName_err {t W} (ht : TableFor t W) {d : ℕ} {g : Option PyName} {e : FieldFail}
    (h : checkName t d g = .error e) :
    (e = .raises ∧ ∃ c, g = some (.code c)) ∨
      (e = .reject ∧ ∃ s, g = some (.str s) ∧ ∀ k, ¬ W s k) := by
  cases g with
  | none => simp [checkName] at h
  | some v =>
    cases v with
    | code c =>
      simp only [checkName, Except.error.injEq] at h
      exact Or.inl ⟨h.symm, c, rfl⟩
    | str s =>
      simp only [checkName] at h
      split at h
      · simp at h
      · rename_i hn
        simp only [Except.error.injEq] at h
        exact Or.inr ⟨h.symm, s, rfl, (ht s).2 hn⟩

theorem liftField_ok {α} {o : Opts} {r : Except FieldFail α} {a : α} :
    liftField o r = .ok a ↔ r = .ok a := by
  cases r with
  | ok b => simp [liftField]
  | error e => cases e <;> simp [liftField]

end Sqpdfo
