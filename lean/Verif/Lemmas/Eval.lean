import Verif.Spec.Eval
import Mathlib.Algebra.Order.Field.Basic
import Mathlib.Tactic.NormNum
import Mathlib.Tactic.Linarith

/-! Lemmas about clipping. -/

namespace Sqpdfo
open Spec
variable {P K : Type} [Field K] [LinearOrder K] [IsStrictOrderedRing K]

theorem big_pos : (0 : K) < big := by unfold big; positivity

theorem clipCe_spec (v : Fl K) (hv : v ≠ .nan) : GoodC (clipCe v) ∧ ClipC v (clipCe v) := by
  have hb : (0 : K) < 10 ^ 25 := by positivity
  cases v with
  | nan => exact absurd rfl hv
  | pinf =>
    have : clipCe (Fl.pinf : Fl K) = .fin (10 ^ 25) := by
      have : ¬ ((10 : K) ^ 25 < -10 ^ 25) := by linarith
      simp [clipCe, Fl.lt, big, this]
    rw [this]
    exact ⟨⟨_, rfl, by linarith, le_refl _⟩, by simp [ClipC]⟩
  | ninf =>
    have : clipCe (Fl.ninf : Fl K) = .fin (-10 ^ 25) := by
      simp [clipCe, Fl.lt, big]
    rw [this]
    exact ⟨⟨_, rfl, le_refl _, by linarith⟩, by simp [ClipC]⟩
  | fin q =>
    by_cases h1 : (10 : K) ^ 25 < q
    · have h2 : ¬ ((10 : K) ^ 25 < -10 ^ 25) := by linarith
      have h3 : ¬ (q < -10 ^ 25) := by linarith
      have h4 : ¬ (q ≤ 10 ^ 25) := by linarith
      have : clipCe (Fl.fin q) = .fin (10 ^ 25) := by
        simp [clipCe, Fl.lt, big, h1, h2]
      rw [this]
      exact ⟨⟨_, rfl, by linarith, le_refl _⟩, by simp [ClipC, h3, h4]⟩
    · by_cases h2 : q < -10 ^ 25
      · have : clipCe (Fl.fin q) = .fin (-10 ^ 25) := by
          simp [clipCe, Fl.lt, big, h1, h2]
        rw [this]
        have h4 : ¬ (-10 ^ 25 ≤ q) := by linarith
        exact ⟨⟨_, rfl, le_refl _, by linarith⟩, by simp [ClipC, h1, h4]⟩
      · have : clipCe (Fl.fin q) = .fin q := by
          simp [clipCe, Fl.lt, big, h1, h2]
        rw [this]
        exact ⟨⟨_, rfl, by linarith, by linarith⟩, by simp [ClipC, h1, h2]⟩

omit [IsStrictOrderedRing K] in
theorem fmin_spec (q : K) : ∃ r, (Fl.fin big).fmin (.fin q) = .fin r ∧ ClipF q r ∧ r ≤ 10 ^ 25 := by
  by_cases h : (10 : K) ^ 25 ≤ q
  · refine ⟨10 ^ 25, by simp [Fl.fmin, Fl.isNan, Fl.le, big, h], ⟨fun h' => le_antisymm h h', fun _ => rfl⟩,
      le_refl _⟩
  · exact ⟨q, by simp [Fl.fmin, Fl.isNan, Fl.le, big, h], ⟨fun _ => rfl, fun h' => absurd h'.le h⟩,
      (not_le.mp h).le⟩


/-- `sqpdfoFunc` in terms of the user's answers. -/
theorem sqpdfoFunc_spec {P K : Type} (U : User P K) (y : P) (w : World P) :
    (sqpdfoFunc U y w).2.logF = w.logF ++ [y] ∧
    (answerF U w y = .other → (sqpdfoFunc U y w).1.f = .other) ∧
    (answerF U w y = .raised → (sqpdfoFunc U y w).1.f = .num .pinf) ∧
    (∀ v, answerF U w y = .num v → (sqpdfoFunc U y w).1.f = .num v ∧
      ((sqpdfoFunc U y w).1.msg = true ↔ answerC U w y = some .raised) ∧
      (answerC U w y = none → (sqpdfoFunc U y w).1.c = []) ∧
      (answerC U w y = some .raised → (sqpdfoFunc U y w).1.c = []) ∧
      (∀ vs, answerC U w y = some (.nums vs) → (sqpdfoFunc U y w).1.c = vs)) := by
  unfold sqpdfoFunc answerF answerC
  cases hc : U.c with
  | none => cases U.f w y <;> simp
  | some cf =>
    simp only [Option.map_some]
    cases hf : U.f w y <;> cases cf { w with logF := w.logF ++ [y] } y <;> simp

end Sqpdfo
