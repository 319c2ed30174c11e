import Verif.Model.InitSet
import Verif.Props.C06_C08_Eval
import Mathlib.Algebra.Order.Archimedean.Basic
import Mathlib.Algebra.Order.Field.Power

/-! # Lemmas on the initial sampling -/

set_option linter.unusedSectionVars false

namespace Sqpdfo
open Spec
variable {K : Type} [Field K] [LinearOrder K] [IsStrictOrderedRing K]

/-- Number of calls and flag after one evaluation, whatever index is used. -/
theorem augmX_count {P : Type} (U : User P K) (y : P) (m : ℕ) (s s' : EvSt P K)
    (h : augmX U (.fin big) y m s = some s') :
    s'.nsimul = s.nsimul + 1 ∧ s'.w.logF = s.w.logF ++ [y] ∧
      s'.X = setOrAppend s.X m y ∧
      (s'.flag = 3 ∧ s'.fX = s.fX ∨
        s'.flag = s.flag ∧ ∃ v, s'.fX = setOrAppend s.fX m v) := by
  have hlog := (sqpdfoFunc_spec U y s.w).1
  simp only [augmX] at h
  split at h
  · cases h
  · cases h
  · repeat' split at h
    all_goals
      simp only [Option.some.injEq] at h
      subst h
      refine ⟨rfl, hlog, rfl, ?_⟩
      first | exact Or.inl ⟨rfl, rfl⟩ | exact Or.inr ⟨rfl, _, rfl⟩

/-- The state reached by a pass, if there is one. -/
def SampleRes.st? {P K : Type} : SampleRes P K → Option (EvSt P K)
  | .crash => none
  | .failed s => some s
  | .broke s => some s
  | .full s => some s

theorem samplePass_count {P : Type} (U : User P K) : ∀ (ys : List P) (i : ℕ) (s s' : EvSt P K),
    (samplePass U ys i s).st? = some s' → s'.nsimul ≤ s.nsimul + ys.length ∧
      s'.nsimul + s.w.logF.length = s.nsimul + s'.w.logF.length := by
  intro ys
  induction ys with
  | nil => intro i s s' h; simp [samplePass, SampleRes.st?] at h; subst h; simp
  | cons y ys ih =>
    intro i s s' h
    simp only [samplePass] at h
    split at h
    · simp [SampleRes.st?] at h
    · rename_i t ht
      obtain ⟨h1, h2, -, -⟩ := augmX_count U y i s t ht
      have h2' : t.w.logF.length = s.w.logF.length + 1 := by rw [h2]; simp
      split at h
      · simp only [SampleRes.st?, Option.some.injEq] at h; subst h
        simp only [List.length_cons]; omega
      · split at h
        · simp [SampleRes.st?] at h
        · split at h
          · simp only [SampleRes.st?, Option.some.injEq] at h; subst h
            simp only [List.length_cons]; omega
          · have := ih _ _ _ h
            simp only [List.length_cons]; omega

/-- A complete pass has recorded a value for every point and not failed. -/
theorem samplePass_full {P : Type} (U : User P K) : ∀ (ys : List P) (i : ℕ) (s s' : EvSt P K),
    samplePass U ys i s = .full s' → s.X.length = i → s.fX.length = i → s.flag = 0 →
    s'.X = s.X ++ ys ∧ s'.fX.length = i + ys.length ∧ s'.flag = 0 ∧
      (∃ vs, s'.fX = s.fX ++ vs ∧ ∀ v ∈ vs, tooBig v = false) := by
  intro ys
  induction ys with
  | nil =>
    intro i s s' h h1 h2 h3; simp [samplePass] at h; subst h
    refine ⟨by simp, by simpa using h2, h3, [], by simp, by simp⟩
  | cons y ys ih =>
    intro i s s' h h1 h2 h3
    simp only [samplePass] at h
    split at h
    · cases h
    · rename_i t ht
      obtain ⟨-, -, g3, g4⟩ := augmX_count U y i s t ht
      split at h
      · cases h
      · rename_i hfl
        have hfl0 : t.flag = 0 := by simpa using hfl
        rcases g4 with ⟨g4, _⟩ | ⟨g4, v, g5⟩
        · omega
        · have hX : t.X = s.X ++ [y] := by rw [g3]; simp [setOrAppend, h1]
          have hf : t.fX = s.fX ++ [v] := by rw [g5]; simp [setOrAppend, h2]
          split at h
          · cases h
          · rename_i v' hv'
            split at h
            · cases h
            · rename_i hbig
              have hvv : v' = v := by
                rw [hf, List.getElem?_append_right (by omega)] at hv'
                simpa [h2] using hv'.symm
              subst hvv
              obtain ⟨e1, e2, e3, vs, e4, e5⟩ := ih (i + 1) t s' h (by simp [hX, h1])
                (by simp [hf, h2]) hfl0
              refine ⟨by simp [e1, hX], by simp [e2]; omega, e3, v' :: vs, by simp [e4, hf], ?_⟩
              intro u hu
              rcases List.mem_cons.1 hu with rfl | hu
              · simpa using hbig
              · exact e5 u hu

theorem samplePass_broke_flag {P : Type} (U : User P K) :
    ∀ (ys : List P) (i : ℕ) (s s' : EvSt P K), samplePass U ys i s = .broke s' → s'.flag = 0 := by
  intro ys
  induction ys with
  | nil => intro i s s' h; simp [samplePass] at h
  | cons y ys ih =>
    intro i s s' h
    simp only [samplePass] at h
    split at h
    · cases h
    · split at h
      · cases h
      · rename_i hfl
        split at h
        · cases h
        · split at h
          · cases h; simpa using hfl
          · exact ih _ _ _ h

theorem samplePass_broke_val {P : Type} (U : User P K) :
    ∀ (ys : List P) (i : ℕ) (s s' : EvSt P K), samplePass U ys i s = .broke s' →
      ∃ v ∈ s'.fX, tooBig v = true := by
  intro ys
  induction ys with
  | nil => intro i s s' h; simp [samplePass] at h
  | cons y ys ih =>
    intro i s s' h
    simp only [samplePass] at h
    split at h
    · cases h
    · split at h
      · cases h
      · split at h
        · cases h
        · rename_i v hv
          split at h
          · rename_i hb
            cases h; exact ⟨v, List.mem_of_getElem? hv, hb⟩
          · exact ih _ _ _ h

/-- The state reached by the sampling loop, if there is one. -/
def InitRes.st? {K : Type} : InitRes K → Option (EvSt (List K) K)
  | .crash => none
  | .running => none
  | .failed s => some s
  | .stalled s => some s
  | .done _ s => some s

theorem initLoop_count (U : User (List K) K) (x0 : List K) (nx : K) :
    ∀ (N : ℕ) (Δ : K) (s s' : EvSt (List K) K), (initLoop U x0 nx N Δ s).st? = some s' →
    s'.nsimul ≤ s.nsimul + N * (x0.length + 1) ∧
      s'.nsimul + s.w.logF.length = s.nsimul + s'.w.logF.length := by
  intro N
  induction N with
  | zero => intro Δ s s' h; simp [initLoop, InitRes.st?] at h
  | succ N ih =>
    intro Δ s s' h
    have hlen : (simplex x0 Δ).length = x0.length + 1 := by simp [simplex]
    have hc := samplePass_count U (simplex x0 Δ) 0
      ({ s with X := [], fX := [], ceX := [] } : EvSt (List K) K)
    rw [hlen] at hc
    rw [Nat.succ_mul]
    simp only [initLoop] at h
    cases hp : samplePass U (simplex x0 Δ) 0
        ({ s with X := [], fX := [], ceX := [] } : EvSt (List K) K) with
    | crash => rw [hp] at h; simp [InitRes.st?] at h
    | failed t =>
      rw [hp] at h
      simp only [InitRes.st?, Option.some.injEq] at h; subst h
      have := hc t (by rw [hp]; rfl)
      simp only at this; omega
    | full t =>
      rw [hp] at h
      have := hc t (by rw [hp]; rfl)
      simp only at h this
      split at h
      · simp [InitRes.st?] at h
      · split at h
        · simp [InitRes.st?] at h
        · simp only [InitRes.st?, Option.some.injEq] at h; subst h
          simp only; omega
    | broke t =>
      rw [hp] at h
      have := hc t (by rw [hp]; rfl)
      simp only at h this
      split at h
      · simp [InitRes.st?] at h
      · split at h
        · simp [InitRes.st?] at h
        · split at h
          · simp only [InitRes.st?, Option.some.injEq] at h; subst h
            simp only; omega
          · have h2 := ih _ _ _ h
            simp only at h2; omega

/-- The loop stops as soon as the radius has become negligible. -/
theorem initLoop_stops (U : User (List K) K) (x0 : List K) (nx : K) :
    ∀ (N : ℕ) (Δ : K) (s : EvSt (List K) K), (1 / 100) ^ N * Δ < stallfact * nx → 0 < N →
    initLoop U x0 nx N Δ s ≠ .running := by
  intro N
  induction N with
  | zero => intro Δ s _ h; omega
  | succ N ih =>
    intro Δ s hΔ _
    simp only [initLoop]
    split
    · simp
    · simp
    · split
      · simp
      · split <;> simp
    · split
      · simp
      · split
        · simp
        · split_ifs with hst
          · simp
          · have hN : 0 < N := by
              rcases Nat.eq_zero_or_pos N with rfl | h
              · exfalso; apply hst; simpa using hΔ
              · exact h
            exact ih _ _ (by rw [pow_succ] at hΔ; rw [← mul_assoc]; exact hΔ) hN

end Sqpdfo
