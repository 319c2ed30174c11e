import Verif.Lemmas.Options

/-! The result of `validate` in terms of the single checks. -/

namespace Sqpdfo
open Spec

/-- Everything `validate` computes on success, field by field. -/
theorem validate_ok {o o' : Opts} : validate o = .ok o' ↔
    ∃ a dx inf mi ms tg tf tb ha wm fd,
      checkName algoTable Status.powell o.algoDescent = .ok a ∧
      checkPos (.fin (1 / 100000000)) o.dxmin = .ok dx ∧
      checkPos .pinf o.inf = .ok inf ∧
      checkPos (.fin 1000) o.miter = .ok mi ∧
      checkPos (.fin 1000) o.msimul = .ok ms ∧
      checkTol o.tolGrad = .ok tg ∧ checkTol o.tolFeas = .ok tf ∧ checkTol o.tolBnds = .ok tb ∧
      checkName hessTable Status.model o.hessApprox = .ok ha ∧
      checkName modelTable Status.subbasis o.whichmodel = .ok wm ∧
      checkName degreeTable Status.diagonal o.finalDegree = .ok fd ∧
      o' = ⟨some (fixFout o.fout), some (fixVerbose o.verbose), some (.code a), some dx,
        some inf, some mi, some ms, some tg, some tf, some tb, some (.code ha),
        some (.code wm), some (.code fd)⟩ := by
  have hb : ∀ {α β ε : Type} (x : Except ε α) (f : α → Except ε β) (b : β),
      x.bind f = .ok b ↔ ∃ a, x = .ok a ∧ f a = .ok b := by
    intro α β ε x f b
    cases x <;> simp [Except.bind]
  simp only [validate, bind, hb, liftField_ok, pure, Except.pure, Except.ok.injEq]
  constructor
  · rintro ⟨a, h1, dx, h2, i, h3, mi, h4, ms, h5, tg, h6, tf, h7, tb, h8, ha, h9, wm, h10, fd,
      h11, rfl⟩
    exact ⟨a, dx, i, mi, ms, tg, tf, tb, ha, wm, fd, h1, h2, h3, h4, h5, h6, h7, h8, h9, h10,
      h11, rfl⟩
  · rintro ⟨a, dx, i, mi, ms, tg, tf, tb, ha, wm, fd, h1, h2, h3, h4, h5, h6, h7, h8, h9, h10,
      h11, rfl⟩
    exact ⟨a, h1, dx, h2, i, h3, mi, h4, ms, h5, tg, h6, tf, h7, tb, h8, ha, h9, wm, h10, fd,
      h11, rfl⟩

/-- A crash comes from a non-text value of a named option. -/
theorem validate_crash {o o' : Opts} (h : validate o = .error (.crash o')) : ¬ Typed o := by
  intro ht
  have hb : ∀ {α β ε : Type} (x : Except ε α) (f : α → Except ε β) (e : ε),
      x.bind f = .error e ↔ x = .error e ∨ ∃ a, x = .ok a ∧ f a = .error e := by
    intro α β ε x f b
    cases x <;> simp [Except.bind]
  have hpos : ∀ (o : Opts) d g, liftField o (checkPos d g) ≠ .error (.crash o') := by
    intro o d g
    cases hc : checkPos d g with
    | ok v => simp [liftField]
    | error e =>
      have := ((checkPos_err d g e).mp hc).1
      subst this
      simp [liftField]
  have htol : ∀ (o : Opts) g, liftField o (checkTol g) ≠ .error (.crash o') := by
    intro o g
    cases hc : checkTol g with
    | ok v => simp [liftField]
    | error e =>
      have := ((checkTol_err g e).mp hc).1
      subst this
      simp [liftField]
  have hname : ∀ (o : Opts) {t W} (_ : TableFor t W) d g, (∀ k, g ≠ some (.code k)) →
      liftField o (checkName t d g) ≠ .error (.crash o') := by
    intro o t W htab d g hg
    cases hc : checkName t d g with
    | ok v => simp [liftField]
    | error e =>
      rcases checkName_err htab hc with ⟨_, c, h⟩ | ⟨rfl, _⟩
      · exact absurd h (hg c)
      · simp [liftField]
  simp only [validate, bind, hb, pure, Except.pure, reduceCtorEq, and_false, exists_false,
    or_false, hpos, htol, false_or, liftField_ok] at h
  rcases h with h | ⟨_, _, _, _, _, _, _, _, _, _, _, _, _, _, _, _, h | ⟨_, _, h | ⟨_, _, h⟩⟩⟩
  · exact hname _ algo_table _ _ ht.algo h
  · exact hname _ hess_table _ _ ht.hess h
  · exact hname _ model_table _ _ ht.model h
  · exact hname _ degree_table _ _ ht.degree h

end Sqpdfo
