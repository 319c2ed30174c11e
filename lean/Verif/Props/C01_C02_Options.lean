import Verif.Lemmas.Options2
import Mathlib.Tactic.NormNum

/-!
# C01, C02: option validation
-/

namespace Sqpdfo
open Spec

/-- **C01 (acceptance).** Validation succeeds exactly for legal option objects. -/
theorem C01_accepts_iff_legal (o : Opts) : (∃ o', validate o = .ok o') ↔ Legal o := by
  constructor
  · rintro ⟨o', h⟩
    obtain ⟨a, dx, i, mi, ms, tg, tf, tb, ha, wm, fd, h1, h2, h3, h4, h5, h6, h7, h8, h9, h10,
      h11, -⟩ := validate_ok.mp h
    have hpos : ∀ {d g v}, checkPos d g = .ok v → ∀ u, g = some u → PosOrNan u := by
      intro d g v h u hu
      rcases (checkPos_ok d g v).mp h with ⟨h', _⟩ | ⟨h', h''⟩
      · rw [h'] at hu; cases hu
      · rw [h'] at hu; cases hu; exact h''
    have htol : ∀ {g v}, checkTol g = .ok v → ∀ u, g = some u → NonnegOrNan u := by
      intro g v h u hu
      rcases (checkTol_ok g v).mp h with ⟨h', _⟩ | ⟨h', _⟩ | ⟨h', _, h''⟩
      · rw [h'] at hu; cases hu
      · rw [h'] at hu; cases hu; exact Or.inr (Or.inr ⟨0, le_refl _, rfl⟩)
      · rw [h'] at hu; cases hu; exact h''
    have hname : ∀ {t W d g k}, TableFor t W → checkName t d g = .ok k →
        ∀ v, g = some v → ∃ s k, v = .str s ∧ W s k := by
      intro t W d g k ht h v hv
      rcases checkName_ok ht h with ⟨h', _⟩ | ⟨s, h', h''⟩
      · rw [h'] at hv; cases hv
      · rw [h'] at hv; cases hv; exact ⟨s, k, rfl, h''⟩
    exact ⟨hname algo_table h1, hname hess_table h9, hname model_table h10,
      hname degree_table h11, hpos h2, hpos h3, hpos h4, hpos h5, htol h6, htol h7, htol h8⟩
  · intro L
    have hpos : ∀ d g, (∀ u, g = some u → PosOrNan u) → ∃ v, checkPos d g = .ok v := by
      intro d g h
      cases g with
      | none => exact ⟨d, (checkPos_ok d none d).mpr (Or.inl ⟨rfl, rfl⟩)⟩
      | some u => exact ⟨u, (checkPos_ok d _ u).mpr (Or.inr ⟨rfl, h u rfl⟩)⟩
    have htol : ∀ g, (∀ u, g = some u → NonnegOrNan u) → ∃ v, checkTol g = .ok v := by
      intro g h
      cases g with
      | none => exact ⟨defTol, (checkTol_ok none defTol).mpr (Or.inl ⟨rfl, rfl⟩)⟩
      | some u =>
        by_cases hu : u = .fin 0
        · subst hu
          exact ⟨defTol, (checkTol_ok _ _).mpr (Or.inr (Or.inl ⟨rfl, rfl⟩))⟩
        · exact ⟨u, (checkTol_ok _ _).mpr (Or.inr (Or.inr ⟨rfl, hu, h u rfl⟩))⟩
    have hname : ∀ {t W} (_ : TableFor t W) (d : ℕ) (g : Option PyName),
        (∀ v, g = some v → ∃ s k, v = .str s ∧ W s k) → ∃ k, checkName t d g = .ok k := by
      intro t W ht d g h
      cases hc : checkName t d g with
      | ok k => exact ⟨k, rfl⟩
      | error e =>
        rcases checkName_err ht hc with ⟨_, c, hg⟩ | ⟨_, s, hg, hW⟩
        · obtain ⟨s, k, hs, _⟩ := h _ hg
          cases hs
        · obtain ⟨s', k, hs, hk⟩ := h _ hg
          cases hs
          exact absurd hk (hW k)
    obtain ⟨a, h1⟩ := hname algo_table Status.powell _ L.algo
    obtain ⟨dx, h2⟩ := hpos (.fin (1 / 100000000)) _ L.dxmin
    obtain ⟨i, h3⟩ := hpos .pinf _ L.inf
    obtain ⟨mi, h4⟩ := hpos (.fin 1000) _ L.miter
    obtain ⟨ms, h5⟩ := hpos (.fin 1000) _ L.msimul
    obtain ⟨tg, h6⟩ := htol _ L.tolGrad
    obtain ⟨tf, h7⟩ := htol _ L.tolFeas
    obtain ⟨tb, h8⟩ := htol _ L.tolBnds
    obtain ⟨ha, h9⟩ := hname hess_table Status.model _ L.hess
    obtain ⟨wm, h10⟩ := hname model_table Status.subbasis _ L.model
    obtain ⟨fd, h11⟩ := hname degree_table Status.diagonal _ L.degree
    exact ⟨_, validate_ok.mpr ⟨a, dx, i, mi, ms, tg, tf, tb, ha, wm, fd, h1, h2, h3, h4, h5, h6,
      h7, h8, h9, h10, h11, rfl⟩⟩

/-- **C01 (rejection).** If all named options are text, validation never raises, and it
returns status 1 exactly for the illegal objects. -/
theorem C01_rejects_iff_illegal (o : Opts) (ht : Typed o) :
    (∀ o', validate o ≠ .error (.crash o')) ∧
    ((∃ o', validate o = .error (.rejected o')) ↔ ¬ Legal o) := by
  refine ⟨fun o' h => validate_crash h ht, ?_⟩
  rw [← C01_accepts_iff_legal]
  cases hv : validate o with
  | ok o' => simp
  | error e =>
    cases e with
    | rejected o' => simp
    | crash o' => exact absurd ht (validate_crash hv)

/-- `fout` and `verbose` have no influence on acceptance. -/
theorem C01_fout_verbose_irrelevant (o : Opts) (a b : Option Int) :
    (∃ o', validate { o with fout := a, verbose := b } = .ok o') ↔
      ∃ o', validate o = .ok o' := by
  rw [C01_accepts_iff_legal, C01_accepts_iff_legal]
  constructor <;> rintro ⟨h1, h2, h3, h4, h5, h6, h7, h8, h9, h10, h11⟩ <;>
    exact ⟨h1, h2, h3, h4, h5, h6, h7, h8, h9, h10, h11⟩

/-- An object with a mixed-case spelled name, a NaN tolerance and an out-of-range
verbosity. -/
def exampleOpts : Opts :=
  { Opts.empty with
    verbose := some 9
    algoDescent := some (.str "Po WeLL".toList)
    tolGrad := some .nan
    tolFeas := some (.fin 0)
    miter := some (.fin 7)
    finalDegree := some (.str "Quadratic".toList) }

example : ∃ o', validate exampleOpts = .ok o' ∧ o'.algoDescent = some (.code 120) ∧
    o'.verbose = some 1 ∧ o'.tolFeas = some (.fin (1 / 100000)) ∧
    o'.finalDegree = some (.code 142) := by
  refine ⟨_, rfl, ?_, rfl, rfl, ?_⟩ <;> rfl

example : Typed exampleOpts := ⟨by simp [exampleOpts, Opts.empty], by simp [exampleOpts, Opts.empty],
  by simp [exampleOpts, Opts.empty], by simp [exampleOpts, Opts.empty]⟩

/-- Illegal: a negative tolerance. -/
example : ∃ o', validate { exampleOpts with tolBnds := some (.fin (-1)) } =
    .error (.rejected o') := by
  refine ⟨_, rfl⟩

/-- **C02.** Accepted options are complete, legal and faithful to what the user gave. -/
theorem C02_accepted_complete_legal_faithful {o o' : Opts} (h : validate o = .ok o') :
    Completion o o' ∧ LegalOut o' := by
  obtain ⟨a, dx, i, mi, ms, tg, tf, tb, ha, wm, fd, h1, h2, h3, h4, h5, h6, h7, h8, h9, h10,
      h11, rfl⟩ := validate_ok.mp h
  have hpos : ∀ {d g v}, checkPos d g = .ok v → PosOrNan d →
      Faithful g (some v) d ∧ PosOrNan v := by
    intro d g v h hd
    rcases (checkPos_ok d g v).mp h with ⟨rfl, rfl⟩ | ⟨rfl, h''⟩
    · exact ⟨⟨fun u hu => (by cases hu), fun _ => rfl⟩, hd⟩
    · exact ⟨⟨fun u hu => hu.symm ▸ rfl, fun hu => (by cases hu)⟩, h''⟩
  have hdt : PosOrNan defTol := Or.inr (Or.inr ⟨1 / 100000, by norm_num, rfl⟩)
  have hdt' : defTol = .fin (1 / 10 ^ 5) := by unfold defTol; norm_num
  have htol : ∀ {g v}, checkTol g = .ok v →
      FaithfulTol g (some v) (.fin (1 / 10 ^ 5)) ∧ PosOrNan v := by
    intro g v h
    rcases (checkTol_ok g v).mp h with ⟨rfl, rfl⟩ | ⟨rfl, rfl⟩ | ⟨rfl, hv, h''⟩
    · exact ⟨⟨fun u hu => (by cases hu), fun hu => by rw [hdt'], fun _ => by rw [hdt']⟩, hdt⟩
    · exact ⟨⟨fun u hu hn => by cases hu; exact absurd rfl hn, fun hu => by rw [hdt'],
        fun _ => by rw [hdt']⟩, hdt⟩
    · refine ⟨⟨fun u hu _ => hu.symm ▸ rfl, fun hu => ?_, fun hu => (by cases hu)⟩, ?_⟩
      · cases hu; exact absurd rfl hv
      · rcases h'' with h | h | ⟨q, hq, h⟩
        · exact Or.inl h
        · exact Or.inr (Or.inl h)
        · refine Or.inr (Or.inr ⟨q, lt_of_le_of_ne hq ?_, h⟩)
          rintro rfl
          exact hv h
  have hname : ∀ {t W d g k}, TableFor t W → checkName t d g = .ok k →
      FaithfulName W g (some (.code k)) d := by
    intro t W d g k ht h
    rcases checkName_ok ht h with ⟨rfl, rfl⟩ | ⟨s, rfl, h''⟩
    · exact ⟨fun u hu => (by cases hu), fun _ => rfl⟩
    · exact ⟨fun u hu => by cases hu; exact ⟨k, h'', rfl⟩, fun hu => (by cases hu)⟩
  have e8 : (1 : ℚ) / 100000000 = 1 / 10 ^ 8 := by norm_num
  have p2 := hpos h2 (Or.inr (Or.inr ⟨_, by norm_num, rfl⟩))
  have p3 := hpos h3 (Or.inr (Or.inl rfl))
  have p4 := hpos h4 (Or.inr (Or.inr ⟨_, by norm_num, rfl⟩))
  have p5 := hpos h5 (Or.inr (Or.inr ⟨_, by norm_num, rfl⟩))
  rw [e8] at p2
  refine ⟨⟨⟨fixFout o.fout, rfl, ?_, ?_, ?_, ?_⟩, ⟨fixVerbose o.verbose, rfl, ?_, ?_, ?_, ?_, ?_⟩,
    hname algo_table h1, hname hess_table h9, hname model_table h10, hname degree_table h11,
    p2.1, p3.1, p4.1, p5.1, (htol h6).1, (htol h7).1, (htol h8).1⟩,
    ⟨⟨_, rfl, p2.2⟩, ⟨_, rfl, p3.2⟩, ⟨_, rfl, p4.2⟩, ⟨_, rfl, p5.2⟩, ⟨_, rfl, (htol h6).2⟩,
     ⟨_, rfl, (htol h7).2⟩, ⟨_, rfl, (htol h8).2⟩, ⟨_, rfl, ?_⟩, ⟨_, rfl, ?_⟩, ⟨_, rfl, ?_⟩,
     ⟨_, rfl, ?_⟩⟩⟩
  · unfold fixFout; split
    · split <;> omega
    · omega
  · intro u hu h0
    rw [hu]; simp only [fixFout]; split <;> omega
  · intro hu; rw [hu]; rfl
  · intro u hu h0
    rw [hu]; simp only [fixFout]; split <;> omega
  · unfold fixVerbose; split
    · split <;> omega
    · omega
  · unfold fixVerbose; split
    · split <;> omega
    · omega
  · intro u hu h0 h6
    rw [hu]; simp only [fixVerbose]; split <;> omega
  · intro hu; rw [hu]; rfl
  · intro u hu h0
    rw [hu]; simp only [fixVerbose]; split <;> omega
  · rcases checkName_ok algo_table h1 with ⟨_, rfl⟩ | ⟨s, _, hw⟩
    · exact Or.inl rfl
    · cases hw <;> simp
  · rcases checkName_ok hess_table h9 with ⟨_, rfl⟩ | ⟨s, _, hw⟩
    · exact Or.inr rfl
    · cases hw <;> simp
  · rcases checkName_ok model_table h10 with ⟨_, rfl⟩ | ⟨s, _, hw⟩
    · decide
    · cases hw <;> simp
  · rcases checkName_ok degree_table h11 with ⟨_, rfl⟩ | ⟨s, _, hw⟩
    · exact Or.inr (Or.inl rfl)
    · cases hw <;> simp

/-- Non-vacuity: the example object is accepted; its completion keeps the NaN. -/
example : ∃ o', validate exampleOpts = .ok o' ∧ o'.tolGrad = some .nan ∧
    o'.miter = some (.fin 7) ∧ o'.msimul = some (.fin 1000) ∧ o'.inf = some .pinf :=
  ⟨_, rfl, rfl, rfl, rfl, rfl⟩

#print axioms C01_accepts_iff_legal
#print axioms C01_rejects_iff_illegal
#print axioms C01_fout_verbose_irrelevant
#print axioms C02_accepted_complete_legal_faithful

end Sqpdfo
