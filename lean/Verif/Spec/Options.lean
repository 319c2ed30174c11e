import Verif.Model.Options

/-!
# Specification of legal options (independent of the validation code)

Only the data types (`Opts`, `Fl`, `PyName`) are shared with the model.
-/

namespace Sqpdfo.Spec

/-- `Spells w s`: the user's text `s` spells the lower-case word `w` when spaces and letter
case are ignored. -/
inductive Spells : List Char → List Char → Prop
  | done : Spells [] []
  | space {w s} : Spells w s → Spells w (' ' :: s)
  | letter {w s} (c d : Char) : d ≠ ' ' → (d = c ∧ ¬ ('A' ≤ d ∧ d ≤ 'Z') ∨
      ('A' ≤ d ∧ d ≤ 'Z' ∧ c.toNat = d.toNat + 32)) →
      Spells w s → Spells (c :: w) (d :: s)

/-- Meaning of a named option: the documented words and their codes. -/
inductive AlgoWord : List Char → ℕ → Prop
  | powell {s} : Spells "powell".toList s → AlgoWord s 120
  | wolfe {s} : Spells "wolfe".toList s → AlgoWord s 121

/-- Words of `hess_approx`. -/
inductive HessWord : List Char → ℕ → Prop
  | bfgs {s} : Spells "bfgs".toList s → HessWord s 130
  | model {s} : Spells "model".toList s → HessWord s 131

/-- Words of `whichmodel`. -/
inductive ModelWord : List Char → ℕ → Prop
  | subbasis {s} : Spells "subbasis".toList s → ModelWord s 0
  | frobnorm {s} : Spells "frobnorm".toList s → ModelWord s 1
  | l2norm {s} : Spells "l2norm".toList s → ModelWord s 2
  | regression {s} : Spells "regression".toList s → ModelWord s 3

/-- Words of `final_degree`. -/
inductive DegreeWord : List Char → ℕ → Prop
  | linear {s} : Spells "linear".toList s → DegreeWord s 140
  | diagonal {s} : Spells "diagonal".toList s → DegreeWord s 141
  | quadratic {s} : Spells "quadratic".toList s → DegreeWord s 142

/-- A number that is positive or NaN (NaN is not `<= 0` in Python). -/
def PosOrNan (v : Fl ℚ) : Prop := v = .nan ∨ v = .pinf ∨ ∃ q : ℚ, 0 < q ∧ v = .fin q

/-- A number that is nonnegative or NaN. -/
def NonnegOrNan (v : Fl ℚ) : Prop := v = .nan ∨ v = .pinf ∨ ∃ q : ℚ, 0 ≤ q ∧ v = .fin q

/-- Every attribute that should be text is text. -/
structure Typed (o : Opts) : Prop where
  algo : ∀ k, o.algoDescent ≠ some (.code k)
  hess : ∀ k, o.hessApprox ≠ some (.code k)
  model : ∀ k, o.whichmodel ≠ some (.code k)
  degree : ∀ k, o.finalDegree ≠ some (.code k)

/-- Every option that the user set lies in its legal domain. -/
structure Legal (o : Opts) : Prop where
  algo : ∀ v, o.algoDescent = some v → ∃ s k, v = .str s ∧ AlgoWord s k
  hess : ∀ v, o.hessApprox = some v → ∃ s k, v = .str s ∧ HessWord s k
  model : ∀ v, o.whichmodel = some v → ∃ s k, v = .str s ∧ ModelWord s k
  degree : ∀ v, o.finalDegree = some v → ∃ s k, v = .str s ∧ DegreeWord s k
  dxmin : ∀ v, o.dxmin = some v → PosOrNan v
  inf : ∀ v, o.inf = some v → PosOrNan v
  miter : ∀ v, o.miter = some v → PosOrNan v
  msimul : ∀ v, o.msimul = some v → PosOrNan v
  tolGrad : ∀ v, o.tolGrad = some v → NonnegOrNan v
  tolFeas : ∀ v, o.tolFeas = some v → NonnegOrNan v
  tolBnds : ∀ v, o.tolBnds = some v → NonnegOrNan v

/-- What the accepted numeric option must be: the user's value if given, otherwise the
default `d`. -/
def Faithful (given out : Option (Fl ℚ)) (d : Fl ℚ) : Prop :=
  (∀ v, given = some v → out = some v) ∧ (given = none → out = some d)

/-- Same for tolerances, where `0` means "use the default". -/
def FaithfulTol (given out : Option (Fl ℚ)) (d : Fl ℚ) : Prop :=
  (∀ v, given = some v → v ≠ .fin 0 → out = some v) ∧
  (given = some (.fin 0) → out = some d) ∧ (given = none → out = some d)

/-- Same for named options. -/
def FaithfulName (W : List Char → ℕ → Prop) (given out : Option PyName) (d : ℕ) : Prop :=
  (∀ s, given = some (.str s) → ∃ k, W s k ∧ out = some (.code k)) ∧
  (given = none → out = some (.code d))

/-- The accepted options `o'` are the completion of the user's options `o`. -/
structure Completion (o o' : Opts) : Prop where
  fout : ∃ v : Int, o'.fout = some v ∧ 0 ≤ v ∧
    (∀ u, o.fout = some u → 0 ≤ u → v = u) ∧ (o.fout = none → v = 1) ∧ (∀ u, o.fout = some u → u < 0 → v = 1)
  verbose : ∃ v : Int, o'.verbose = some v ∧ 0 ≤ v ∧ v ≤ 6 ∧
    (∀ u, o.verbose = some u → 0 ≤ u → u ≤ 6 → v = u) ∧ (o.verbose = none → v = 1) ∧
    (∀ u, o.verbose = some u → u < 0 ∨ 6 < u → v = 1)
  algo : FaithfulName AlgoWord o.algoDescent o'.algoDescent 120
  hess : FaithfulName HessWord o.hessApprox o'.hessApprox 131
  model : FaithfulName ModelWord o.whichmodel o'.whichmodel 0
  degree : FaithfulName DegreeWord o.finalDegree o'.finalDegree 141
  dxmin : Faithful o.dxmin o'.dxmin (.fin (1 / 10 ^ 8))
  inf : Faithful o.inf o'.inf .pinf
  miter : Faithful o.miter o'.miter (.fin 1000)
  msimul : Faithful o.msimul o'.msimul (.fin 1000)
  tolGrad : FaithfulTol o.tolGrad o'.tolGrad (.fin (1 / 10 ^ 5))
  tolFeas : FaithfulTol o.tolFeas o'.tolFeas (.fin (1 / 10 ^ 5))
  tolBnds : FaithfulTol o.tolBnds o'.tolBnds (.fin (1 / 10 ^ 5))

/-- Legal numeric domains of the accepted object (NaN, if given, survives). -/
structure LegalOut (o : Opts) : Prop where
  dxmin : ∃ v, o.dxmin = some v ∧ PosOrNan v
  inf : ∃ v, o.inf = some v ∧ PosOrNan v
  miter : ∃ v, o.miter = some v ∧ PosOrNan v
  msimul : ∃ v, o.msimul = some v ∧ PosOrNan v
  tolGrad : ∃ v, o.tolGrad = some v ∧ PosOrNan v
  tolFeas : ∃ v, o.tolFeas = some v ∧ PosOrNan v
  tolBnds : ∃ v, o.tolBnds = some v ∧ PosOrNan v
  algo : ∃ k, o.algoDescent = some (.code k) ∧ (k = 120 ∨ k = 121)
  hess : ∃ k, o.hessApprox = some (.code k) ∧ (k = 130 ∨ k = 131)
  model : ∃ k, o.whichmodel = some (.code k) ∧ k ≤ 3
  degree : ∃ k, o.finalDegree = some (.code k) ∧ (k = 140 ∨ k = 141 ∨ k = 142)

end Sqpdfo.Spec
