import Verif.Props.C88_BllsDescent

/-! # C88, continued: the projected backtracking of the bounded least-squares solver

When the minimiser over the face of the Cauchy point is outside the bounds, the solver projects the
points `x + 2^-k (y - x)` and takes the first one which passes its test.  The test allows increases of
the residual. -/

set_option linter.unusedSectionVars false

namespace Sqpdfo
open Spec
variable {K : Type} [Field K] [LinearOrder K] [IsStrictOrderedRing K] {m n : ℕ}

/-- The point `2^-k` of the way from `x` to `y`. -/
def Spec.Toward (x y : Fin n → K) (k : ℕ) : Fin n → K :=
  fun i => (1 - (1 / 2) ^ k) * x i + (1 / 2) ^ k * y i

/-- `t` is `z`, each component moved to the bound it violates. -/
def Spec.Projected (lb ub : Fin n → Option K) (z t : Fin n → K) : Prop :=
  Within lb ub t ∧ ∀ i, t i = z i ∨ lb i = some (t i) ∧ z i < t i ∨ ub i = some (t i) ∧ t i < z i

/-- The test of the code for the point `t` at `2^-k`, `rx`, `ry`, `rt` being the norms of the residuals
of `x`, `y`, `t`: an increase by a hundredth of the expected decrease is allowed. -/
def Spec.Passes (rx ry : K) (k : ℕ) (rt : K) : Prop := rt ≤ rx + 1 / 100 * (1 / 2) ^ k * (rx - ry)

theorem clip_projected (p : BllsIn K m n) (hc : Consistent p.lb p.ub) (z : Fin n → K) :
    Projected p.lb p.ub z (p.clip z) := by
  refine ⟨clip_within p hc z, fun i => ?_⟩
  have hci := hc i
  unfold BllsIn.clip
  cases hl : p.lb i with
  | none =>
    cases hu : p.ub i with
    | none => left; rfl
    | some u =>
      simp only [atLeast, atMost]
      rcases le_or_gt (z i) u with h | h
      · left; exact min_eq_left h
      · right; right
        rw [min_eq_right h.le]; exact ⟨rfl, h⟩
  | some l =>
    cases hu : p.ub i with
    | none =>
      simp only [atLeast, atMost]
      rcases le_or_gt l (z i) with h | h
      · left; exact max_eq_left h
      · right; left
        rw [max_eq_right h.le]; exact ⟨rfl, h⟩
    | some u =>
      simp only [atLeast, atMost]
      have hlu := hci l u hl hu
      rcases le_or_gt l (z i) with h | h
      · rw [max_eq_left h]
        rcases le_or_gt (z i) u with h' | h'
        · left; exact min_eq_left h'
        · right; right
          rw [min_eq_right h'.le]; exact ⟨rfl, h'⟩
      · right; left
        rw [max_eq_right h.le, min_eq_left hlu]; exact ⟨rfl, h⟩

theorem projected_unique {lb ub : Fin n → Option K} {z t t' : Fin n → K}
    (h : Projected lb ub z t) (h' : Projected lb ub z t') : t = t' := by
  funext i
  have w := h.1 i
  have w' := h'.1 i
  have up : ∀ a b : K, InB (lb i) (ub i) a → InB (lb i) (ub i) b →
      (a = z i ∨ lb i = some a ∧ z i < a ∨ ub i = some a ∧ a < z i) →
      (b = z i ∨ lb i = some b ∧ z i < b ∨ ub i = some b ∧ b < z i) → a ≤ b := by
    intro a b wa wb ha hb
    rcases ha with rfl | ⟨h1, h2⟩ | ⟨h1, h2⟩
    · rcases hb with rfl | ⟨h3, h4⟩ | ⟨h3, h4⟩
      · exact le_rfl
      · exact h4.le
      · exact wa.2 _ h3
    · exact wb.1 _ h1
    · rcases hb with rfl | ⟨h3, h4⟩ | ⟨h3, h4⟩
      · exact h2.le
      · exact (h2.trans h4).le
      · rw [h1] at h3; cases h3; exact le_rfl
  exact le_antisymm (up _ _ w w' (h.2 i) (h'.2 i)) (up _ _ w' w (h'.2 i) (h.2 i))

/-- A free variable is beyond a bound. -/
def bViol (p : BllsIn K m n) (free : List (Fin n)) (z : Fin n → K) : Prop :=
  ∃ i ∈ free, belowB (p.lb i) (z i) = true ∨ aboveB (p.ub i) (z i) = true

theorem bViol_iff (p : BllsIn K m n) (free : List (Fin n)) (z : Fin n → K) :
    bViol p free z ↔ ¬ ((free.filter fun i => belowB (p.lb i) (z i)).length +
      (free.filter fun i => aboveB (p.ub i) (z i)).length = 0) := by
  rw [Nat.add_eq_zero_iff, List.length_eq_zero_iff, List.length_eq_zero_iff,
    List.filter_eq_nil_iff, List.filter_eq_nil_iff]
  unfold bViol
  constructor
  · rintro ⟨i, hi, h | h⟩ ⟨h1, h2⟩
    · exact h1 i hi h
    · exact h2 i hi h
  · intro h
    by_contra hn
    push Not at hn
    exact h ⟨fun i hi => (hn i hi).1, fun i hi => (hn i hi).2⟩

/-- The point tried with step length `α`. -/
def bTry (s y : Fin n → K) (α : K) : Fin n → K := fun i => (1 - α) * s i + α * y i

theorem backtrack_spec (p : BllsIn K m n) (y : Fin n → K) (rred : K) :
    ∀ (r kb : ℕ) (α : K) (S : BState K m n),
      ((backtrack p y rred r kb α S).2 = true →
        ∃ k, k < r ∧
          (∀ j < k, bViol p S.free (bTry S.s y (α * (1 / 2) ^ j)) ∧
            ¬ p.nrmM (p.resid (p.clip (bTry S.s y (α * (1 / 2) ^ j)))) ≤
              S.resn - cArmijo * (α * (1 / 2) ^ j) * rred) ∧
          bViol p S.free (bTry S.s y (α * (1 / 2) ^ k)) ∧
          p.nrmM (p.resid (p.clip (bTry S.s y (α * (1 / 2) ^ k)))) ≤
              S.resn - cArmijo * (α * (1 / 2) ^ k) * rred ∧
          (backtrack p y rred r kb α S).1.s = p.clip (bTry S.s y (α * (1 / 2) ^ k))) ∧
      ((backtrack p y rred r kb α S).2 = false →
        ∃ k, k ≤ r ∧
          (∀ j < k, bViol p S.free (bTry S.s y (α * (1 / 2) ^ j)) ∧
            ¬ p.nrmM (p.resid (p.clip (bTry S.s y (α * (1 / 2) ^ j)))) ≤
              S.resn - cArmijo * (α * (1 / 2) ^ j) * rred) ∧
          (k < r → ¬ bViol p S.free (bTry S.s y (α * (1 / 2) ^ k)))) := by
  intro r
  induction r with
  | zero =>
    intro kb α S
    exact ⟨fun h => (by cases h), fun _ => ⟨0, le_rfl, fun j hj => absurd hj (Nat.not_lt_zero j),
      fun h => absurd h (lt_irrefl 0)⟩⟩
  | succ r ih =>
    intro kb α S
    have e0 : α * (1 / 2) ^ 0 = α := by ring
    have es : ∀ j, 1 / 2 * α * (1 / 2) ^ j = α * (1 / 2) ^ (j + 1) := fun j => by ring
    unfold backtrack
    simp only
    split
    · rename_i h0
      refine ⟨fun h => (by cases h), fun _ => ⟨0, Nat.zero_le _,
        fun j hj => absurd hj (Nat.not_lt_zero j), fun _ hv => ?_⟩⟩
      rw [e0] at hv
      exact (bViol_iff _ _ _).1 hv h0
    · rename_i h0
      have hv : bViol p S.free (bTry S.s y α) := (bViol_iff _ _ _).2 h0
      split
      · rename_i h1
        refine ⟨fun _ => ⟨0, Nat.succ_pos _, fun j hj => absurd hj (Nat.not_lt_zero j), ?_, ?_, ?_⟩,
          fun h => (by cases h)⟩
        · rw [e0]; exact hv
        · rw [e0]; exact h1
        · rw [e0]; rfl
      · rename_i h1
        obtain ⟨i1, i2⟩ := ih (kb + 1) (1 / 2 * α) { S with
            natlbt := S.free.filter fun i => belowB (p.lb i) ((1 - α) * S.s i + α * y i)
            natubt := S.free.filter fun i => aboveB (p.ub i) ((1 - α) * S.s i + α * y i)
            kb := kb, backs := S.backs + 1 }
        have hj : ∀ k, (∀ j < k, bViol p S.free (bTry S.s y (α * (1 / 2) ^ (j + 1))) ∧
            ¬ p.nrmM (p.resid (p.clip (bTry S.s y (α * (1 / 2) ^ (j + 1))))) ≤
              S.resn - cArmijo * (α * (1 / 2) ^ (j + 1)) * rred) →
            ∀ j < k + 1, bViol p S.free (bTry S.s y (α * (1 / 2) ^ j)) ∧
            ¬ p.nrmM (p.resid (p.clip (bTry S.s y (α * (1 / 2) ^ j)))) ≤
              S.resn - cArmijo * (α * (1 / 2) ^ j) * rred := by
          intro k hk j hj
          cases j with
          | zero => rw [e0]; exact ⟨hv, h1⟩
          | succ j => exact hk j (by omega)
        simp only [es] at i1 i2
        refine ⟨fun h => ?_, fun h => ?_⟩
        · obtain ⟨k, k1, k2, k3, k4, k5⟩ := i1 h
          exact ⟨k + 1, by omega, hj k k2, k3, k4, k5⟩
        · obtain ⟨k, k1, k2, k3⟩ := i2 h
          exact ⟨k + 1, by omega, hj k k2, fun hk => k3 (by omega)⟩

/-- The state after the Cauchy point `c` (`blls.py` L168-L186). -/
def afterCauchy (p : BllsIn K m n) (S : BState K m n) (kc : ℕ) (c : Fin n → K) : BState K m n :=
  let al := (List.finRange n).filter fun i => nearB (p.lb i) (c i)
  let au := (List.finRange n).filter fun i => nearB (p.ub i) (c i)
  { S with
    s := putBounds p al au c
    res := p.resid (putBounds p al au c)
    resn := p.nrmM (p.resid (putBounds p al au c))
    atlb := al
    atub := au
    trials := S.trials + kc }

theorem cauchy_clip (p : BllsIn K m n) (s g : Fin n → K) : ∀ (r kc : ℕ) (a : K),
    ∃ t : K, (cauchy p s g r kc a).2 = p.clip (s - t • g) := by
  intro r
  induction r with
  | zero =>
    intro kc a
    unfold cauchy
    simp only [ite_self]
    exact ⟨a, rfl⟩
  | succ r ih =>
    intro kc a
    unfold cauchy
    simp only
    split
    · exact ⟨a, rfl⟩
    · exact ih _ _

theorem bllsIter_shape (p : BllsIn K m n) (S T : BState K m n) (opt : K)
    (h : bllsIter p S = some (T, opt)) :
    ∃ (kc : ℕ) (c : Fin n → K), (∃ t : K, c = p.clip (S.s - t • p.grad S.res)) ∧
      (((afterCauchy p S kc c).free.length = 0 ∨ (afterCauchy p S kc c).resn ≤ cRes) ∧
          T = afterCauchy p S kc c ∧ opt = 0 ∨
        ¬ ((afterCauchy p S kc c).free.length = 0 ∨ (afterCauchy p S kc c).resn ≤ cRes) ∧
          T = subLoop p n (afterCauchy p S kc c)) := by
  unfold bllsIter at h
  simp only at h
  split at h
  · cases h
  refine ⟨(cauchy p S.s (p.grad S.res) 14 1 ((p.nrmN (p.grad S.res) /
    p.nrmM (p.A.mulVec (p.grad S.res))) ^ 2)).1, _, cauchy_clip p S.s (p.grad S.res) 14 1 ((p.nrmN (p.grad S.res) /
    p.nrmM (p.A.mulVec (p.grad S.res))) ^ 2), ?_⟩
  split at h
  · rename_i hc
    obtain ⟨rfl, rfl⟩ := Prod.mk.inj (Option.some.inj h)
    exact Or.inl ⟨hc, rfl, rfl⟩
  · rename_i hc
    obtain ⟨rfl, -⟩ := Prod.mk.inj (Option.some.inj h)
    exact Or.inr ⟨hc, rfl⟩

/-- The nested search, first pass with a candidate beyond the bounds. -/
theorem subLoop_outside (p : BllsIn K m n) (r : ℕ) (S : BState K m n) (hu : S.nuns = 0)
    (hv : bViol p S.free (putBounds p S.atlb S.atub (p.pinv S.free (p.rhs S.atlb S.atub)))) :
    ∃ (B : BState K m n × Bool), B = backtrack p
        (putBounds p S.atlb S.atub (p.pinv S.free (p.rhs S.atlb S.atub)))
        (p.nrmM (p.resid (putBounds p S.atlb S.atub (p.pinv S.free (p.rhs S.atlb S.atub)))) - S.resn)
        4 1 1 S.countSub ∧ (B.2 = true → subLoop p (r + 1) S = B.1) := by
  refine ⟨_, rfl, fun h => ?_⟩
  have hf : S.countSub.free = S.free := rfl
  have ha : S.countSub.atlb = S.atlb := rfl
  have hb : S.countSub.atub = S.atub := rfl
  have hn : S.countSub.nuns = 0 := hu
  have hr : S.countSub.resn = S.resn := rfl
  have h0 := (bViol_iff _ _ _).1 hv
  unfold subLoop
  simp only [hf, ha, hb, hn, hr]
  rw [if_pos (by omega), if_pos h]

/-- **C88, backtracking.**  One iteration, provided that no earlier backtracking was given up.  `c` is the
Cauchy point, `x` the same with components within `1e-12` of a bound moved to it, `y` a minimiser of the residual
over the face.  The iteration ends at `x` (no free variable, or residual at most `1e-11`), or at
`y` if it is within the bounds, or at the projection of the first of the points `x + 2^-k (y - x)`,
`k < 4`, that passes the test, as long as the points are outside the bounds; or no such point passes.
Missing: the result in the last case, where the solver moves on to other faces. -/
theorem C88_backtrack_partial (p : BllsIn K m n) (hc : Consistent p.lb p.ub)
    (hgap : ∀ i l u, p.lb i = some l → p.ub i = some u → l + 2 / 10 ^ 12 < u)
    (hL : LeastSq p.A p.pinv)
    (S T : BState K m n) (opt : K) (hu : S.nuns = 0) (h : bllsIter p S = some (T, opt)) :
    ∃ c x y : Fin n → K, Within p.lb p.ub c ∧ Within p.lb p.ub x ∧ OnFace p.lb p.ub c x ∧
      (∀ i, x i ≠ c i → Touch (p.lb i) (c i) ∨ Touch (p.ub i) (c i)) ∧
      OnFace p.lb p.ub c y ∧
      (∀ z, OnFace p.lb p.ub c z → SSq p.A p.b y ≤ SSq p.A p.b z) ∧
      (opt = 0 ∧ T.s = x ∧ ((∀ i, Touch (p.lb i) (c i) ∨ Touch (p.ub i) (c i)) ∨
          p.nrmM (p.A.mulVec x - p.b) ≤ 1 / 10 ^ 11) ∨
        1 / 10 ^ 11 < p.nrmM (p.A.mulVec x - p.b) ∧
        (Within p.lb p.ub y ∧ T.s = y ∨
          ¬ Within p.lb p.ub y ∧ ∃ k ≤ 4,
            (∀ j < k, ¬ Within p.lb p.ub (Toward x y j) ∧
              ∀ t, Projected p.lb p.ub (Toward x y j) t →
                ¬ Passes (p.nrmM (p.A.mulVec x - p.b)) (p.nrmM (p.A.mulVec y - p.b)) j
                  (p.nrmM (p.A.mulVec t - p.b))) ∧
            ((k < 4 ∧ ¬ Within p.lb p.ub (Toward x y k) ∧
                Projected p.lb p.ub (Toward x y k) T.s ∧
                Passes (p.nrmM (p.A.mulVec x - p.b)) (p.nrmM (p.A.mulVec y - p.b)) k
                  (p.nrmM (p.A.mulVec T.s - p.b))) ∨
              (k < 4 → Within p.lb p.ub (Toward x y k))))) := by
  obtain ⟨kc, c, ⟨t, hct⟩, hT⟩ := bllsIter_shape p S T opt h
  have hcw : Within p.lb p.ub c := by rw [hct]; exact clip_within p hc _
  set al := (List.finRange n).filter (fun i => nearB (p.lb i) (c i)) with hal
  set au := (List.finRange n).filter (fun i => nearB (p.ub i) (c i)) with hau
  set S1 := afterCauchy p S kc c with hS1
  have s1s : S1.s = putBounds p al au c := rfl
  have s1r : S1.resn = p.nrmM (p.resid (putBounds p al au c)) := rfl
  have s1l : S1.atlb = al := rfl
  have s1u : S1.atub = au := rfl
  have s1n : S1.nuns = 0 := hu
  have hml : ∀ i, i ∈ al ↔ Touch (p.lb i) (c i) := fun i => by
    rw [hal, List.mem_filter, nearB_iff]; simp
  have hmu : ∀ i, i ∈ au ↔ Touch (p.ub i) (c i) := fun i => by
    rw [hau, List.mem_filter, nearB_iff]; simp
  have hndl : al.Nodup := (List.nodup_finRange n).filter _
  have hndu : au.Nodup := (List.nodup_finRange n).filter _
  have hfree : ∀ i, i ∈ S1.free ↔ i ∉ al ∧ i ∉ au := fun i => mem_free S1 i
  have hnf : S1.free.Nodup := (List.nodup_finRange n).filter _
  have hd : ∀ i, i ∈ al → i ∉ au := by
    intro i h1 h2
    obtain ⟨l, hl, h1⟩ := (hml i).1 h1
    obtain ⟨u, hu, h2⟩ := (hmu i).1 h2
    have h3 := hgap i l u hl hu
    have h4 := abs_le.1 h1
    have h5 := abs_le.1 h2
    have h6 : (2 : K) / 10 ^ 12 = 1 / 10 ^ 12 + 1 / 10 ^ 12 := by ring
    linarith [h4.2, h5.1]
  have hbl : ∀ i ∈ al, p.lb i = some (bval (p.lb i)) := by
    intro i h1
    obtain ⟨l, hl, _⟩ := (hml i).1 h1
    rw [hl]; rfl
  have hbu : ∀ i ∈ au, p.ub i = some (bval (p.ub i)) := by
    intro i h1
    obtain ⟨l, hl, _⟩ := (hmu i).1 h1
    rw [hl]; rfl
  have pbl : ∀ v, ∀ i ∈ al, putBounds p al au v i = bval (p.lb i) := fun v i hi => by
    simp only [putBounds, hd i hi, hi, if_true, if_false]
  have pbu : ∀ v, ∀ i ∈ au, putBounds p al au v i = bval (p.ub i) := fun v i hi => by
    simp only [putBounds, hi, if_true]
  have hface : ∀ v, OnFace p.lb p.ub c (putBounds p al au v) := fun v =>
    ⟨fun i hi => by rw [pbl v i ((hml i).2 hi)]; exact hbl i ((hml i).2 hi),
      fun i hi => by rw [pbu v i ((hmu i).2 hi)]; exact hbu i ((hmu i).2 hi)⟩
  have hxw : Within p.lb p.ub (putBounds p al au c) := by
    intro i
    by_cases h1 : i ∈ al
    · rw [pbl c i h1]
      exact inB_lo (hc i) (by rw [hbl i h1]; simp)
    · by_cases h2 : i ∈ au
      · rw [pbu c i h2]
        exact inB_hi (hc i) (by rw [hbu i h2]; simp)
      · rw [putBounds_free p al au c i h1 h2]; exact hcw i
  -- outside the bounds means: a free variable is
  have hout : ∀ v w (a : K), ¬ Within p.lb p.ub (bTry (putBounds p al au v) (putBounds p al au w) a) ↔
      bViol p S1.free (bTry (putBounds p al au v) (putBounds p al au w) a) := by
    intro v w a
    constructor
    · intro hn
      by_contra hv
      refine hn fun i => ?_
      by_cases h1 : i ∈ al
      · have e : bTry (putBounds p al au v) (putBounds p al au w) a i = bval (p.lb i) := by
          simp only [bTry, pbl _ i h1]; ring
        rw [e]
        exact inB_lo (hc i) (by rw [hbl i h1]; simp)
      · by_cases h2 : i ∈ au
        · have e : bTry (putBounds p al au v) (putBounds p al au w) a i = bval (p.ub i) := by
            simp only [bTry, pbu _ i h2]; ring
          rw [e]
          exact inB_hi (hc i) (by rw [hbu i h2]; simp)
        · have hi := (hfree i).2 ⟨h1, h2⟩
          have hb : ¬ (belowB (p.lb i) (bTry (putBounds p al au v) (putBounds p al au w) a i) = true ∨
            aboveB (p.ub i) (bTry (putBounds p al au v) (putBounds p al au w) a i) = true) :=
            fun hb => hv ⟨i, hi, hb⟩
          rw [not_or] at hb
          refine ⟨fun l hl => ?_, fun u hu => ?_⟩
          · rw [hl] at hb
            exact not_lt.1 fun hlt => hb.1 (by simp [belowB, hlt])
          · rw [hu] at hb
            exact not_lt.1 fun hlt => hb.2 (by simp [aboveB, hlt])
    · rintro ⟨i, -, hb⟩ hw
      rcases hb with hb | hb
      · rw [not_belowB (hw i).1] at hb; cases hb
      · rw [not_aboveB (hw i).2] at hb; cases hb
  set x := putBounds p al au c with hx
  set y := putBounds p al au (p.pinv S1.free (p.rhs al au)) with hy
  refine ⟨c, x, y, hcw, hxw, hface _, fun i hi => ?_, hface _, fun z hz => ?_, ?_⟩
  · by_contra hno
    rw [not_or] at hno
    exact hi (putBounds_free p al au c i (fun hm => hno.1 ((hml i).1 hm)) (fun hm => hno.2 ((hmu i).1 hm)))
  · refine sub_min p hL al au S1.free hndl hndu hnf hd hfree z ?_ ?_
    · intro i hi
      rw [hz.1 i ((hml i).1 hi)]; rfl
    · intro i hi
      rw [hz.2 i ((hmu i).1 hi)]; rfl
  rcases hT with ⟨hend, rfl, rfl⟩ | ⟨hne, rfl⟩
  · left
    refine ⟨rfl, rfl, ?_⟩
    rcases hend with h0 | h0
    · left
      intro i
      rw [List.length_eq_zero_iff, List.eq_nil_iff_forall_not_mem] at h0
      have h1 := h0 i
      rw [hfree] at h1
      by_contra hno
      rw [not_or] at hno
      exact h1 ⟨fun hm => hno.1 ((hml i).1 hm), fun hm => hno.2 ((hmu i).1 hm)⟩
    · right; exact h0
  right
  rw [not_or] at hne
  refine ⟨not_le.1 hne.2, ?_⟩
  have hn : n ≠ 0 := by
    rintro rfl
    apply hne.1
    rw [List.length_eq_zero_iff, List.eq_nil_iff_forall_not_mem]
    exact fun i => i.elim0
  have hsucc : n = (n - 1) + 1 := by omega
  have hsub : ∀ T' : BState K m n, subLoop p n S1 = T' ↔ subLoop p ((n - 1) + 1) S1 = T' := fun T' => by
    rw [← hsucc]
  by_cases hw : Within p.lb p.ub y
  · left
    refine ⟨hw, ?_⟩
    rw [(hsub _).2 rfl]
    exact subLoop_within p (n - 1) S1 hw
  right
  refine ⟨hw, ?_⟩
  have e1 : ∀ k : ℕ, bTry x y (1 * (1 / 2) ^ k) = Toward x y k := fun k => by
    unfold bTry Toward; simp only [one_mul]
  have hv : bViol p S1.free y := by
    have := (hout c (p.pinv S1.free (p.rhs al au)) 1)
    have e : bTry x y 1 = y := by funext i; simp only [bTry]; ring
    rw [← hx, ← hy, e] at this
    exact this.1 hw
  obtain ⟨B, hB, hB'⟩ := subLoop_outside p (n - 1) S1 s1n hv
  have hspec := backtrack_spec p y (p.nrmM (p.resid y) - S1.resn) 4 1 1 S1.countSub
  have hB1 : backtrack p y (p.nrmM (p.resid y) - S1.resn) 4 1 1 S1.countSub = B := hB.symm
  rw [hB1] at hspec
  have c1 : S1.countSub.s = x := rfl
  have c2 : S1.countSub.free = S1.free := rfl
  have c3 : S1.countSub.resn = p.nrmM (p.resid x) := rfl
  rw [c1, c2, c3, s1r] at hspec
  simp only [e1] at hspec
  have hout' : ∀ k : ℕ, bViol p S1.free (Toward x y k) ↔ ¬ Within p.lb p.ub (Toward x y k) := fun k => by
    rw [← e1 k]; exact (hout c _ _).symm
  have hpass : ∀ (k : ℕ) (r : K), r ≤ p.nrmM (p.resid x) - cArmijo * (1 * (1 / 2) ^ k) *
      (p.nrmM (p.resid y) - p.nrmM (p.resid x)) ↔
      Passes (p.nrmM (p.A.mulVec x - p.b)) (p.nrmM (p.A.mulVec y - p.b)) k r := fun k r => by
    unfold Passes cArmijo BllsIn.resid
    constructor <;> intro h <;> linarith
  have hfail : ∀ k : ℕ, (∀ j < k, bViol p S1.free (Toward x y j) ∧
      ¬ p.nrmM (p.resid (p.clip (Toward x y j))) ≤ p.nrmM (p.resid x) - cArmijo * (1 * (1 / 2) ^ j) *
        (p.nrmM (p.resid y) - p.nrmM (p.resid x))) →
      ∀ j < k, ¬ Within p.lb p.ub (Toward x y j) ∧
        ∀ t, Projected p.lb p.ub (Toward x y j) t →
          ¬ Passes (p.nrmM (p.A.mulVec x - p.b)) (p.nrmM (p.A.mulVec y - p.b)) j
            (p.nrmM (p.A.mulVec t - p.b)) := by
    intro k hk j hj
    obtain ⟨a1, a2⟩ := hk j hj
    refine ⟨(hout' j).1 a1, fun t ht hp => a2 ?_⟩
    rw [hpass, ← projected_unique ht (clip_projected p hc _)]
    exact hp
  cases hb : B.2 with
  | true =>
    obtain ⟨k, k1, k2, k3, k4, k5⟩ := hspec.1 hb
    have hTs : (subLoop p n S1).s = p.clip (Toward x y k) := by
      rw [(hsub _).2 rfl, hB' hb, k5]
    refine ⟨k, k1.le, hfail k k2, Or.inl ⟨k1, (hout' k).1 k3, ?_, ?_⟩⟩
    · rw [hTs]; exact clip_projected p hc _
    · rw [hTs, ← hpass]; exact k4
  | false =>
    obtain ⟨k, k1, k2, k3⟩ := hspec.2 hb
    refine ⟨k, k1, hfail k k2, Or.inr fun hk => ?_⟩
    by_contra hno
    exact k3 hk ((hout' k).2 hno)

/-- Consequence: as long as the norm is not negative, an iteration that ends at a projected point
increases the residual of the Cauchy point by at most one per cent. -/
theorem C88_one_percent (rx ry rt : K) (k : ℕ) (hy : 0 ≤ ry) (hx : 0 ≤ rx) (h : Passes rx ry k rt) :
    rt ≤ 101 / 100 * rx := by
  unfold Passes at h
  have h1 : (1 / 2 : K) ^ k ≤ 1 := pow_le_one₀ (by norm_num) (by norm_num)
  have h2 : 0 ≤ (1 / 2 : K) ^ k := by positivity
  have h3 : (1 / 2 : K) ^ k * (rx - ry) ≤ rx := by
    calc (1 / 2 : K) ^ k * (rx - ry) ≤ (1 / 2 : K) ^ k * rx := by
          apply mul_le_mul_of_nonneg_left _ h2; linarith
      _ ≤ 1 * rx := mul_le_mul_of_nonneg_right h1 hx
      _ = rx := one_mul _
  linarith

/-! ### The test allows increases -/

namespace Ex

/-- The coefficients of the example. -/
def upA : Fin 3 → ℚ := ![1, 3, -1]

/-- One equation `x0 + 3 x1 - x2 = 7` in the box `[0,4] x [5,10] x [5,9]`, with the pseudo-inverse. -/
def up : BllsIn ℚ 1 3 where
  A := fun _ => upA
  b := ![7]
  lb := ![some 0, some 5, some 5]
  ub := ![some 4, some 10, some 9]
  nrmM := fun v => |v 0|
  nrmN := normUp
  pinv := fun free r i => if i ∈ free then upA i * r 0 / (free.map fun j => upA j ^ 2).sum else 0

/-- The state in which `blls_` starts. -/
def upStart : BState ℚ 1 3 :=
  ⟨![7 / 11, 5, 5], up.resid ![7 / 11, 5, 5], 40 / 11, [], [], 0, [], [], 0, false, 0, 0, 0⟩

theorem up_lstsq : LeastSq up.A up.pinv := by
  intro free r v hn
  simp only [Fin.sum_univ_one]
  cases free with
  | nil => simp
  | cons a l =>
    have hpos : 0 < ((a :: l).map fun j => upA j ^ 2).sum := by
      have h1 : 0 < upA a ^ 2 := by fin_cases a <;> simp [upA]
      have h2 : 0 ≤ (l.map fun j => upA j ^ 2).sum :=
        List.sum_nonneg (by simp only [List.mem_map]; rintro _ ⟨j, -, rfl⟩; exact sq_nonneg _)
      rw [List.map_cons, List.sum_cons]; linarith
    have h : ((a :: l).map fun i => up.A 0 i * up.pinv (a :: l) r i) =
        (a :: l).map fun i => r 0 / ((a :: l).map fun j => upA j ^ 2).sum * upA i ^ 2 := by
      refine List.map_congr_left fun i hi => ?_
      have h2 : up.pinv (a :: l) r i = upA i * r 0 / ((a :: l).map fun j => upA j ^ 2).sum := if_pos hi
      rw [h2]
      show upA i * _ = _
      ring
    rw [h, List.sum_map_mul_left, div_mul_cancel₀ _ hpos.ne', sub_self]
    exact le_trans (le_of_eq (by norm_num)) (sq_nonneg _)

end Ex

/-- The test of the backtracking has the wrong sign (L246, L288): in the first iteration of `blls_`, the
Cauchy point `c` is discarded for a projected point `T` with a larger residual. -/
theorem C88_backtrack_false : ∃ (p : BllsIn ℚ 1 3) (S T : BState ℚ 1 3) (opt : ℚ),
    Consistent p.lb p.ub ∧
    (∀ i l u, p.lb i = some l → p.ub i = some u → l + 2 / 10 ^ 12 < u) ∧
    (∀ v, p.nrmM v ^ 2 = v ⬝ᵥ v) ∧ NormUp (1 / 10 ^ 20) p.nrmN ∧ LeastSq p.A p.pinv ∧
    S.s = p.clip (p.pinv (List.finRange 3) p.b) ∧ S.res = p.resid S.s ∧ S.nuns = 0 ∧
    bllsIter p S = some (T, opt) ∧ T.s = ![0, 5, 5] ∧
    SSq p.A p.b (cauchy p S.s (p.grad S.res) 14 1
        ((p.nrmN (p.grad S.res) / p.nrmM (p.A.mulVec (p.grad S.res))) ^ 2)).2 < SSq p.A p.b T.s := by
  have hb : ∀ i l u, Ex.up.lb i = some l → Ex.up.ub i = some u → l + 2 / 10 ^ 12 < u := by
    intro i l u hl hu
    fin_cases i
    · obtain rfl : (0 : ℚ) = l := Option.some.inj hl
      obtain rfl : (4 : ℚ) = u := Option.some.inj hu
      norm_num
    · obtain rfl : (5 : ℚ) = l := Option.some.inj hl
      obtain rfl : (10 : ℚ) = u := Option.some.inj hu
      norm_num
    · obtain rfl : (5 : ℚ) = l := Option.some.inj hl
      obtain rfl : (9 : ℚ) = u := Option.some.inj hu
      norm_num
  have h : ((bllsIter Ex.up Ex.upStart).map fun r => r.1.s) = some ![0, 5, 5] := by decide +kernel
  obtain ⟨r, h1, h2⟩ := Option.map_eq_some_iff.1 h
  refine ⟨Ex.up, Ex.upStart, r.1, r.2, fun i l u hl hu => ?_, hb, fun v => ?_, Ex.normUp_spec,
    Ex.up_lstsq, by decide +kernel, rfl, rfl, h1, h2, ?_⟩
  · have := hb i l u hl hu
    have h0 : (0 : ℚ) < 2 / 10 ^ 12 := by norm_num
    linarith
  · show |v 0| ^ 2 = _
    rw [sq_abs, dotProduct, Fin.sum_univ_one, sq]
  · rw [h2]
    decide +kernel

#print axioms C88_backtrack_partial
#print axioms C88_one_percent
#print axioms C88_backtrack_false

end Sqpdfo
