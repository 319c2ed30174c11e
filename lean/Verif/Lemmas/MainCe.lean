import Verif.Lemmas.MainExample

/-! # Constraint data of the interpolation set along the main loop -/

set_option linter.unusedSectionVars false

namespace Sqpdfo
open Spec
variable {K F : Type} [Field K] [LinearOrder K] [IsStrictOrderedRing K]

/-- The constraint function returns `me > 0` values, none of them infinite or of size `1e25` or
more (NaN is allowed, it makes the evaluation fail). -/
structure Env.Tame (e : Env K F) : Prop where
  pos : 0 < e.me
  small : ∀ c, e.U.c = some c → ∀ w y vs, c w y = .nums vs → ∀ v ∈ vs,
    v = .nan ∨ ∃ q : K, v = .fin q ∧ |q| < 10 ^ 25

/-! ### Lists -/

theorem colK_map_fin (c : List K) : colK (c.map Fl.fin) = some c := by
  unfold colK
  induction c with
  | nil => rfl
  | cons a c ih => rw [List.map_cons, List.mapM_cons, ih]; rfl

/-- Position `j` of `ceY` holds the column of `ceX` with index `ind[j]`, except for `j` in
`pend`. -/
def Paired (ceX : List (List (Fl K))) (pend : List ℕ) (ind : List ℕ) (ceY : List (List K)) :
    Prop :=
  ind.length = ceY.length ∧ ∀ j, j ∉ pend → ∀ i, ind[j]? = some i →
    ∃ c, ceX[i]? = some (c.map Fl.fin) ∧ ceY[j]? = some c

theorem Paired.grow {ceX : List (List (Fl K))} {pend ind : List ℕ} {ceY : List (List K)}
    (h : Paired ceX pend ind ceY) (l : List (List (Fl K))) : Paired (ceX ++ l) pend ind ceY := by
  refine ⟨h.1, fun j hj i hi => ?_⟩
  obtain ⟨c, h1, h2⟩ := h.2 j hj i hi
  exact ⟨c, getElem?_append_some h1, h2⟩

theorem Paired.set {ceX : List (List (Fl K))} {j m : ℕ} {pend pend' ind : List ℕ}
    {ceY : List (List K)} {c : List K} (h : Paired ceX pend' ind ceY)
    (hp : ∀ k, k ∉ pend → k ≠ j → k ∉ pend')
    (hc : ceX[m]? = some (c.map Fl.fin)) : Paired ceX pend (ind.set j m) (ceY.set j c) := by
  refine ⟨by simp [h.1], fun k hk i hi => ?_⟩
  by_cases hkj : k = j
  · subst hkj
    have hl : k < ind.length := by
      have := (List.getElem?_eq_some_iff.1 hi).1; simpa using this
    rw [List.getElem?_set_self hl, Option.some.injEq] at hi
    subst hi
    exact ⟨c, hc, by rw [List.getElem?_set_self (by rw [← h.1]; exact hl)]⟩
  · rw [List.getElem?_set_ne (Ne.symm hkj)] at hi ⊢
    exact h.2 k (hp k hk hkj) i hi

theorem Paired.setOrAppend {ceX : List (List (Fl K))} {pos m : ℕ} {ind : List ℕ}
    {ceY : List (List K)} {c : List K} (h : Paired ceX [] ind ceY)
    (hc : ceX[m]? = some (c.map Fl.fin)) :
    Paired ceX [] (setOrAppend ind pos m) (setOrAppend ceY pos c) := by
  unfold Sqpdfo.setOrAppend
  by_cases hp : pos < ind.length
  · rw [if_pos hp, if_pos (by rw [← h.1]; exact hp)]
    exact h.set (fun _ _ _ => by simp) hc
  · rw [if_neg hp, if_neg (by rw [← h.1]; exact hp)]
    refine ⟨by simp [h.1], fun k _ i hi => ?_⟩
    by_cases hk : k < ind.length
    · rw [List.getElem?_append_left hk] at hi
      rw [List.getElem?_append_left (by rw [← h.1]; exact hk)]
      exact h.2 k (by simp) i hi
    · have hk' : k = ind.length := by
        have := (List.getElem?_eq_some_iff.1 hi).1
        simp at this; omega
      subst hk'
      rw [List.getElem?_concat_length, Option.some.injEq] at hi
      subst hi
      exact ⟨c, hc, by rw [h.1]; simp⟩

/-- The position that moves to `k` when `i` and `j` are exchanged. -/
def swapIdx (i j k : ℕ) : ℕ := if k = j then i else if k = i then j else k

theorem swapL_get {α : Type} {l l' : List α} {i j : ℕ} (h : swapL l i j = some l') :
    l'.length = l.length ∧ ∀ k, l'[k]? = l[swapIdx i j k]? := by
  unfold swapL at h
  split at h
  · rename_i a b ha hb
    simp only [Option.some.injEq] at h
    subst h
    refine ⟨by simp, fun k => ?_⟩
    have hi := (List.getElem?_eq_some_iff.1 ha).1
    have hj := (List.getElem?_eq_some_iff.1 hb).1
    unfold swapIdx
    split_ifs with h1 h2
    · subst h1; rw [List.getElem?_set_self (by simpa using hj), ha]
    · subst h2; rw [List.getElem?_set_ne (Ne.symm h1), List.getElem?_set_self hi, hb]
    · rw [List.getElem?_set_ne (Ne.symm h1), List.getElem?_set_ne (Ne.symm h2)]
  · cases h

theorem Paired.swapInY {ceX : List (List (Fl K))} {pos : ℕ} {build : List (List K) → F}
    {S S' : IntSet (List K) (List K) F K} (h : Paired ceX [] S.ind S.ceY)
    (hne : S.ceY ≠ []) (hs : swapInY build 0 pos S = some S') :
    Paired ceX [] S'.ind S'.ceY ∧ S'.ceY[0]? = S.ceY[pos]? := by
  unfold Sqpdfo.swapInY at hs
  by_cases hp : 0 = pos
  · rw [if_pos hp] at hs; cases hs; exact ⟨h, by rw [← hp]⟩
  · rw [if_neg hp] at hs
    have : ¬ 0 > pos := by omega
    simp only [if_neg this] at hs
    split at hs
    · rename_i Y ind fY ciY ceY h1 h2 h3 h4 h5
      simp only [Option.some.injEq] at hs
      subst hs
      rw [swapOpt, if_neg hne] at h5
      obtain ⟨a1, a2⟩ := swapL_get h2
      obtain ⟨b1, b2⟩ := swapL_get h5
      refine ⟨⟨by rw [a1, b1, h.1], fun k _ i hi => ?_⟩, ?_⟩
      · rw [a2] at hi
        rw [b2]
        exact h.2 _ (by simp) i hi
      · rw [b2]
        simp [swapIdx, hp]
    · cases hs

/-! ### One evaluation -/

/-- Every column of recorded constraint values is the answer of the constraint function in a call
that was really made, at the point stored under the same index. -/
def Spec.RecordedC (U : User (List K) K) (w : World (List K)) (X : List (List K))
    (ceX : List (List (Fl K))) : Prop :=
  ∀ (i : ℕ) (col : List (Fl K)), ceX[i]? = some col → ∃ (y : List K) (w' : World (List K)),
    X[i]? = some y ∧ w'.logF ++ [y] <+: w.logF ∧ answerC U w' y = some (.nums col)

theorem Spec.RecordedC.keep {U : User (List K) K} {w : World (List K)} {X : List (List K)}
    {ceX : List (List (Fl K))} (h : RecordedC U w X ceX) {y : List K} {w' : World (List K)}
    (hw : w'.logF = w.logF ++ [y]) : RecordedC U w' (X ++ [y]) ceX := by
  intro i v hv
  obtain ⟨z, w0, h1, h2, h3⟩ := h i v hv
  refine ⟨z, w0, getElem?_append_some h1, ?_, h3⟩
  rw [hw]; exact h2.trans (List.prefix_append _ _)

theorem Spec.RecordedC.append {U : User (List K) K} {w : World (List K)} {X : List (List K)}
    {ceX : List (List (Fl K))} (h : RecordedC U w X ceX) {y : List K} {w' : World (List K)}
    {col : List (Fl K)} (hl : ceX.length = X.length)
    (hw : w'.logF = w.logF ++ [y]) (hq : answerC U w y = some (.nums col)) :
    RecordedC U w' (X ++ [y]) (ceX ++ [col]) := by
  intro i v hv
  by_cases hi : i < ceX.length
  · rw [List.getElem?_append_left hi] at hv
    exact h.keep hw i v hv
  · have hi' : i = ceX.length := by
      have := (List.getElem?_eq_some_iff.1 hv).1
      simp at this; omega
    subst hi'
    simp only [List.getElem?_concat_length, Option.some.injEq] at hv
    subst hv
    exact ⟨y, w, by rw [hl]; simp, by rw [hw], hq⟩

/-- A column of `me` numbers smaller than `1e25`. -/
def GoodCol (me : ℕ) (col : List (Fl K)) : Prop :=
  ∃ c : List K, col = c.map Fl.fin ∧ c.length = me ∧ ∀ v ∈ c, |v| < 10 ^ 25

theorem augmX_tame (e : Env K F) (hC : e.Constr) (hT : e.Tame) (y : List K) (m : ℕ)
    (s s' : EvSt (List K) K) (hX : s.X.length = m) (hf : s.fX.length = m)
    (hc : s.ceX.length = m) (h : augmX e.U (.fin big) y m s = some s') :
    s'.X = s.X ++ [y] ∧ s'.w.logF = s.w.logF ++ [y] ∧
      (s'.flag = 3 ∧ s'.ceX = s.ceX ∧ s'.fX = s.fX ∨
        s'.flag = s.flag ∧ s'.fX.length = m + 1 ∧
          ∃ col, GoodCol e.me col ∧ s'.ceX = s.ceX ++ [col] ∧
            answerC e.U s.w y = some (.nums col)) := by
  obtain ⟨a1, -, a3, -, -⟩ := augmX_main e.U y m s s' hX hf hc.le h
  refine ⟨a1, a3, ?_⟩
  have ho : answerF e.U s.w y ≠ .other := by
    intro ho; rw [C06_nonnumber_raises e.U y _ s ho] at h; cases h
  obtain ⟨t, ht, he⟩ := C06_failures_reported_not_recorded e.U y m s hf.le hc.le ho
  rw [h] at ht; cases ht
  cases he with
  | fail _ g g1 g2 => exact Or.inl ⟨g, g2, g1⟩
  | good q r ce ce' hnf _ _ g1 g4 g5 g6 g2 =>
    right
    refine ⟨g5, by rw [g6]; simp [hf], ?_⟩
    rcases g1 with ⟨g1, rfl⟩ | g1
    · exfalso
      unfold answerC at g1
      rw [Option.map_eq_none_iff] at g1
      have := hC.none g1; have := hT.pos; omega
    · have g1' := g1
      unfold answerC at g1
      rw [Option.map_eq_some_iff] at g1
      obtain ⟨c, g1, g3⟩ := g1
      have hl := hC.some c g1 _ _ _ g3
      have hsm := hT.small c g1 _ _ _ g3
      have hnn : Fl.nan ∉ ce := by
        intro hn
        exact hnf (Or.inr (Or.inr (Or.inr (Or.inr (Or.inr ⟨ce, g1', hn⟩)))))
      have hall : ∀ (ce ce' : List (Fl K)), List.Forall₂ ClipC ce ce' →
          (∀ v ∈ ce, ∃ q : K, v = .fin q ∧ |q| < 10 ^ 25) →
          ∃ c : List K, ce = c.map Fl.fin ∧ ce' = ce ∧ ∀ v ∈ c, |v| < 10 ^ 25 := by
        intro ce ce' hF
        induction hF with
        | nil => intro _; exact ⟨[], rfl, rfl, by simp⟩
        | cons hv _ ih =>
          intro hh
          obtain ⟨c, b1, b2, b3⟩ := ih (fun v hv => hh v (List.mem_cons_of_mem _ hv))
          obtain ⟨q, rfl, hq⟩ := hh _ List.mem_cons_self
          have hq' := abs_lt.1 hq
          have := (hv.2.2 q rfl).2.2 hq'.1.le hq'.2.le
          refine ⟨q :: c, by rw [b1]; rfl, by rw [this, b2], ?_⟩
          intro v hv
          rcases List.mem_cons.1 hv with rfl | hv
          · exact hq
          · exact b3 v hv
      obtain ⟨c', b1, b2, b3⟩ := hall ce ce' g4 (fun v hv => by
        rcases hsm v hv with rfl | hh
        · exact absurd hv hnn
        · exact hh)
      have hce : ce ≠ [] := by
        rintro rfl; simp at hl; have := hT.pos; omega
      rcases g2 with ⟨g2, -⟩ | ⟨-, g2⟩
      · exact absurd g2 hce
      · refine ⟨ce, ⟨c', b1, ?_, b3⟩, by rw [g2, b2], g1'⟩
        rw [← hl, b1]; simp

theorem replaceHuge_good {me : ℕ} {ce : List (List (Fl K))} (h : ∀ col ∈ ce, GoodCol me col) :
    replaceHuge ce = some ce ∧ replaceHugeNeg ce = some ce := by
  have hv : ∀ q ∈ finVals ce, |q| < (10 : K) ^ 25 := by
    intro q hq
    unfold finVals at hq
    rw [List.mem_filterMap] at hq
    obtain ⟨v, hv, hq⟩ := hq
    rw [List.mem_flatten] at hv
    obtain ⟨col, hcol, hv⟩ := hv
    obtain ⟨c, rfl, -, hc⟩ := h col hcol
    obtain ⟨a, ha, rfl⟩ := List.mem_map.1 hv
    simp only [Option.some.injEq] at hq
    subst hq
    exact hc a ha
  constructor
  · unfold replaceHuge
    rw [if_neg]
    rw [List.any_eq_true]
    rintro ⟨q, hq, h1⟩
    have := (abs_lt.1 (hv q hq)).2
    have h1 := of_decide_eq_true h1
    unfold big at h1
    linarith
  · unfold replaceHugeNeg
    rw [if_neg]
    rw [List.any_eq_true]
    rintro ⟨q, hq, h1⟩
    have := (abs_lt.1 (hv q hq)).1
    have h1 := of_decide_eq_true h1
    unfold big at h1
    linarith

/-- Some recorded constraint value is nonzero. -/
def SomeNonzero (ce : List (List (Fl K))) : Prop :=
  (finVals ce).any (fun v => decide (v ≠ 0)) = true

theorem SomeNonzero.grow {ce : List (List (Fl K))} (h : SomeNonzero ce) (l : List (List (Fl K))) :
    SomeNonzero (ce ++ l) := by
  unfold SomeNonzero finVals at *
  rw [List.flatten_append, List.filterMap_append, List.any_append, h, Bool.true_or]

/-! ### The invariant -/

/-- The part that holds on return. -/
structure CeCore (e : Env K F) (pend : List ℕ) (s : MSt K F) : Prop where
  cols : ∀ col ∈ s.ev.ceX, GoodCol e.me col
  hist : RecordedC e.U s.ev.w s.ev.X s.ev.ceX
  pair : Paired s.ev.ceX pend s.set.ind s.set.ceY
  info : s.set.ceY[0]? = some s.infoCe

/-- The invariant of the constraint data between the stages of a pass. -/
structure Ce (e : Env K F) (pend : List ℕ) (s : MSt K F) : Prop extends CeCore e pend s where
  Xlen : s.ev.X.length = s.m + 1
  fXlen : s.ev.fX.length = s.m + 1
  len : s.ev.ceX.length = s.m + 1
  flag : s.ev.flag = 0
  zero : s.ceplus = [] ∨ SomeNonzero s.ev.ceX

/-- `ceplus` is the column of the last point, or still empty. -/
def Plus (s : MSt K F) : Prop :=
  s.ceplus = [] ∨ s.ev.ceX[s.m]? = some (s.ceplus.map Fl.fin)

variable {e : Env K F}

theorem evalReplaced_ce (hC : e.Constr) (hT : e.Tame) : ∀ (js : List ℕ) (s : MSt K F),
    Ce e js s → (∀ j ∈ js, 1 ≤ j) → (evalReplaced e js s).Sat (Ce e []) (fun _ => False)
      (fun _ => True) := by
  intro js
  induction js with
  | nil => intro s h _; exact h
  | cons j js ih =>
    intro s h hj
    rw [evalReplaced]
    split
    swap
    · trivial
    rename_i y _ hy _
    dsimp only
    cases ha : augmX e.U (.fin big) y (s.m + 1) s.ev with
    | none => trivial
    | some ev =>
      simp only
      obtain ⟨a1, a2, a3⟩ := augmX_tame e hC hT y _ _ _ h.Xlen h.fXlen h.len ha
      rcases a3 with ⟨-, -, a3⟩ | ⟨hfl, hlen, col, hcol, hce, hans⟩
      · rw [a3, List.getElem?_eq_none_iff.2 h.fXlen.le]; trivial
      split
      · trivial
      rename_i v _
      cases v.val? with
      | none => trivial
      | some r =>
        simp only
        rw [if_pos hT.pos]
        obtain ⟨c, rfl, hcl, hcb⟩ := hcol
        have hget : ev.ceX[s.m + 1]? = some (c.map Fl.fin) := by
          rw [hce, ← h.len]; simp
        rw [hget, Option.bind_some, colK_map_fin]
        simp only
        refine ih _ ?_ (fun k hk => hj k (by simp [hk]))
        have h0 : (0 : ℕ) ≠ j := by have := hj j (by simp); omega
        exact {
          cols := by
            intro col hcol
            have hcol : col ∈ ev.ceX := hcol
            rw [hce, List.mem_append] at hcol
            rcases hcol with hcol | hcol
            · exact h.cols col hcol
            · rw [List.mem_singleton] at hcol
              exact ⟨c, hcol, hcl, hcb⟩
          hist := by
            show RecordedC e.U ev.w ev.X ev.ceX
            rw [a1, hce]
            exact h.hist.append (by rw [h.len, h.Xlen]) a2 hans
          pair := by
            refine Paired.set (pend' := j :: js) (c := c) (h := ?_) ?_ hget
            · show Paired ev.ceX _ _ _
              rw [hce]; exact h.pair.grow _
            · intro k hk hkj; simp [hk, hkj]
          info := by
            show (s.set.ceY.set j c)[0]? = _
            rw [List.getElem?_set_ne (Ne.symm h0)]; exact h.info
          Xlen := by show ev.X.length = _; rw [a1]; simp [h.Xlen]
          fXlen := hlen
          len := by show ev.ceX.length = _; rw [hce]; simp [h.len]
          flag := hfl.trans h.flag
          zero := by
            rcases h.zero with hz | hz
            · exact Or.inl hz
            · right; show SomeNonzero ev.ceX; rw [hce]; exact hz.grow _ }

theorem Ce.ceY_ne {pend : List ℕ} {s : MSt K F} (h : CeCore e pend s) : s.set.ceY ≠ [] := by
  intro h0; have := h.info; rw [h0] at this; cases this

theorem callSmallf_ce (s : MSt K F) (h : Ce e [] s) :
    (callSmallf e s).Sat (Ce e []) (fun _ => False) (fun _ => True) := by
  unfold callSmallf
  split
  · trivial
  rename_i nrms _
  simp only
  generalize smallfChoice (meritY e.trunc s.sigma (anyNonzero s.set.ceY) s.set.fY nrms)
    (indInside e.lb e.ub s.set.Y) = choice
  cases hf : findSmallf e.build choice ⟨s.set, s.fx, s.ixbest, s.fx⟩ with
  | none => trivial
  | some t =>
    simp only
    have key : Paired s.ev.ceX [] t.s.ind t.s.ceY ∧ ∃ c, t.s.ceY[0]? = some c := by
      unfold findSmallf at hf
      cases choice with
      | none =>
        simp only at hf
        split at hf
        · cases hf; exact ⟨h.pair, _, h.info⟩
        · cases hf
      | some imin =>
        simp only at hf
        cases hsw : swapInY e.build 0 imin s.set with
        | none => rw [hsw] at hf; cases hf
        | some S =>
          rw [hsw] at hf
          simp only at hf
          split at hf
          · rename_i f i hf0 hi0
            cases hf
            have := h.pair.swapInY (Ce.ceY_ne h.toCeCore) hsw
            refine ⟨this.1, ?_⟩
            obtain ⟨c, -, hc⟩ := this.1.2 0 (by simp) i hi0
            exact ⟨c, hc⟩
          · cases hf
    obtain ⟨k1, c, k2⟩ := key
    split
    · trivial
    · exact { h with
        pair := k1
        info := by simp only [k2] }

theorem accepted_ce (hT : e.Tame) (o : Orc K F) (fxplus rho norms : K) (pos : ℕ) (s : MSt K F)
    (h : Ce e [] s) (hp : Plus s) :
    (accepted e o fxplus rho norms pos s).Sat (Ce e []) (fun _ => False) (fun _ => True) := by
  unfold accepted
  simp only
  split
  · trivial
  rename_i hne
  rw [if_pos hT.pos]
  have hlen : s.ceplus.length = e.me := by
    by_contra hh; exact hne ⟨hT.pos, hh⟩
  have hcol : s.ev.ceX[s.m]? = some (s.ceplus.map Fl.fin) := by
    rcases hp with hp | hp
    · rw [hp] at hlen; simp at hlen; have := hT.pos; omega
    · exact hp
  generalize hS : ({ s.set with
      ind := setOrAppend s.set.ind pos s.m
      fY := setOrAppend s.set.fY pos fxplus
      ceY := setOrAppend s.set.ceY pos s.ceplus } : IntSet (List K) (List K) F K) = S
  have hS1 : Paired s.ev.ceX [] S.ind S.ceY := by
    rw [← hS]; exact h.pair.setOrAppend hcol
  have hne : S.ceY ≠ [] := by
    have h0 := Ce.ceY_ne h.toCeCore
    rw [← hS]
    simp only [setOrAppend]
    split
    · intro h1
      have := congrArg List.length h1
      rw [List.length_set] at this
      exact h0 (List.length_eq_zero_iff.1 this)
    · simp
  cases hsw : swapInY e.build 0 pos S with
  | none => simp only; trivial
  | some S' =>
    simp only
    obtain ⟨k1, k2⟩ := hS1.swapInY hne hsw
    have k3 : S'.ceY[0]? = some s.ceplus := by
      have hl : ∃ c, S'.ceY[0]? = some c := by
        cases hS' : S'.ceY with
        | nil =>
          exfalso
          have e1 : S'.ceY.length = S.ceY.length := by
            unfold swapInY at hsw
            by_cases h0 : 0 = pos
            · rw [if_pos h0] at hsw; cases hsw; rfl
            · rw [if_neg h0] at hsw
              have : ¬ 0 > pos := by omega
              simp only [if_neg this] at hsw
              split at hsw
              · rename_i h5
                simp only [Option.some.injEq] at hsw
                subst hsw
                rw [swapOpt, if_neg hne] at h5
                exact (swapL_get h5).1
              · cases hsw
          rw [hS'] at e1
          exact hne (List.length_eq_zero_iff.1 e1.symm)
        | cons a l => exact ⟨a, rfl⟩
      obtain ⟨c, hc⟩ := hl
      rw [hc] at k2
      have hpl : pos < S.ceY.length := (List.getElem?_eq_some_iff.1 k2.symm).1
      have : S.ceY[pos]? = some s.ceplus := by
        rw [← hS] at hpl ⊢
        simp only [setOrAppend] at hpl ⊢
        split
        · rename_i hlt; rw [List.getElem?_set_self hlt]
        · rename_i hlt
          rw [if_neg hlt] at hpl
          simp only [List.length_append, List.length_cons, List.length_nil] at hpl
          have : pos = s.set.ceY.length := by omega
          rw [this]; simp
      rw [hc, k2, this]
    split
    · trivial
    · exact { h with
        pair := k1
        info := by
          show S'.ceY[0]? = some (if e.me > 0 then s.ceplus else s.infoCe)
          rw [if_pos hT.pos]; exact k3 }

theorem replaceAt_ce (hT : e.Tame) (o : Orc K F) (fxplus rho norms : K) (pos : ℕ) (s : MSt K F)
    (h : Ce e [] s) (hp : Plus s) (h0 : rho < cEta1 → pos ≠ 0) :
    (replaceAt e o fxplus rho norms pos s).Sat (Ce e []) (fun _ => False) (fun _ => True) := by
  unfold replaceAt
  simp only
  split
  · trivial
  rename_i hne
  rw [if_pos hT.pos]
  have hlen : s.ceplus.length = e.me := by
    by_contra hh; exact hne ⟨hT.pos, hh⟩
  have hcol : s.ev.ceX[s.m]? = some (s.ceplus.map Fl.fin) := by
    rcases hp with hp | hp
    · rw [hp] at hlen; simp at hlen; have := hT.pos; omega
    · exact hp
  have hS1 : Paired s.ev.ceX [] (s.set.ind.set pos s.m) (s.set.ceY.set pos s.ceplus) :=
    h.pair.set (fun _ _ _ => by simp) hcol
  split
  · generalize hS : ({ s.set with
        ind := s.set.ind.set pos s.m
        fY := s.set.fY.set pos fxplus
        ceY := s.set.ceY.set pos s.ceplus } : IntSet (List K) (List K) F K) = S
    have hS2 : Paired s.ev.ceX [] S.ind S.ceY := by rw [← hS]; exact hS1
    have hne : S.ceY ≠ [] := by
      have h0 := Ce.ceY_ne h.toCeCore
      rw [← hS]
      intro h1
      have := congrArg List.length h1
      rw [List.length_set] at this
      exact h0 (List.length_eq_zero_iff.1 this)
    cases hsw : swapInY e.build 0 pos S with
    | none => simp only; trivial
    | some S' =>
      simp only
      obtain ⟨k1, k2⟩ := hS2.swapInY hne hsw
      split
      · trivial
      · cases hc : S'.ceY[0]? with
        | none =>
          exfalso
          have h1 : S'.ind.length = 0 := by
            rw [k1.1]
            have := List.getElem?_eq_none_iff.1 hc; omega
          have h2 : S'.ind.length = S.ind.length := by
            unfold swapInY at hsw
            by_cases h0 : 0 = pos
            · rw [if_pos h0] at hsw; cases hsw; rfl
            · rw [if_neg h0] at hsw
              have : ¬ 0 > pos := by omega
              simp only [if_neg this] at hsw
              split at hsw
              · rename_i h5 _ _ _
                simp only [Option.some.injEq] at hsw
                subst hsw
                exact (swapL_get h5).1
              · cases hsw
          rw [h1, hS2.1] at h2
          exact hne (List.length_eq_zero_iff.1 h2.symm)
        | some c =>
          exact { h with
            pair := k1
            info := by simp only [MSt.newGx, hc, if_pos hT.pos] }
  · rename_i hr
    exact { h with
      pair := hS1
      info := by
        show (s.set.ceY.set pos s.ceplus)[0]? = _
        rw [List.getElem?_set_ne (h0 (not_le.1 hr))]; exact h.info }

theorem augmentRejected_ce (hT : e.Tame) (o : Orc K F) (fxplus : K) (s : MSt K F)
    (h : Ce e [] s) (hI : Inv e [] s) (hg : growable e s.cur) (hp : Plus s) :
    (augmentRejected e o fxplus s).Sat (Ce e []) (fun _ => False) (fun _ => True) := by
  obtain ⟨a1, -, -⟩ := growable_augment e o.xnew s hI.toCore hg
  unfold augmentRejected
  simp only
  split
  · trivial
  rename_i hne
  rw [if_pos hT.pos]
  have hlen : s.ceplus.length = e.me := by
    by_contra hh; exact hne ⟨hT.pos, hh⟩
  have hcol : s.ev.ceX[s.m]? = some (s.ceplus.map Fl.fin) := by
    rcases hp with hp | hp
    · rw [hp] at hlen; simp at hlen; have := hT.pos; omega
    · exact hp
  rw [a1, Nat.add_sub_cancel]
  have hc1 := hI.ceY1 hT.pos
  have h1 : (0 : ℕ) ≠ s.cur := by have := hI.lo; omega
  exact { h with
    pair := h.pair.setOrAppend hcol
    info := by
      show (setOrAppend s.set.ceY s.cur s.ceplus)[0]? = _
      rw [(setOrAppend_spec s.set.ceY s.cur s.ceplus (by rw [hc1])).2.1 0 h1]
      exact h.info }

theorem Ce.restoreF {pend : List ℕ} {s : MSt K F} (h : Ce e pend s) : Ce e pend s.restoreF :=
  { h with }

theorem reduce_ce (o : Orc K F) (fxplus norms : K) (s : MSt K F) (h : Ce e [] s) :
    (reduce e o fxplus norms s).Sat (Ce e []) (CeCore e []) (fun _ => True) := by
  unfold reduce
  simp only
  split
  · exact { h.toCeCore with }
  · exact { h with }

theorem replaceOrReduce_ce (hT : e.Tame) (o : Orc K F) (fxplus rho norms : K) (s : MSt K F)
    (h : Ce e [] s) (hI : Inv e [] s) (hp : Plus s) :
    (replaceOrReduce e o fxplus rho norms s).Sat (Ce e []) (CeCore e []) (fun _ => True) := by
  unfold replaceOrReduce
  by_cases hc : s.poisedModel = false ∨ s.delta ≤ s.epsCur
  swap
  · rw [if_neg hc]; exact reduce_ce o fxplus norms s h
  rw [if_pos hc]
  simp only
  have hfp : (0 : K) < (1 + cEpsTR) * s.delta := by
    have h1 : (0 : K) < cEpsTR := by unfold cEpsTR; positivity
    have := hI.delta
    positivity
  have fin : ∀ (pos : ℕ) (Y' : List (List K)) (fac' : F), (rho < cEta1 → pos ≠ 0) →
      ((replaceAt e o fxplus rho norms pos
        { s with set := { s.set with Y := Y', fac := fac' } }).bind
          fun s => .cont s.restoreF).Sat (Ce e []) (CeCore e []) (fun _ => True) := by
    intro pos Y' fac' h5
    refine PassRes.Sat.bind (Q := Ce e []) ?_ (fun u hu => hu.restoreF)
    exact (replaceAt_ce hT o fxplus rho norms pos
      { s with set := { s.set with Y := Y', fac := fac' } } { h with } hp h5).mono
      (fun _ h => h) (fun _ h => h.elim) (fun _ h => h)
  have hd0 : ¬ rho ≥ cEta1 → (farDists e rho o.xnew s)[0]? = some 0 := by
    intro hr
    unfold farDists
    rw [if_neg hr]
    cases hY : s.set.Y with
    | nil => have := hI.Y0; rw [hY] at this; simp at this
    | cons b l => simp
  split
  · rename_i pos hpos
    obtain ⟨i1, -⟩ := include_some e.dist e.build o.lval2 _ _ (by positivity) _ _ _ _ _
      (Prod.ext hpos (Prod.ext rfl rfl))
    refine fin pos _ _ ?_
    rintro hr rfl
    obtain ⟨v, hv, hp⟩ := mem_findIdx i1
    rw [hd0 (not_le.2 hr)] at hv
    cases hv
    simp only [decide_eq_true_eq] at hp
    exact absurd hp (not_lt.2 hfp.le)
  · split
    · rename_i pos hpos
      obtain ⟨i1, -⟩ := include_some e.dist e.build o.lval3 _ _
        (by split <;> positivity) _ _ _ _ _ (Prod.ext hpos (Prod.ext rfl rfl))
      refine fin pos _ _ ?_
      rintro hr rfl
      obtain ⟨v, hv, hp⟩ := mem_findIdx i1
      rw [if_neg (not_le.2 hr)] at hv
      have hlen : 0 < (farDists e rho o.xnew s).length :=
        (List.getElem?_eq_some_iff.1 (hd0 (not_le.2 hr))).1
      rw [List.getElem?_set_self hlen] at hv
      cases hv
      simp only [decide_eq_true_eq] at hp
      linarith
    · exact reduce_ce o fxplus norms s h

theorem rejectStep_ce (hT : e.Tame) (o : Orc K F) (fxplus rho norms : K) (s : MSt K F)
    (h : Ce e [] s) (hI : Inv e [] s) (hp : Plus s) :
    (rejectStep e o fxplus rho norms s).Sat (Ce e []) (CeCore e []) (fun _ => True) := by
  unfold rejectStep
  simp only
  have h' : Ce e [] { s with rejected := true } := { h with }
  have hI' : Inv e [] { s with rejected := true } :=
    { hI with link := fun j hj hp => hI.link j hj hp }
  split
  · rename_i hg
    refine PassRes.Sat.bind (Q := Ce e []) ?_ (fun u hu => hu.restoreF)
    exact (augmentRejected_ce hT o fxplus _ h' hI' hg.1 hp).mono (fun _ h => h)
      (fun _ h => h.elim) (fun _ h => h)
  · exact replaceOrReduce_ce hT o fxplus rho norms _ h' hI' hp

theorem decideStep_ce (hT : e.Tame) (o : Orc K F) (norms : K) (s : MSt K F)
    (h : Ce e [] s) (hI : Inv e [] s) (hp : Plus s) :
    (decideStep e o norms s).Sat (Ce e []) (CeCore e []) (fun _ => True) := by
  unfold decideStep
  split
  · trivial
  split
  · trivial
  simp only
  generalize newPred o s.sigma = p
  have h' : Ce e [] { s with pred := p } := { h with }
  have hI' : Inv e [] { s with pred := p } := { hI with link := fun j hj hp => hI.link j hj hp }
  split
  · exact h'
  split
  · split
    · exact { h.toCeCore with }
    have acc : ∀ f rho pos cur (Y' : List (List K)) (fac' : F),
        (accepted e o f rho norms pos { s with
          pred := p
          cur := cur
          set := { s.set with Y := Y', fac := fac' } }).Sat (Ce e []) (CeCore e [])
          (fun _ => True) := by
      intro f rho pos cur Y' fac'
      refine (accepted_ce hT o f rho norms pos { s with
          pred := p
          cur := cur
          set := { s.set with Y := Y', fac := fac' } } { h with } hp).mono (fun _ h => h)
        (fun _ h => h.elim) (fun _ h => h)
    split
    · exact acc _ _ _ _ _ _
    · split
      · exact acc _ _ _ _ _ _
      · exact rejectStep_ce hT o _ _ norms _ h' hI' hp
  · exact rejectStep_ce hT o _ _ norms _ h' hI' hp

theorem evalTrial_ce (hC : e.Constr) (hT : e.Tame) (o : Orc K F) (s : MSt K F) (h : Ce e [] s) :
    (evalTrial e o s).Sat (fun t => Ce e [] t ∧ Plus t) (CeCore e []) (fun _ => True) := by
  unfold evalTrial
  simp only
  cases ha : augmX e.U (.fin big) o.xnew (s.m + 1) s.ev with
  | none => trivial
  | some ev =>
    simp only
    obtain ⟨a1, a2, a3⟩ := augmX_tame e hC hT o.xnew _ _ _ h.Xlen h.fXlen h.len ha
    rcases a3 with ⟨hfl, hce, -⟩ | ⟨hfl, hlen, col, hcol, hce, hans⟩
    · rw [if_pos (by rw [hfl]; norm_num)]
      exact {
        cols := by intro col hcol; exact h.cols col (by rw [← hce]; exact hcol)
        hist := by
          show RecordedC e.U ev.w ev.X ev.ceX
          rw [a1, hce]; exact h.hist.keep a2
        pair := by show Paired ev.ceX _ _ _; rw [hce]; exact h.pair
        info := h.info }
    · rw [if_neg (by rw [hfl, h.flag]; simp)]
      have hcols : ∀ c ∈ ev.ceX, GoodCol e.me c := by
        intro c hc
        rw [hce, List.mem_append] at hc
        rcases hc with hc | hc
        · exact h.cols c hc
        · rw [List.mem_singleton] at hc; rw [hc]; exact hcol
      have key : ∀ ce, (ce = [] ∨ SomeNonzero ev.ceX) →
          Ce e [] { s with m := s.m + 1, ev := ev, ceplus := ce } := by
        intro ce hz
        exact {
          cols := hcols
          hist := by
            show RecordedC e.U ev.w ev.X ev.ceX
            rw [a1, hce]
            exact h.hist.append (by rw [h.len, h.Xlen]) a2 hans
          pair := by show Paired ev.ceX _ _ _; rw [hce]; exact h.pair.grow _
          info := h.info
          Xlen := by show ev.X.length = _; rw [a1]; simp [h.Xlen]
          fXlen := hlen
          len := by show ev.ceX.length = _; rw [hce]; simp [h.len]
          flag := hfl.trans h.flag
          zero := hz }
      split
      · rename_i hnz
        have hr := replaceHuge_good hcols
        rw [hr.1, Option.bind_some, hr.2]
        simp only
        obtain ⟨c, rfl, -, -⟩ := hcol
        have hget : ev.ceX[s.m + 1]? = some (c.map Fl.fin) := by
          rw [hce, ← h.len]; simp
        rw [hget, Option.bind_some, colK_map_fin]
        exact ⟨key c (Or.inr hnz), Or.inr hget⟩
      · rename_i hnz
        have hz : s.ceplus = [] := by
          rcases h.zero with hz | hz
          · exact hz
          · exfalso
            apply hnz
            have := hz.grow [col]
            rw [← hce] at this
            exact this
        exact ⟨key s.ceplus (Or.inl hz), Or.inl hz⟩

theorem globalise_sat (s : MSt K F) (h : Inv e [] s) :
    (globalise e s).Sat (Inv e []) (fun _ => False) Outside := by
  unfold globalise
  split
  · exact h
  · obtain ⟨q, hq⟩ := h.infoF
    rw [hq]
    simp only [Fl.val?]
    split
    · exact Or.inr (Or.inr rfl)
    · exact { h with link := fun j hj hp => h.link j hj hp }

theorem globalise_ce (s : MSt K F) (h : Ce e [] s) :
    (globalise e s).Sat (Ce e []) (fun _ => False) (fun _ => True) := by
  unfold globalise
  split
  · exact h
  · split
    · trivial
    split
    · trivial
    · exact { h with }

theorem penalty_inv (o : Orc K F) (s : MSt K F) (h : Inv e [] s) :
    (penalty o s).Sat (Inv e []) (fun _ => True) (fun _ => True) := by
  unfold penalty
  split
  · rename_i hlt
    have hmono : s.sigma ≤ max (sigmab o) (3 / 2 * s.sigma) := le_max_of_le_left hlt.le
    simp only
    split
    · trivial
    · exact { h with link := fun j hj hp => h.link j hj hp, sigma := le_trans h.sigma hmono }
  · exact h

theorem penalty_ce (o : Orc K F) (s : MSt K F) (h : Ce e [] s) :
    (penalty o s).Sat (Ce e []) (CeCore e []) (fun _ => True) := by
  unfold penalty
  split
  · simp only
    split
    · exact { h.toCeCore with }
    · exact { h with }
  · exact h

theorem stepStage_ce (hC : e.Constr) (hT : e.Tame) (o : Orc K F) (s : MSt K F)
    (h : Ce e [] s) (hI : Inv e [] s) :
    (stepStage e o s).Sat (Ce e []) (CeCore e []) (fun _ => True) := by
  unfold stepStage
  refine PassRes.Sat.bind (Q := fun t => Inv e [] t ∧ Ce e [] t) ?_ ?_
  · exact ((globalise_sat s hI).and (globalise_ce s h)).mono (fun _ h => h) (fun _ h => h.1.elim)
      (fun _ _ => trivial)
  · rintro t ⟨tI, tC⟩
    simp only
    split
    · exact { tC.toCeCore with }
    have uI : Inv e [] { t with niter := t.niter + 1 } :=
      { tI with link := fun j hj hp => tI.link j hj hp }
    have uC : Ce e [] { t with niter := t.niter + 1 } := { tC with }
    refine PassRes.Sat.bind (Q := fun t => Inv e [] t ∧ Ce e [] t ∧ Plus t) ?_ ?_
    · refine PassRes.Sat.bind (Q := fun t => Inv e [] t ∧ Ce e [] t) ?_ ?_
      · exact ((penalty_inv o _ uI).and (penalty_ce o _ uC)).mono (fun _ h => h) (fun _ h => h.2)
          (fun _ _ => trivial)
      · rintro v ⟨vI, vC⟩
        exact ((evalTrial_sat e o v vI).and (evalTrial_ce hC hT o v vC)).mono
          (fun _ h => ⟨h.1.1, h.2⟩) (fun _ h => h.2) (fun _ _ => trivial)
    · rintro v ⟨vI, vC, vP⟩
      exact decideStep_ce hT o _ v vC vI vP

theorem repairStage_ce (he : e.Ok) (hC : e.Constr) (hT : e.Tame) (o : Orc K F) (radius : K)
    (hr : 0 < radius) (s : MSt K F) (h : Ce e [] s) (hI : Inv e [] s) :
    (repairStage e o radius s).Sat (Ce e []) (CeCore e []) (fun _ => True) := by
  unfold repairStage
  have hYne : s.set.Y ≠ [] := by
    intro h0
    have := hI.Ylen; rw [h0] at this
    have := hI.lo; simp at *; omega
  have hfar : (0 : K) ≤ (if o.normgx ≤ cEps ∨ s.pred = -1 then 1 else 10) * (1 + cEpsL) * radius := by
    have h1 : (0 : K) < cEpsL := by unfold cEpsL; positivity
    have h2 : (0 : K) < if o.normgx ≤ cEps ∨ s.pred = -1 then 1 else 10 := by
      split <;> norm_num
    positivity
  obtain ⟨-, -, -, r4, -⟩ := C27_repair e.dist e.build o.propose (6 / 5)
    ((if o.normgx ≤ cEps ∨ s.pred = -1 then 1 else 10) * (1 + cEpsL) * radius) (by norm_num) hfar
    (e.order (dists e.dist s.set.Y)) s.set.Y hYne s.set.fac (he.order _) _ rfl
  simp only
  refine PassRes.Sat.bind (Q := Ce e []) ?_ ?_
  · refine PassRes.Sat.bind (Q := Ce e []) ?_ ?_
    · refine (evalReplaced_ce hC hT _ _ ?_ (fun j hj => (r4 j hj).1)).mono (fun _ h => h)
        (fun _ h => h.elim) (fun _ h => h)
      exact { h with pair := ⟨h.pair.1, fun j _ => h.pair.2 j (by simp)⟩ }
    · intro t ht
      exact (callSmallf_ce t ht).mono (fun _ h => h) (fun _ h => h.elim) (fun _ h => h)
  · intro t ht
    unfold improveEnd
    split
    · exact { ht.toCeCore with }
    · simp only
      split
      · exact { ht.toCeCore with }
      · exact { ht with }

theorem improve_ce (he : e.Ok) (hC : e.Constr) (hT : e.Tame) (o : Orc K F) (s : MSt K F)
    (h : Ce e [] s) (hI : Inv e [] s) :
    (improve e o s).Sat (Ce e []) (CeCore e []) (fun _ => True) := by
  unfold improve
  split
  · simp only
    split
    · exact { h.toCeCore with }
    · have heps : 0 < newEpsCur e { s with
          poised := (o.poisedness s.set.fac s.set.Y).1
          yradius := (o.poisedness s.set.fac s.set.Y).2 } := newEpsCur_pos e _ hI.delta hI.eps
      generalize newEpsCur e { s with
          poised := (o.poisedness s.set.fac s.set.Y).1
          yradius := (o.poisedness s.set.fac s.set.Y).2 } = ec at *
      generalize hs' : ({ s with
          niter := s.niter + 1
          epsCur := ec
          poised := (o.poisedness s.set.fac s.set.Y).1
          yradius := (o.poisedness s.set.fac s.set.Y).2 } : MSt K F) = s'
      have hI' : Inv e [] s' := by
        subst hs'
        exact { hI with link := fun j hj hp => hI.link j hj hp, eps := heps }
      have h' : Ce e [] s' := by subst hs'; exact { h with }
      split
      · exact { h'.toCeCore with }
      · exact repairStage_ce he hC hT o _ (repRadius_pos _ hI'.delta hI'.eps) _ h' hI'
  · trivial

theorem pass_ce (he : e.Ok) (hC : e.Constr) (hT : e.Tame) (o : Orc K F) (s : MSt K F)
    (h : Ce e [] s) (hI : Inv e [] s) :
    (pass e o s).Sat (Ce e []) (CeCore e []) (fun _ => True) := by
  unfold pass
  split
  · exact { h.toCeCore with }
  split
  · exact { h.toCeCore with }
  split
  · exact { h.toCeCore with }
  simp only
  have hI' : Inv e [] { s.measure o.k1 with ev := { s.ev with flag := Status.success } } :=
    { hI with link := fun j hj hp => hI.link j hj hp, flag := rfl }
  have h' : Ce e [] { s.measure o.k1 with ev := { s.ev with flag := Status.success } } :=
    { h with flag := rfl }
  refine PassRes.Sat.bind (Q := fun t => Inv e [] t ∧ Ce e [] t) ?_ ?_
  · split
    · exact ((improve_sat e he o _ hI').and (improve_ce he hC hT o _ h' hI')).mono
        (fun _ h => ⟨h.1.1, h.2⟩) (fun _ h => h.2) (fun _ _ => trivial)
    · exact ⟨hI', h'⟩
  · rintro t ⟨tI, tC⟩
    exact stepStage_ce hC hT o t tC tI

/-! ### Start -/

/-- Constraint data after `i` evaluations of the initial sampling. -/
structure CeS (e : Env K F) (i : ℕ) (s : EvSt (List K) K) : Prop where
  cols : ∀ col ∈ s.ceX, GoodCol e.me col
  hist : RecordedC e.U s.w s.X s.ceX
  X : s.X.length = i
  fX : s.fX.length = i
  len : s.ceX.length = i
  flag : s.flag = 0

theorem samplePass_ce (hC : e.Constr) (hT : e.Tame) :
    ∀ (ys : List (List K)) (i : ℕ) (s s' : EvSt (List K) K), CeS e i s →
      samplePass e.U ys i s = .full s' → CeS e (i + ys.length) s' := by
  intro ys
  induction ys with
  | nil => intro i s s' h hp; simp only [samplePass, SampleRes.full.injEq] at hp; subst hp; exact h
  | cons y ys ih =>
    intro i s s' h hp
    simp only [samplePass] at hp
    split at hp
    · cases hp
    · rename_i t ht
      split at hp
      · cases hp
      · rename_i hfl
        have hfl : t.flag = 0 := by simpa using hfl
        split at hp
        · cases hp
        · split at hp
          · cases hp
          · obtain ⟨a1, a2, a3⟩ := augmX_tame e hC hT y _ _ _ h.X h.fX h.len ht
            rcases a3 with ⟨a3, -⟩ | ⟨-, hlen, col, hcol, hce, hans⟩
            · rw [hfl] at a3; cases a3
            have := ih (i + 1) t s' {
              cols := by
                intro c hc
                rw [hce, List.mem_append] at hc
                rcases hc with hc | hc
                · exact h.cols c hc
                · rw [List.mem_singleton] at hc; rw [hc]; exact hcol
              hist := by rw [a1, hce]; exact h.hist.append (by rw [h.len, h.X]) a2 hans
              X := by rw [a1]; simp [h.X]
              fX := hlen
              len := by rw [hce]; simp [h.len]
              flag := hfl } hp
            rw [List.length_cons]
            rwa [Nat.add_assoc, Nat.add_comm 1] at this

theorem initLoop_ce (hC : e.Constr) (hT : e.Tame) (x0 : List K) (nx : K) :
    ∀ (N : ℕ) (Δ D : K) (s s' : EvSt (List K) K), s.flag = 0 →
      initLoop e.U x0 nx N Δ s = .done D s' → CeS e (x0.length + 1) s' := by
  intro N
  induction N with
  | zero => intro Δ D s s' _ h; simp [initLoop] at h
  | succ N ih =>
    intro Δ D s s' hfl h
    simp only [initLoop] at h
    cases hp : samplePass e.U (simplex x0 Δ) 0
        ({ s with X := [], fX := [], ceX := [] } : EvSt (List K) K) with
    | crash => rw [hp] at h; simp at h
    | failed t => rw [hp] at h; simp at h
    | full t =>
      rw [hp] at h
      simp only at h
      have h0 : CeS e 0 ({ s with X := [], fX := [], ceX := [] } : EvSt (List K) K) := {
        cols := by intro c hc; simp at hc
        hist := by intro i c hc; simp at hc
        X := rfl, fX := rfl, len := rfl, flag := hfl }
      have hS := samplePass_ce hC hT _ _ _ _ h0 hp
      have hr := replaceHuge_good hS.cols
      rw [hr.1] at h
      simp only at h
      rw [hr.2] at h
      simp only [InitRes.done.injEq] at h
      obtain ⟨-, rfl⟩ := h
      have hl : 0 + (simplex x0 Δ).length = x0.length + 1 := by simp [simplex]
      rw [← hl]
      exact { hS with }
    | broke t =>
      rw [hp] at h
      simp only at h
      have hflt : t.flag = 0 := samplePass_broke_flag e.U _ _ _ _ hp
      split at h
      · cases h
      · split at h
        · cases h
        · split at h
          · cases h
          · exact ih _ _ _ _ (by exact hflt) h

theorem startState_ce (hC : e.Constr) (hT : e.Tame) (x0 : List K) (fuel : ℕ) (Δ : K)
    (sl : List K) (s : MSt K F) (h : startState e x0 fuel Δ sl = some s) : Ce e [] s := by
  unfold startState at h
  cases hi : initLoop e.U x0 (e.nrm x0) fuel Δ emptyEv with
  | crash => rw [hi] at h; cases h
  | failed t => rw [hi] at h; cases h
  | stalled t => rw [hi] at h; cases h
  | running => rw [hi] at h; cases h
  | done D ev =>
    rw [hi] at h
    simp only at h
    have hS := initLoop_ce hC hT x0 _ _ _ _ _ _ rfl hi
    unfold mainInit at h
    split at h
    · rename_i fY ceY x hf hce hx0
      obtain ⟨c1, c2⟩ := mapM_some_getElem _ _ _ hce
      have hcol : ∀ (j : ℕ) (col : List (Fl K)), ev.ceX[j]? = some col →
          ∃ c : List K, col = c.map Fl.fin ∧ ceY[j]? = some c := by
        intro j col hj
        obtain ⟨c, rfl, -, -⟩ := hS.cols col (List.mem_of_getElem? hj)
        exact ⟨c, rfl, by rw [c2 j _ hj, colK_map_fin]⟩
      split at h
      · cases h
      · simp only [Option.some.injEq] at h
        subst h
        exact {
          cols := hS.cols
          hist := hS.hist
          pair := by
            refine ⟨by simp [c1, hS.X, hS.len], fun j _ i hi => ?_⟩
            obtain ⟨hj, hi⟩ := List.getElem?_eq_some_iff.1 hi
            rw [List.getElem_range] at hi
            subst hi
            have hj : j < ev.X.length := by simpa using hj
            have hj' : j < ev.ceX.length := by rw [hS.len, ← hS.X]; exact hj
            obtain ⟨c, b1, b2⟩ := hcol j _ (List.getElem?_eq_getElem hj')
            exact ⟨c, by rw [List.getElem?_eq_getElem hj', b1], b2⟩
          info := by
            have h0 : 0 < ev.ceX.length := by rw [hS.len]; omega
            obtain ⟨c, -, b2⟩ := hcol 0 _ (List.getElem?_eq_getElem h0)
            show ceY[0]? = _
            rw [b2]
          Xlen := by show ev.X.length = ev.X.length - 1 + 1; rw [hS.X]; omega
          fXlen := by show ev.fX.length = ev.X.length - 1 + 1; rw [hS.X, hS.fX]; omega
          len := by show ev.ceX.length = ev.X.length - 1 + 1; rw [hS.X, hS.len]; omega
          flag := hS.flag
          zero := Or.inl rfl }
    · cases h

end Sqpdfo
