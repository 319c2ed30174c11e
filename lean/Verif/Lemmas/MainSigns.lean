import Verif.Spec.Signs
import Verif.Lemmas.MainReorder
import Verif.Lemmas.MainCe

/-! # Constraints with the other sign -/

set_option linter.unusedSectionVars false

namespace Sqpdfo
open Spec
variable {K F : Type} [Field K] [LinearOrder K] [IsStrictOrderedRing K]

/-! ### Lists -/

theorem signed_length {α : Type} [Neg α] (ε : List Bool) (l : List α) : (signed ε l).length = l.length := by
  unfold signed
  split
  · rename_i h; rw [List.length_zipWith, h, min_self]
  · rfl

theorem signed_nil {α : Type} [Neg α] (l : List α) : signed [] l = l := by
  unfold signed
  split
  · rename_i h; rw [List.length_eq_zero_iff.1 h]; rfl
  · rfl

theorem signed_map {α β : Type} [Neg α] [Neg β] (f : α → β) (hf : ∀ a, f (-a) = -f a) (ε : List Bool) (l : List α) :
    signed ε (l.map f) = (signed ε l).map f := by
  unfold signed
  rw [List.length_map]
  split
  · rw [List.zipWith_map_right, List.map_zipWith]
    congr 1
    funext b a
    cases b
    · rfl
    · exact (hf a).symm
  · rfl

theorem signed_any {α : Type} [Neg α] (p : α → Bool) (hp : ∀ a, p (-a) = p a) (ε : List Bool) (l : List α) : (signed ε l).any p = l.any p := by
  unfold signed
  split
  · rename_i h
    induction l generalizing ε with
    | nil => cases ε <;> rfl
    | cons a l ih =>
      cases ε with
      | nil => cases h
      | cons b ε =>
        rw [List.zipWith_cons_cons, List.any_cons, List.any_cons, ih ε (by simpa using h)]
        cases b
        · rfl
        · rw [if_pos rfl, hp]
  · rfl

theorem Fl.neg_isNan (v : Fl K) : (-v).isNan = v.isNan := by cases v <;> rfl

theorem clipCe_neg (v : Fl K) : clipCe (-v) = - clipCe v := by
  have hb : (0 : K) < big := by unfold big; positivity
  have h1 : ∀ q : K, (-(Fl.fin q) : Fl K) = .fin (-q) := fun _ => rfl
  cases v with
  | nan => rfl
  | pinf =>
    show clipCe (Fl.ninf : Fl K) = _
    simp [clipCe, Fl.lt, h1, hb.le, not_lt.2]
  | ninf =>
    show clipCe (Fl.pinf : Fl K) = _
    simp [clipCe, Fl.lt, h1, hb.le, not_lt.2]
  | fin q =>
    rw [h1]
    unfold clipCe
    simp only [Fl.lt, decide_eq_true_eq]
    by_cases h2 : big < q
    · have h3 : ¬ big < -q := by linarith
      have h4 : ¬ (big : K) < -big := by linarith
      simp [h2, h3, h4, h1]
    · by_cases h3 : q < -big
      · have h4 : big < -q := by linarith
        simp [h2, h3, h4, h1, hb.le]
      · have h4 : ¬ big < -q := by linarith
        simp [h2, h3, h4, h1]

theorem signed_get {α : Type} [Neg α] (ε : List Bool) (l : List α) (i : ℕ) :
    (signed ε l)[i]? = l[i]?.map fun v => if l.length = ε.length ∧ ε[i]? = some true then -v else v := by
  unfold signed
  split
  · rename_i h
    rw [List.getElem?_zipWith]
    by_cases hi : i < l.length
    · rw [List.getElem?_eq_getElem hi, List.getElem?_eq_getElem (h ▸ hi)]
      simp [h]
    · rw [List.getElem?_eq_none (not_lt.1 hi), List.getElem?_eq_none (h ▸ not_lt.1 hi)]
      rfl
  · rename_i h
    simp [h]

theorem signed_mem {α : Type} [Neg α] {ε : List Bool} {l : List α} {v : α} (h : v ∈ signed ε l) : v ∈ l ∨ ∃ w ∈ l, v = -w := by
  obtain ⟨i, hi⟩ := List.mem_iff_getElem?.1 h
  rw [signed_get, Option.map_eq_some_iff] at hi
  obtain ⟨w, hw, rfl⟩ := hi
  split
  · exact Or.inr ⟨w, List.mem_of_getElem? hw, rfl⟩
  · exact Or.inl (List.mem_of_getElem? hw)

theorem colK_sg (ε : List Bool) (c : List (Fl K)) : colK (signed ε c) = (colK c).map (signed ε) := by
  have hval : ∀ v : Fl K, (-v).val? = v.val?.map (- ·) := fun v => by cases v <;> rfl
  unfold colK signed
  by_cases h : c.length = ε.length
  · rw [if_pos h]
    have key : ∀ (c : List (Fl K)) (ε : List Bool), c.length = ε.length →
        (List.zipWith (fun b v => if b then -v else v) ε c).mapM Fl.val? =
          (c.mapM Fl.val?).map (List.zipWith (fun b v => if b then -v else v) ε) ∧ ∀ k, c.mapM Fl.val? = some k → k.length = c.length := by
      intro c
      induction c with
      | nil => intro ε h; cases ε with
        | nil => exact ⟨rfl, fun k hk => by cases hk; rfl⟩
        | cons b ε => cases h
      | cons v c ih =>
        intro ε h
        cases ε with
        | nil => cases h
        | cons b ε =>
          obtain ⟨i1, i2⟩ := ih ε (by simpa using h)
          have hv : (if b then -v else v).val? = v.val?.map fun q => if b then -q else q := by
            cases b
            · simp
            · exact hval v
          rw [List.zipWith_cons_cons, List.mapM_cons, List.mapM_cons, i1, hv]
          cases v.val? with
          | none => exact ⟨rfl, fun k hk => by cases hk⟩
          | some q =>
            cases hc : c.mapM Fl.val? with
            | none => exact ⟨rfl, fun k hk => by cases hk⟩
            | some k => exact ⟨rfl, fun k' hk => by cases hk; simp [i2 k hc]⟩
    obtain ⟨k1, k2⟩ := key c ε h
    rw [k1]
    cases hc : c.mapM Fl.val? with
    | none => rfl
    | some k => rw [Option.map_some, Option.map_some, if_pos ((k2 k hc).trans h)]
  · rw [if_neg h]
    cases hc : c.mapM Fl.val? with
    | none => rfl
    | some k =>
      have hk : k.length = c.length := (mapM_some_getElem _ _ _ hc).1
      rw [Option.map_some, if_neg (by rw [hk]; exact h)]

theorem resid_sg (ε : List Bool) (ns : ℕ) (hε : ∀ i, ε[i]? = some true → i + ns < ε.length) (ce sl : List K) :
    resid ns (signed ε ce) sl = (resid ns ce sl).map (signed ε) := by
  unfold resid
  rw [signed_length]
  split
  · rfl
  split
  · rfl
  · rename_i h1 h2
    push Not at h2
    rw [Option.map_some]
    congr 1
    have hlen : (List.replicate (ce.length - ns) (0 : K) ++ sl.map (· ^ 2)).length = ce.length := by
      rw [List.length_append, List.length_replicate, List.length_map, h2.2]; omega
    refine List.ext_getElem? fun i => ?_
    rw [List.getElem?_zipWith, signed_get, signed_get, List.getElem?_zipWith, List.length_zipWith, hlen, min_self]
    by_cases hi : i < ce.length
    · have hb : i < (List.replicate (ce.length - ns) (0 : K) ++ sl.map (· ^ 2)).length := lt_of_lt_of_eq hi hlen.symm
      rw [List.getElem?_eq_getElem hi, List.getElem?_eq_getElem hb]
      simp only [Option.map_some]
      congr 1
      split
      · rename_i h
        have := hε i h.2
        rw [List.getElem_append_left (by rw [List.length_replicate]; omega), List.getElem_replicate, sub_zero, sub_zero]
      · rfl
    · rw [List.getElem?_eq_none (not_lt.1 hi)]
      rfl

theorem resNorm_sg {ε : List Bool} {e : Env K F} (h : SignOk ε e) (ce sl : List K) : e.resNorm (signed ε ce) sl = e.resNorm ce sl := by
  unfold Env.resNorm
  rw [resid_sg ε _ fun i hi => by obtain ⟨h1, h2⟩ := h.free i hi; rw [h2]; exact h1]
  cases resid e.ns ce sl with
  | none => rfl
  | some l => exact congrArg some (h.nrm l)

theorem moveSl_sg {ε : List Bool} {e : Env K F} (h : SignOk ε e) (ce sl : List K) : moveSl e (signed ε ce) sl = moveSl e ce sl := by
  unfold moveSl
  congr 1
  refine List.ext_getElem? fun i => ?_
  rw [List.getElem?_drop, List.getElem?_drop, signed_get]
  cases ce[e.me - e.ns + i]? with
  | none => rfl
  | some v =>
    rw [Option.map_some, if_neg]
    rintro ⟨-, h2⟩
    have := (h.free _ h2).1
    omega

theorem finVals_any (p : K → Bool) (ce : List (List (Fl K))) :
    (finVals ce).any p = ce.any fun c => c.any fun v => match v with | .fin q => p q | _ => false := by
  rw [Bool.eq_iff_iff, List.any_eq_true, List.any_eq_true]
  unfold finVals
  constructor
  · rintro ⟨q, hq, hp⟩
    rw [List.mem_filterMap] at hq
    obtain ⟨v, hv, hq⟩ := hq
    obtain ⟨c, hc, hv⟩ := List.mem_flatten.1 hv
    refine ⟨c, hc, List.any_eq_true.2 ⟨v, hv, ?_⟩⟩
    cases v <;> simp only [reduceCtorEq, Option.some.injEq] at hq
    subst hq; exact hp
  · rintro ⟨c, hc, h⟩
    obtain ⟨v, hv, hp⟩ := List.any_eq_true.1 h
    cases v with
    | fin q => exact ⟨q, List.mem_filterMap.2 ⟨.fin q, List.mem_flatten.2 ⟨c, hc, hv⟩, rfl⟩, hp⟩
    | _ => cases hp

theorem finVals_sg (p : K → Bool) (hp : ∀ q, p (-q) = p q) (ε : List Bool) (ce : List (List (Fl K))) :
    (finVals (ce.map (signed ε))).any p = (finVals ce).any p := by
  rw [finVals_any, finVals_any, List.any_map]
  congr 1
  funext c
  refine signed_any _ (fun v => ?_) ε c
  cases v with
  | fin q => exact hp q
  | _ => rfl

/-- All columns have finite entries smaller than `1e25`, or no sign changes. -/
def Calm (ε : List Bool) (me : ℕ) (ce : List (List (Fl K))) : Prop := ε = [] ∨ ∀ col ∈ ce, GoodCol me col

theorem goodCol_sg {me : ℕ} {col : List (Fl K)} (h : GoodCol me col) (ε : List Bool) : GoodCol me (signed ε col) := by
  obtain ⟨c, rfl, h2, h3⟩ := h
  refine ⟨signed ε c, signed_map Fl.fin (fun _ => rfl) ε c, (signed_length ε c).trans h2, fun v hv => ?_⟩
  rcases signed_mem hv with h | ⟨w, h, rfl⟩
  · exact h3 v h
  · rw [abs_neg]; exact h3 w h

theorem map_signed_nil {α : Type} [Neg α] (l : List (List α)) : l.map (signed []) = l := by
  rw [show (signed [] : List α → List α) = id from funext signed_nil, List.map_id]

theorem Calm.replaceHuge_sg {ε : List Bool} {me : ℕ} {ce : List (List (Fl K))} (h : Calm ε me ce) :
    replaceHuge (ce.map (signed ε)) = (replaceHuge ce).map (List.map (signed ε)) ∧
      ∀ c, replaceHuge ce = some c → replaceHugeNeg (c.map (signed ε)) = (replaceHugeNeg c).map (List.map (signed ε)) := by
  rcases h with rfl | h
  · rw [show (List.map (signed []) : List (List (Fl K)) → _) = id from funext map_signed_nil]
    exact ⟨by simp, fun c _ => by simp⟩
  · have h1 := replaceHuge_good h
    have h2 := replaceHuge_good (me := me) (ce := ce.map (signed ε)) (by
      intro col hcol
      obtain ⟨c, hc, rfl⟩ := List.mem_map.1 hcol
      exact goodCol_sg (h c hc) ε)
    refine ⟨by rw [h1.1, h2.1]; rfl, fun c hc => ?_⟩
    rw [h1.1, Option.some.injEq] at hc
    subst hc
    rw [h1.2, h2.2]; rfl

theorem Calm.huge_sg {ε : List Bool} {me : ℕ} {ce : List (List (Fl K))} (h : Calm ε me ce) :
    (replaceHuge (ce.map (signed ε))).bind replaceHugeNeg = ((replaceHuge ce).bind replaceHugeNeg).map (List.map (signed ε)) := by
  obtain ⟨h1, h2⟩ := h.replaceHuge_sg
  rw [h1]
  cases hr : replaceHuge ce with
  | none => rfl
  | some c => exact h2 c hr

theorem anyNonzero_sg (ε : List Bool) (ce : List (List K)) : anyNonzero (ce.map (signed ε)) = anyNonzero ce := by
  unfold anyNonzero
  rw [List.any_map]
  congr 1
  funext c
  exact signed_any _ (fun a => by simp) ε c

/-! ### Evaluations -/

/-- The evaluation data with the other signs. -/
def evSg {P : Type} (ε : List Bool) (s : EvSt P K) : EvSt P K := { s with ceX := s.ceX.map (signed ε) }

/-- The set with the other signs. -/
def setSg {P : Type} (ε : List Bool) (s : IntSet P (List K) F K) : IntSet P (List K) F K := { s with ceY := s.ceY.map (signed ε) }

/-- The state with the other signs, and without gradients. -/
def stSg (ε : List Bool) (s : MSt K F) : MSt K F :=
  { s with
    ev := evSg ε s.ev
    set := setSg ε s.set
    infoCe := signed ε s.infoCe
    ceplus := signed ε s.ceplus
    gx := ⟨[], []⟩
    infoG := ⟨[], []⟩ }

/-- The problem with the other signs and without gradients. -/
def bareSg (ε : List Bool) (e : Env K F) : Env K F := { e with U := signUser ε e.U, model := fun _ _ _ _ => ⟨[], []⟩ }

theorem sqpdfoFunc_sg {P : Type} (ε : List Bool) (U : User P K) (y : P) (w : World P) :
    sqpdfoFunc (signUser ε U) y w = ({ (sqpdfoFunc U y w).1 with c := signed ε (sqpdfoFunc U y w).1.c }, (sqpdfoFunc U y w).2) := by
  have hnil : signed ε ([] : List (Fl K)) = [] := List.eq_nil_of_length_eq_zero (signed_length ε [])
  obtain ⟨f, c⟩ := U
  unfold sqpdfoFunc signUser
  cases c with
  | none => simp only [Option.map_none, hnil]
  | some c =>
    simp only [Option.map_some]
    cases c { w with logF := w.logF ++ [y] } y with
    | raised => simp only [signOut, hnil]
    | nums vs => simp only [signOut]

theorem augmX_sg {P : Type} (ε : List Bool) (U : User P K) (y : P) (k : ℕ) (s : EvSt P K) :
    augmX (signUser ε U) (.fin big) y k (evSg ε s) = (augmX U (.fin big) y k s).map (evSg ε) := by
  unfold augmX
  dsimp only [evSg]
  rw [sqpdfoFunc_sg]
  generalize sqpdfoFunc U y s.w = r
  obtain ⟨⟨msg, f, c⟩, w⟩ := r
  dsimp only
  have h1 : (signed ε c).any Fl.isNan = c.any Fl.isNan := signed_any _ Fl.neg_isNan ε c
  have h2 : ((signed ε c).map clipCe).isEmpty = (c.map clipCe).isEmpty := by
    rw [Bool.eq_iff_iff, List.isEmpty_iff, List.isEmpty_iff, ← List.length_eq_zero_iff, ← List.length_eq_zero_iff, List.length_map, List.length_map,
      signed_length]
  rw [h1, h2, ← signed_map _ clipCe_neg]
  cases f with
  | raised => rfl
  | other => rfl
  | num v =>
    dsimp only
    split
    · rfl
    split
    · rfl
    split
    · rfl
    split
    · rfl
    · simp only [Option.map_some, Option.some.injEq]
      split
      · rfl
      · rw [evSg, setOrAppend_map]

theorem swapInY_sg {P : Type} (ε : List Bool) (build : List P → F) (i j : ℕ) (s : IntSet P (List K) F K) :
    swapInY build i j (setSg ε s) = (swapInY build i j s).map (setSg ε) := by
  unfold swapInY
  split
  · rfl
  · dsimp only [setSg]
    rw [swapOpt_map]
    cases swapL s.Y (if i > j then j else i) (if i > j then i else j) <;>
      cases swapL s.ind (if i > j then j else i) (if i > j then i else j) <;>
      cases swapL s.fY (if i > j then j else i) (if i > j then i else j) <;>
      cases swapOpt s.ciY (if i > j then j else i) (if i > j then i else j) <;>
      cases swapOpt s.ceY (if i > j then j else i) (if i > j then i else j) <;> rfl

theorem findSmallf_sg {P : Type} (ε : List Bool) (build : List P → F) (choice : Option ℕ) (s : IntSet P (List K) F K)
    (fx : K) (i : ℕ) (g : K) : findSmallf build choice ⟨setSg ε s, fx, i, g⟩ =
      (findSmallf build choice ⟨s, fx, i, g⟩).map fun t => ⟨setSg ε t.s, t.fx, t.ixbest, t.infoF⟩ := by
  unfold findSmallf
  cases choice with
  | some k =>
    simp only [swapInY_sg]
    cases swapInY build 0 k s with
    | none => rfl
    | some t =>
      simp only [Option.map_some, setSg]
      cases t.fY[0]? <;> cases t.ind[0]? <;> rfl
  | none =>
    simp only [setSg]
    cases s.fY[0]? <;> rfl

/-! ### Stages -/

theorem callSmallf_sg {ε : List Bool} {e : Env K F} (h : SignOk ε e) (s : MSt K F) :
    callSmallf (bareSg ε e) (stSg ε s) = (callSmallf e s).map (stSg ε) := by
  unfold callSmallf
  have h1 : (stSg ε s).set.ceY.mapM (fun c => (bareSg ε e).resNorm c (stSg ε s).sl) = s.set.ceY.mapM (fun c => e.resNorm c s.sl) := by
    show (s.set.ceY.map (signed ε)).mapM (fun c => e.resNorm c s.sl) = _
    rw [List.mapM_map]
    congr 1
    funext c
    exact resNorm_sg h c s.sl
  have h2 : anyNonzero (stSg ε s).set.ceY = anyNonzero s.set.ceY := anyNonzero_sg ε s.set.ceY
  rw [h1, h2]
  show (match (if anyNonzero s.set.ceY then s.set.ceY.mapM (fun c => e.resNorm c s.sl)
      else some (s.set.Y.map fun _ => 0)) with
    | none => PassRes.crash .ceShape
    | some nrms =>
      match findSmallf e.build (smallfChoice (meritY e.trunc s.sigma (anyNonzero s.set.ceY) s.set.fY nrms)
          (indInside e.lb e.ub s.set.Y)) ⟨setSg ε s.set, s.fx, s.ixbest, s.fx⟩ with
      | none => PassRes.crash .index
      | some t =>
        match t.s.Y[0]? with
        | none => PassRes.crash .index
        | some x0 => PassRes.cont { stSg ε s with
            set := t.s
            fx := t.fx
            ixbest := t.ixbest
            x := if (smallfChoice (meritY e.trunc s.sigma (anyNonzero s.set.ceY) s.set.fY nrms)
              (indInside e.lb e.ub s.set.Y)).isSome then x0 else s.x
            ev := { evSg ε s.ev with infoF := .fin t.infoF }
            infoCe := match t.s.ceY[0]? with
              | some c => c
              | none => signed ε s.infoCe }) = _
  cases (if anyNonzero s.set.ceY = true then s.set.ceY.mapM (fun c => e.resNorm c s.sl) else some (s.set.Y.map fun _ => 0)) with
  | none => rfl
  | some nrms =>
    simp only [findSmallf_sg]
    cases findSmallf e.build (smallfChoice (meritY e.trunc s.sigma (anyNonzero s.set.ceY) s.set.fY nrms) (indInside e.lb e.ub s.set.Y))
        ⟨s.set, s.fx, s.ixbest, s.fx⟩ with
    | none => rfl
    | some t =>
      simp only [Option.map_some]
      have h5 : (setSg ε t.s).Y = t.s.Y := rfl
      have h6 : (setSg ε t.s).ceY[0]? = (t.s.ceY[0]?).map (signed (α := K) ε) := List.getElem?_map
      rw [h5, h6]
      cases t.s.Y[0]? with
      | none => rfl
      | some x => cases hc : t.s.ceY[0]? with
        | none => simp only [PassRes.map, Option.map_none, stSg]; rfl
        | some c => simp only [PassRes.map, Option.map_some, stSg]; rfl

theorem evalReplaced_sg (ε : List Bool) (e : Env K F) : ∀ (js : List ℕ) (s : MSt K F),
    evalReplaced (bareSg ε e) js (stSg ε s) = (evalReplaced e js s).map (stSg ε) := by
  intro js
  induction js with
  | nil => intro s; rfl
  | cons j js ih =>
    intro s
    have h1 : (stSg ε s).set.Y = s.set.Y := rfl
    have h2 : (stSg ε s).set.ind = s.set.ind := rfl
    have h3 : (stSg ε s).m = s.m := rfl
    have h4 : (stSg ε s).ev = evSg ε s.ev := rfl
    have h5 : (bareSg ε e).U = signUser ε e.U := rfl
    have h6 : (bareSg ε e).me = e.me := rfl
    simp only [evalReplaced, h1, h2, h3, h4, h5, h6, augmX_sg]
    cases s.set.Y[j]? with
    | none => rfl
    | some y =>
      cases s.set.ind[j]? with
      | none => rfl
      | some i =>
        dsimp only
        cases augmX e.U (.fin big) y (s.m + 1) s.ev with
        | none => rfl
        | some ev =>
          simp only [Option.map_some]
          have g1 : (evSg ε ev).fX = ev.fX := rfl
          have g2 : (evSg ε ev).ceX[s.m + 1]? = (ev.ceX[s.m + 1]?).map (signed ε) := List.getElem?_map
          rw [g1, g2]
          cases ev.fX[s.m + 1]? with
          | none => rfl
          | some v =>
            dsimp only
            cases v.val? with
            | none => rfl
            | some v =>
              dsimp only
              by_cases hm : e.me > 0
              · rw [if_pos hm, if_pos hm]
                cases ev.ceX[s.m + 1]? with
                | none => rfl
                | some c =>
                  simp only [Option.map_some, Option.bind_some, colK_sg]
                  cases colK c with
                  | none => rfl
                  | some c =>
                    simp only [Option.map_some]
                    have hset : (stSg ε s).set.ceY.set j (signed ε c) = (s.set.ceY.set j c).map (signed ε) := by
                      rw [List.map_set]; rfl
                    rw [← ih, hset]
                    rfl
              · rw [if_neg hm, if_neg hm, ← ih]
                rfl

theorem improveEnd_sg (ε : List Bool) (e : Env K F) (k : Meas K) (r : K) (s : MSt K F) :
    improveEnd (bareSg ε e) k r (stSg ε s) = (improveEnd e k r s).map (stSg ε) :=
  ite_plus (fun _ => rfl) fun _ => ite_plus (fun _ => rfl) fun _ => rfl

theorem repairStage_sg {ε : List Bool} {e : Env K F} (h : SignOk ε e) (o : Orc K F) (r : K) (s : MSt K F) :
    repairStage (bareSg ε e) o r (stSg ε s) = (repairStage e o r s).map (stSg ε) := by
  unfold repairStage
  dsimp only
  rw [PassRes.map_bind (f := stSg ε) (k' := fun s => improveEnd (bareSg ε e) o.k2 r (s.newGx (bareSg ε e)).storeG) (fun _ _ => rfl)
    (fun u _ => by rw [← improveEnd_sg]; rfl)]
  rw [PassRes.map_bind (f := stSg ε) (k' := callSmallf (bareSg ε e)) (fun _ _ => rfl) (fun u _ => (callSmallf_sg h u).symm)]
  rw [← evalReplaced_sg ε e]
  rfl

theorem improve_sg {ε : List Bool} {e : Env K F} (h : SignOk ε e) (o : Orc K F) (s : MSt K F) :
    improve (bareSg ε e) o (stSg ε s) = (improve e o s).map (stSg ε) :=
  ite_plus (fun _ => ite_plus (fun _ => rfl) fun _ => ite_plus (fun _ => rfl) fun _ => by
    rw [← repairStage_sg h]; rfl) fun _ => rfl

theorem penalty_sg (ε : List Bool) (o : Orc K F) (s : MSt K F) : penalty o (stSg ε s) = (penalty o s).map (stSg ε) :=
  ite_plus (fun _ => ite_plus (fun _ => rfl) fun _ => rfl) fun _ => rfl

/-- The constraint data a pass works with. -/
def CalmSt (ε : List Bool) (e : Env K F) (s : MSt K F) : Prop := ε = [] ∨ e.Ok ∧ e.Constr ∧ e.Tame ∧ Ce e [] s ∧ Inv e [] s

theorem evalTrial_sg (ε : List Bool) (e : Env K F) (o : Orc K F) (s : MSt K F) (hs : CalmSt ε e s) :
    evalTrial (bareSg ε e) o (stSg ε s) = (evalTrial e o s).map (stSg ε) := by
  unfold evalTrial
  dsimp only
  have h1 : augmX (bareSg ε e).U (.fin big) o.xnew ((stSg ε s).m + 1) (stSg ε s).ev =
      (augmX e.U (.fin big) o.xnew (s.m + 1) s.ev).map (evSg ε) := augmX_sg ε e.U o.xnew (s.m + 1) s.ev
  rw [h1]
  cases ha : augmX e.U (.fin big) o.xnew (s.m + 1) s.ev with
  | none => rfl
  | some ev =>
    simp only [Option.map_some]
    have hcalm : Calm ε e.me ev.ceX := by
      rcases hs with h | ⟨-, hC, hT, h, -⟩
      · exact Or.inl h
      · obtain ⟨-, -, ⟨-, a, -⟩ | ⟨-, -, col, hcol, hce, -⟩⟩ := augmX_tame e hC hT o.xnew _ _ _ h.Xlen h.fXlen h.len ha
        · exact Or.inr fun c hc => h.cols c (by rw [← a]; exact hc)
        · refine Or.inr fun c hc => ?_
          rw [hce, List.mem_append, List.mem_singleton] at hc
          rcases hc with hc | rfl
          · exact h.cols c hc
          · exact hcol
    have h2 : (finVals (evSg ε ev).ceX).any (fun v => decide (v ≠ 0)) = (finVals ev.ceX).any (fun v => decide (v ≠ 0)) :=
      finVals_sg _ (fun q => by simp) ε ev.ceX
    have h3 : (replaceHuge (evSg ε ev).ceX).bind replaceHugeNeg = ((replaceHuge ev.ceX).bind replaceHugeNeg).map (List.map (signed ε)) :=
      hcalm.huge_sg
    rw [h2, h3]
    refine ite_plus (fun _ => rfl) fun _ => ite_plus (fun _ => ?_) fun _ => rfl
    cases (replaceHuge ev.ceX).bind replaceHugeNeg with
    | none => rfl
    | some ceX =>
      simp only [Option.map_some]
      have h4 : (ceX.map (signed ε))[(stSg ε s).m + 1]? = (ceX[s.m + 1]?).map (signed ε) := List.getElem?_map
      rw [h4]
      cases ceX[s.m + 1]? with
      | none => rfl
      | some c =>
        simp only [Option.map_some, Option.bind_some, colK_sg]
        cases colK c with
        | none => rfl
        | some c => rfl

theorem accSet_sg (ε : List Bool) (e : Env K F) (f : K) (pos : ℕ) (s : MSt K F) :
    accSet (bareSg ε e) f pos (stSg ε s) = setSg ε (accSet e f pos s) := by
  by_cases h : e.me > 0
  · rw [accSet, accSet, if_pos h, if_pos (show (bareSg ε e).me > 0 from h), setSg, setOrAppend_map]; rfl
  · rw [accSet, accSet, if_neg h, if_neg (show ¬ (bareSg ε e).me > 0 from h), setSg]; rfl

theorem accepted_sg {ε : List Bool} {e : Env K F} (h : SignOk ε e) (o : Orc K F) (f rho norms : K) (pos : ℕ) (s : MSt K F) :
    accepted (bareSg ε e) o f rho norms pos (stSg ε s) = (accepted e o f rho norms pos s).map (stSg ε) := by
  have h1 : (e.me > 0 ∧ (signed ε s.ceplus).length ≠ e.me) ↔ (e.me > 0 ∧ s.ceplus.length ≠ e.me) := by rw [signed_length]
  unfold accepted
  dsimp only
  have h2 : ((bareSg ε e).me > 0 ∧ (stSg ε s).ceplus.length ≠ (bareSg ε e).me) ↔ (e.me > 0 ∧ s.ceplus.length ≠ e.me) := h1
  simp only [h2]
  refine ite_plus (fun _ => rfl) fun _ => ?_
  show accEnd (bareSg ε e) o f rho norms (stSg ε s) (swapInY e.build 0 pos (accSet (bareSg ε e) f pos (stSg ε s))) =
    (accEnd e o f rho norms s (swapInY e.build 0 pos (accSet e f pos s))).map (stSg ε)
  rw [accSet_sg, swapInY_sg]
  cases swapInY e.build 0 pos (accSet e f pos s) with
  | none => rfl
  | some set =>
    have h3 : (if e.me > 0 then signed ε s.ceplus else signed ε s.infoCe) = signed ε (if e.me > 0 then s.ceplus else s.infoCe) := by
      split <;> rfl
    have h4 := moveSl_sg h (if e.me > 0 then s.ceplus else s.infoCe) o.slplus
    simp only [Option.map_some, accEnd]
    show (match set.Y[0]? with
      | none => PassRes.crash .index
      | some x0 => PassRes.cont (MSt.storeG (MSt.newGx (bareSg ε e) { stSg ε s with
        set := setSg ε set
        infoCe := if e.me > 0 then signed ε s.ceplus else signed ε s.infoCe
        sl := if e.me > 0 ∧ e.ns > 0 then moveSl e (if e.me > 0 then signed ε s.ceplus else signed ε s.infoCe) o.slplus else s.sl
        x := x0
        fx := f
        ixbest := s.m
        poisedModel := false
        delta := succDelta rho o.active norms s.delta
        rejected := false }))) = _
    rw [h3, h4]
    cases set.Y[0]? with
    | none => rfl
    | some x => rfl

theorem repSet_sg (ε : List Bool) (e : Env K F) (f : K) (pos : ℕ) (s : MSt K F) :
    repSet (bareSg ε e) f pos (stSg ε s) = setSg ε (repSet e f pos s) := by
  by_cases h : e.me > 0
  · rw [repSet, repSet, setSg, if_pos h, if_pos (show (bareSg ε e).me > 0 from h), List.map_set]; rfl
  · rw [repSet, repSet, setSg, if_neg h, if_neg (show ¬ (bareSg ε e).me > 0 from h)]; rfl

theorem replaceAt_sg {ε : List Bool} {e : Env K F} (h : SignOk ε e) (o : Orc K F) (f rho norms : K) (pos : ℕ) (s : MSt K F) :
    replaceAt (bareSg ε e) o f rho norms pos (stSg ε s) = (replaceAt e o f rho norms pos s).map (stSg ε) := by
  have h1 : (e.me > 0 ∧ (signed ε s.ceplus).length ≠ e.me) ↔ (e.me > 0 ∧ s.ceplus.length ≠ e.me) := by rw [signed_length]
  unfold replaceAt
  dsimp only
  have h2 : ((bareSg ε e).me > 0 ∧ (stSg ε s).ceplus.length ≠ (bareSg ε e).me) ↔ (e.me > 0 ∧ s.ceplus.length ≠ e.me) := h1
  simp only [h2]
  refine ite_plus (fun _ => rfl) fun _ => ite_plus (fun _ => ?_) fun _ => ?_
  · show repEnd (bareSg ε e) o f norms (stSg ε s) (swapInY e.build 0 pos (repSet (bareSg ε e) f pos (stSg ε s))) =
      (repEnd e o f norms s (swapInY e.build 0 pos (repSet e f pos s))).map (stSg ε)
    rw [repSet_sg, swapInY_sg]
    cases swapInY e.build 0 pos (repSet e f pos s) with
    | none => rfl
    | some set =>
      have h3 : (match (setSg ε set).ceY[0]? with
          | some c => if e.me > 0 then c else signed ε s.infoCe
          | none => signed ε s.infoCe) = signed ε (match set.ceY[0]? with
          | some c => if e.me > 0 then c else s.infoCe
          | none => s.infoCe) := by
        have : (setSg ε set).ceY[0]? = (set.ceY[0]?).map (signed (α := K) ε) := List.getElem?_map
        rw [this]
        cases set.ceY[0]? with
        | none => rfl
        | some c => simp only [Option.map_some]; split <;> rfl
      simp only [Option.map_some, repEnd]
      show (match set.Y[0]? with
        | none => PassRes.crash .index
        | some x0 => PassRes.cont (MSt.newGx (bareSg ε e) { stSg ε s with
          set := setSg ε set
          infoCe := match (setSg ε set).ceY[0]? with
            | some c => if e.me > 0 then c else signed ε s.infoCe
            | none => signed ε s.infoCe
          sl := if e.me > 0 ∧ e.ns > 0 then moveSl e (match (setSg ε set).ceY[0]? with
            | some c => if e.me > 0 then c else signed ε s.infoCe
            | none => signed ε s.infoCe) o.slplus else s.sl
          x := x0
          fx := f
          ev := { evSg ε s.ev with infoF := .fin f }
          ixbest := s.m
          poisedModel := false
          delta := min (max (2 * norms) s.delta) cDeltamax })) = _
      rw [h3, moveSl_sg h]
      cases set.Y[0]? with
      | none => rfl
      | some x => rfl
  · show PassRes.cont (MSt.newGx (bareSg ε e) { stSg ε s with
      set := repSet (bareSg ε e) f pos (stSg ε s)
      delta := if s.delta > cEps then cGamma2 * s.delta else s.delta }) = _
    rw [repSet_sg]
    rfl

theorem reduce_sg (ε : List Bool) (e : Env K F) (o : Orc K F) (f norms : K) (s : MSt K F) :
    reduce (bareSg ε e) o f norms (stSg ε s) = (reduce e o f norms s).map (stSg ε) :=
  ite_plus (fun _ => rfl) fun _ => rfl

theorem augmentRejected_sg (ε : List Bool) (e : Env K F) (o : Orc K F) (f : K) (s : MSt K F) :
    augmentRejected (bareSg ε e) o f (stSg ε s) = (augmentRejected e o f s).map (stSg ε) := by
  have h1 : (e.me > 0 ∧ (signed ε s.ceplus).length ≠ e.me) ↔ (e.me > 0 ∧ s.ceplus.length ≠ e.me) := by rw [signed_length]
  unfold augmentRejected
  dsimp only
  have h2 : ((bareSg ε e).me > 0 ∧ (stSg ε s).ceplus.length ≠ (bareSg ε e).me) ↔ (e.me > 0 ∧ s.ceplus.length ≠ e.me) := h1
  simp only [h2]
  refine ite_plus (fun _ => rfl) fun _ => ?_
  show PassRes.cont _ = PassRes.cont _
  have h3 : (if e.me > 0 then setOrAppend (s.set.ceY.map (signed ε)) ((augmentY e o.xnew (s.set.Y.take s.cur)).1 - 1) (signed ε s.ceplus)
      else s.set.ceY.map (signed ε)) =
      (if e.me > 0 then setOrAppend s.set.ceY ((augmentY e o.xnew (s.set.Y.take s.cur)).1 - 1) s.ceplus else s.set.ceY).map (signed ε) := by
    split
    · rw [setOrAppend_map]
    · rfl
  congr 1
  show MSt.mk _ _ _ _ _ _ _ _ _ _ _ _ _ _ _ _ _ _ _ _ _ _ _ _ _ _ _ = MSt.mk _ _ _ _ _ _ _ _ _ _ _ _ _ _ _ _ _ _ _ _ _ _ _ _ _ _ _
  congr 1
  show IntSet.mk _ _ _ _ _ _ = IntSet.mk _ _ _ _ _ _
  congr 1

theorem pickRep_sg {ε : List Bool} {e : Env K F} (h : SignOk ε e) (o : Orc K F) (f rho norms : K) (s : MSt K F)
    (far close : Option ℕ × List (List K) × F) :
    pickRep (bareSg ε e) o f rho norms (stSg ε s) far close = (pickRep e o f rho norms s far close).map (stSg ε) := by
  obtain ⟨p, fY, ff⟩ := far
  obtain ⟨q, cY, cf⟩ := close
  unfold pickRep
  cases p with
  | some pos =>
    dsimp only
    rw [PassRes.map_bind (f := stSg ε) (k' := fun s => .cont s.restoreF) (fun _ _ => rfl) (fun u _ => rfl), ← replaceAt_sg h]
    rfl
  | none =>
    dsimp only
    cases q with
    | some pos =>
      dsimp only
      rw [PassRes.map_bind (f := stSg ε) (k' := fun s => .cont s.restoreF) (fun _ _ => rfl) (fun u _ => rfl), ← replaceAt_sg h]
      rfl
    | none => exact reduce_sg ε e o f norms s

theorem replaceOrReduce_sg {ε : List Bool} {e : Env K F} (h : SignOk ε e) (o : Orc K F) (f rho norms : K) (s : MSt K F) :
    replaceOrReduce (bareSg ε e) o f rho norms (stSg ε s) = (replaceOrReduce e o f rho norms s).map (stSg ε) := by
  refine ite_plus (fun _ => ?_) fun _ => reduce_sg ε e o f norms s
  exact pickRep_sg h o f rho norms s
    (includeInY e.dist e.build o.lval2 (findIdx (fun v => decide (v > (1 + cEpsTR) * s.delta)) (farDists e rho o.xnew s))
      (1 / 10 ^ 10) (if rho ≥ cEta1 then .weighted else .distance) o.xnew (if rho ≥ cEta1 then o.xnew else s.x) s.set.Y s.set.fac)
    (includeInY e.dist e.build o.lval3 (findIdx (fun v => decide (v ≤ (1 + cEpsTR) * s.delta))
        (if rho ≥ cEta1 then farDists e rho o.xnew s else (farDists e rho o.xnew s).set 0 (2 * ((1 + cEpsTR) * s.delta))))
        (if rho ≥ cEta1 then 1 / 10 ^ 15 else 6 / 5) .standard o.xnew (if rho ≥ cEta1 then o.xnew else s.x) s.set.Y s.set.fac)

theorem rejectStep_sg {ε : List Bool} {e : Env K F} (h : SignOk ε e) (o : Orc K F) (f rho norms : K) (s : MSt K F) :
    rejectStep (bareSg ε e) o f rho norms (stSg ε s) = (rejectStep e o f rho norms s).map (stSg ε) := by
  refine ite_plus (fun _ => ?_) fun _ => replaceOrReduce_sg h o f rho norms { s with rejected := true }
  rw [PassRes.map_bind (f := stSg ε) (k' := fun s => .cont s.restoreF) (fun _ _ => rfl) (fun u _ => rfl), ← augmentRejected_sg]
  rfl

theorem pickAcc_sg {ε : List Bool} {e : Env K F} (h : SignOk ε e) (o : Orc K F) (f rho norms : K) (s : MSt K F)
    (inc : Option ℕ × List (List K) × F) :
    pickAcc (bareSg ε e) o f rho norms (stSg ε s) inc = (pickAcc e o f rho norms s inc).map (stSg ε) := by
  obtain ⟨p, iY, ifc⟩ := inc
  cases p with
  | some pos => exact accepted_sg h o f _ norms pos { s with set := { s.set with Y := iY, fac := ifc } }
  | none => exact rejectStep_sg h o f _ norms s

theorem decideStep_sg {ε : List Bool} {e : Env K F} (h : SignOk ε e) (o : Orc K F) (norms : K) (s : MSt K F) :
    decideStep (bareSg ε e) o norms (stSg ε s) = (decideStep e o norms s).map (stSg ε) := by
  unfold decideStep
  have h1 : (stSg ε s).ev.fX = s.ev.fX := rfl
  have h2 : (stSg ε s).m = s.m := rfl
  rw [h1, h2]
  cases (s.ev.fX[s.m]?).bind Fl.val? with
  | none => rfl
  | some f =>
    have h3 : (bareSg ε e).resNorm (stSg ε s).ceplus o.slplus = e.resNorm s.ceplus o.slplus := resNorm_sg h s.ceplus o.slplus
    dsimp only
    rw [h3]
    cases e.resNorm s.ceplus o.slplus with
    | none => rfl
    | some c =>
      dsimp only
      refine ite_plus (fun _ => rfl) fun _ => ite_plus (fun _ => ite_plus (fun _ => rfl) fun _ => ite_plus (fun _ => ?_) fun _ => ?_) fun _ => ?_
      · exact accepted_sg h o f _ norms _ { s with
          pred := newPred o s.sigma, cur := (augmentY e o.xnew (s.set.Y.take s.cur)).1, set := { s.set with
            Y := (augmentY e o.xnew (s.set.Y.take s.cur)).2.1, fac := (augmentY e o.xnew (s.set.Y.take s.cur)).2.2 } }
      · exact pickAcc_sg h o f _ norms { s with pred := newPred o s.sigma } (includeInY e.dist e.build o.lval1 (List.range s.cur)
            (1 / 10 ^ 10) .distance o.xnew o.xnew s.set.Y s.set.fac)
      · exact rejectStep_sg h o f _ norms { s with pred := newPred o s.sigma }

theorem globalise_sg {ε : List Bool} {e : Env K F} (h : SignOk ε e) (s : MSt K F) :
    globalise (bareSg ε e) (stSg ε s) = (globalise e s).map (stSg ε) := by
  refine ite_plus (fun _ => rfl) fun _ => ?_
  have h1 : (stSg ε s).ev.infoF = s.ev.infoF := rfl
  rw [h1]
  cases s.ev.infoF.val? with
  | none => rfl
  | some f =>
    dsimp only
    have h3 : (bareSg ε e).resNorm (stSg ε s).infoCe (stSg ε s).sl = e.resNorm s.infoCe s.sl := resNorm_sg h s.infoCe s.sl
    rw [h3]
    cases e.resNorm s.infoCe s.sl with
    | none => rfl
    | some c => rfl

theorem afterGlob_sg {ε : List Bool} {e : Env K F} (h : SignOk ε e) (o : Orc K F) (s : MSt K F) (hs : CalmSt ε e s) :
    afterGlob (bareSg ε e) o (stSg ε s) = (afterGlob e o s).map (stSg ε) := by
  refine ite_plus (fun _ => rfl) fun _ => ?_
  have hpen : ∀ v, penalty o { s with niter := s.niter + 1 } = .cont v → CalmSt ε e v := by
    intro v hv
    rcases hs with h | ⟨he, hC, hT, hc, hI⟩
    · exact Or.inl h
    · have h1 := penalty_inv o { s with niter := s.niter + 1 } { hI with link := fun j hj hp => hI.link j hj hp }
      have h2 := penalty_ce o { s with niter := s.niter + 1 } { hc with }
      rw [hv] at h1 h2
      exact Or.inr ⟨he, hC, hT, h2, h1⟩
  rw [PassRes.map_bind (f := stSg ε) (k' := fun t => decideStep (bareSg ε e) o (stepNorm e o { s with niter := s.niter + 1 }) t)
    (fun _ _ => rfl) (fun t _ => (decideStep_sg h o _ t).symm),
    PassRes.map_bind (f := stSg ε) (k' := evalTrial (bareSg ε e) o) (fun _ _ => rfl) (fun t ht => (evalTrial_sg ε e o t (hpen t ht)).symm),
    ← penalty_sg]
  rfl

theorem stepStage_sg {ε : List Bool} {e : Env K F} (h : SignOk ε e) (o : Orc K F) (s : MSt K F) (hs : CalmSt ε e s) :
    stepStage (bareSg ε e) o (stSg ε s) = (stepStage e o s).map (stSg ε) := by
  show (globalise (bareSg ε e) (stSg ε s)).bind (afterGlob (bareSg ε e) o) = ((globalise e s).bind (afterGlob e o)).map (stSg ε)
  have hg : ∀ v, globalise e s = .cont v → CalmSt ε e v := by
    intro v hv
    rcases hs with h | ⟨he, hC, hT, hc, hI⟩
    · exact Or.inl h
    · have h1 := globalise_sat s hI
      have h2 := globalise_ce s hc
      rw [hv] at h1 h2
      exact Or.inr ⟨he, hC, hT, h2, h1⟩
  rw [PassRes.map_bind (f := stSg ε) (k' := afterGlob (bareSg ε e) o) (fun _ _ => rfl) (fun u hu => (afterGlob_sg h o u (hg u hu)).symm),
    globalise_sg h s]

theorem pass_sg {ε : List Bool} {e : Env K F} (h : SignOk ε e) (o : Orc K F) (s : MSt K F) (hs : CalmSt ε e s) :
    pass (bareSg ε e) o (stSg ε s) = (pass e o s).map (stSg ε) := by
  refine ite_plus (fun _ => rfl) fun _ => ite_plus (fun _ => rfl) fun _ => ite_plus (fun _ => rfl) fun _ => ?_
  dsimp only
  rw [PassRes.map_bind (f := stSg ε) (k' := stepStage (bareSg ε e) o) (fun _ _ => rfl) (fun u hu => (stepStage_sg h o u ?_).symm)]
  · congr 1
    exact ite_plus (fun _ => improve_sg h o { s.measure o.k1 with ev := { s.ev with flag := Status.success } }) fun _ => rfl
  · rcases hs with h | ⟨he, hC, hT, hc, hI⟩
    · exact Or.inl h
    · have hI' : Inv e [] { s.measure o.k1 with ev := { s.ev with flag := Status.success } } :=
        { hI with link := fun j hj hp => hI.link j hj hp, flag := rfl }
      have h' : Ce e [] { s.measure o.k1 with ev := { s.ev with flag := Status.success } } := { hc with flag := rfl }
      refine Or.inr ⟨he, hC, hT, ?_⟩
      split at hu
      · have h1 := improve_sat e he o _ hI'
        have h2 := improve_ce he hC hT o _ h' hI'
        rw [hu] at h1 h2
        exact ⟨h2, h1.1⟩
      · cases hu; exact ⟨h', hI'⟩

theorem mainLoop_sg {ε : List Bool} {e : Env K F} (h : SignOk ε e) : ∀ (os : List (Orc K F)) (s : MSt K F), CalmSt ε e s →
    mainLoop (bareSg ε e) os (stSg ε s) = (mainLoop e os s).map (stSg ε) := by
  intro os
  induction os with
  | nil => intro s _; rfl
  | cons o os ih =>
    intro s hs
    simp only [mainLoop, pass_sg h o s hs]
    cases hp : pass e o s with
    | cont t =>
      refine ih t ?_
      rcases hs with h | ⟨he, hC, hT, hc, hI⟩
      · exact Or.inl h
      · have h1 := pass_sat e he o s hI
        have h2 := pass_ce he hC hT o s hc hI
        rw [hp] at h1 h2
        exact Or.inr ⟨he, hC, hT, h2, h1.1⟩
    | ret t => rfl
    | crash c => rfl

/-! ### The start -/

theorem samplePass_sg {P : Type} (ε : List Bool) (U : User P K) : ∀ (ys : List P) (i : ℕ) (s : EvSt P K),
    samplePass (signUser ε U) ys i (evSg ε s) = (samplePass U ys i s).map (evSg ε) := by
  intro ys
  induction ys with
  | nil => intro i s; rfl
  | cons y ys ih =>
    intro i s
    simp only [samplePass, augmX_sg]
    cases augmX U (.fin big) y i s with
    | none => rfl
    | some t =>
      simp only [Option.map_some]
      have h1 : (evSg ε t).flag = t.flag := rfl
      have h2 : (evSg ε t).fX = t.fX := rfl
      rw [h1, h2]
      split
      · rfl
      · cases t.fX[i]? with
        | none => rfl
        | some v =>
          dsimp only
          split
          · rfl
          · exact ih (i + 1) t

theorem samplePass_broke_ce {e : Env K F} (hC : e.Constr) (hT : e.Tame) :
    ∀ (ys : List (List K)) (i : ℕ) (s s' : EvSt (List K) K), CeS e i s →
      samplePass e.U ys i s = .broke s' → ∀ col ∈ s'.ceX, GoodCol e.me col := by
  intro ys
  induction ys with
  | nil => intro i s s' h hp; simp [samplePass] at hp
  | cons y ys ih =>
    intro i s s' h hp
    simp only [samplePass] at hp
    split at hp
    · cases hp
    · rename_i t ht
      split at hp
      · cases hp
      · rename_i hfl
        have hfl : t.flag = 0 := by simpa using hfl
        obtain ⟨a1, a2, a3⟩ := augmX_tame e hC hT y _ _ _ h.X h.fX h.len ht
        rcases a3 with ⟨a3, -⟩ | ⟨-, hlen, col, hcol, hce, hans⟩
        · rw [hfl] at a3; cases a3
        have hcols : ∀ c ∈ t.ceX, GoodCol e.me c := by
          intro c hc
          rw [hce, List.mem_append] at hc
          rcases hc with hc | hc
          · exact h.cols c hc
          · rw [List.mem_singleton] at hc; rw [hc]; exact hcol
        split at hp
        · cases hp
        · split at hp
          · cases hp; exact hcols
          · exact ih (i + 1) t s' {
              cols := hcols
              hist := by rw [a1, hce]; exact h.hist.append (by rw [h.len, h.X]) a2 hans
              X := by rw [a1]; simp [h.X]
              fX := hlen
              len := by rw [hce]; simp [h.len]
              flag := hfl } hp

theorem initLoop_sg (ε : List Bool) (e : Env K F) (hs : ε = [] ∨ e.Constr ∧ e.Tame) (x0 : List K) (nx : K) :
    ∀ (fuel : ℕ) (D : K) (s : EvSt (List K) K), s.flag = 0 →
      initLoop (signUser ε e.U) x0 nx fuel D (evSg ε s) = (initLoop e.U x0 nx fuel D s).map (evSg ε) := by
  intro fuel
  induction fuel with
  | zero => intro D s _; rfl
  | succ fuel ih =>
    intro D s hfl
    have hp := samplePass_sg ε e.U (simplex x0 D) 0 { s with X := [], fX := [], ceX := [] }
    have h0 : CeS e 0 ({ s with X := [], fX := [], ceX := [] } : EvSt (List K) K) := {
      cols := by intro c hc; simp at hc
      hist := by intro i c hc; simp at hc
      X := rfl, fX := rfl, len := rfl, flag := hfl }
    simp only [initLoop]
    rw [show ({ evSg ε s with X := [], fX := [], ceX := [] } : EvSt (List K) K) = evSg ε { s with X := [], fX := [], ceX := [] } from rfl, hp]
    cases hr : samplePass e.U (simplex x0 D) 0 { s with X := [], fX := [], ceX := [] } with
    | crash => rfl
    | failed t => rfl
    | broke t =>
      have hcalm : Calm ε e.me t.ceX := hs.imp_right fun h => samplePass_broke_ce h.1 h.2 _ _ _ _ h0 hr
      have hflt : t.flag = 0 := samplePass_broke_flag e.U _ _ _ _ hr
      obtain ⟨c1, c2⟩ := hcalm.replaceHuge_sg
      simp only [SampleRes.map]
      rw [show (evSg ε t).ceX = t.ceX.map (signed ε) from rfl, c1]
      cases hh : replaceHuge t.ceX with
      | none => rfl
      | some c =>
        simp only [Option.map_some, c2 c hh]
        cases replaceHugeNeg c with
        | none => rfl
        | some c =>
          simp only [Option.map_some]
          split
          · rfl
          · exact ih _ { t with ceX := c } hflt
    | full t =>
      have hcalm : Calm ε e.me t.ceX := hs.imp_right fun h => (samplePass_ce h.1 h.2 _ _ _ _ h0 hr).cols
      obtain ⟨c1, c2⟩ := hcalm.replaceHuge_sg
      simp only [SampleRes.map]
      rw [show (evSg ε t).ceX = t.ceX.map (signed ε) from rfl, c1]
      cases hh : replaceHuge t.ceX with
      | none => rfl
      | some c =>
        simp only [Option.map_some, c2 c hh]
        cases replaceHugeNeg c with
        | none => rfl
        | some c => rfl

theorem mapM_col_sg (ε : List Bool) (l : List (List (Fl K))) :
    (l.map (signed ε)).mapM colK = (l.mapM colK).map (List.map (signed ε)) := by
  induction l with
  | nil => rfl
  | cons v l ih =>
    rw [List.map_cons, List.mapM_cons, List.mapM_cons, ih, colK_sg]
    cases colK v with
    | none => rfl
    | some q =>
      cases l.mapM colK with
      | none => rfl
      | some l => rfl

theorem mainInit_sg (ε : List Bool) (e : Env K F) (D : K) (sl : List K) (ev : EvSt (List K) K) :
    mainInit (bareSg ε e) D sl (evSg ε ev) = (mainInit e D sl ev).map (stSg ε) := by
  have hnil : signed ε ([] : List K) = [] := List.eq_nil_of_length_eq_zero (signed_length ε [])
  unfold mainInit
  rw [show (evSg ε ev).fX = ev.fX from rfl, show (evSg ε ev).ceX = ev.ceX.map (signed ε) from rfl, mapM_col_sg, show (evSg ε ev).X = ev.X from rfl]
  cases ev.fX.mapM Fl.val? with
  | none => rfl
  | some fY =>
    cases ev.ceX.mapM colK with
    | none => rfl
    | some ceY =>
      cases ev.X[0]? with
      | none => rfl
      | some x =>
        simp only [Option.map_some, List.getElem?_map]
        cases fY[0]? with
        | none => rfl
        | some f =>
          cases hc : ceY[0]? with
          | none => simp only [Option.map_none, Option.map_some, stSg, hnil]; rfl
          | some c => simp only [Option.map_some, stSg, hnil]; rfl

theorem startState_sg (ε : List Bool) (e : Env K F) (hs : ε = [] ∨ e.Constr ∧ e.Tame) (x0 : List K) (fuel : ℕ) (D : K) (sl : List K) :
    startState (bareSg ε e) x0 fuel D sl = (startState e x0 fuel D sl).map (stSg ε) := by
  unfold startState
  have h := initLoop_sg ε e hs x0 (e.nrm x0) fuel D emptyEv rfl
  rw [show evSg ε (emptyEv : EvSt (List K) K) = emptyEv from rfl] at h
  rw [show (bareSg ε e).U = signUser ε e.U from rfl, show (bareSg ε e).nrm = e.nrm from rfl, h]
  cases initLoop e.U x0 (e.nrm x0) fuel D emptyEv with
  | done D' ev => exact mainInit_sg ε e D' sl ev
  | crash => rfl
  | failed s => rfl
  | stalled s => rfl
  | running => rfl

/-! ### From the run without gradients to the two runs -/

theorem signUser_nil {P : Type} (U : User P K) : signUser [] U = U := by
  obtain ⟨f, c⟩ := U
  cases c with
  | none => rfl
  | some c =>
    simp only [signUser, Option.map_some, User.mk.injEq, Option.some.injEq, true_and]
    funext w y
    cases c w y with
    | raised => rfl
    | nums vs => simp only [signOut, signed_nil]

theorem bareSg_nil (ε : List Bool) (e : Env K F) : bareSg [] (signEnv ε e) = bareSg ε e := by
  unfold bareSg signEnv
  dsimp only
  rw [signUser_nil]

theorem signOk_nil (ε : List Bool) {e : Env K F} (h : SignOk ε e) : SignOk [] (signEnv ε e) :=
  ⟨fun i hi => by simp at hi, fun l => by rw [signed_nil]⟩

theorem signed_of_bare {ε : List Bool} {s t : MSt K F} (h : stSg [] t = stSg ε s) : SignedBy ε s t := by
  exact {
    niter := (congrArg MSt.niter h :)
    points := (congrArg (fun u => u.ev.X) h :)
    values := (congrArg (fun u => u.ev.fX) h :)
    ceX := by rw [← map_signed_nil t.ev.ceX]; exact (congrArg (fun u => u.ev.ceX) h :)
    nsimul := (congrArg (fun u => u.ev.nsimul) h :)
    infoF := (congrArg (fun u => u.ev.infoF) h :)
    flag := (congrArg (fun u => u.ev.flag) h :)
    calls := (congrArg (fun u => u.ev.w) h :)
    m := (congrArg MSt.m h :)
    Y := (congrArg (fun u => u.set.Y) h :)
    ind := (congrArg (fun u => u.set.ind) h :)
    fY := (congrArg (fun u => u.set.fY) h :)
    ciY := (congrArg (fun u => u.set.ciY) h :)
    ceY := by rw [← map_signed_nil t.set.ceY]; exact (congrArg (fun u => u.set.ceY) h :)
    fac := (congrArg (fun u => u.set.fac) h :)
    cur := (congrArg MSt.cur h :)
    x := (congrArg MSt.x h :)
    fx := (congrArg MSt.fx h :)
    ixbest := (congrArg MSt.ixbest h :)
    delta := (congrArg MSt.delta h :)
    sigma := (congrArg MSt.sigma h :)
    pred := (congrArg MSt.pred h :)
    epsCur := (congrArg MSt.epsCur h :)
    rejected := (congrArg MSt.rejected h :)
    poisedModel := (congrArg MSt.poisedModel h :)
    f0 := (congrArg MSt.f0 h :)
    ce0n := (congrArg MSt.ce0n h :)
    merit0 := (congrArg MSt.merit0 h :)
    glagn := (congrArg MSt.glagn h :)
    feasn := (congrArg MSt.feasn h :)
    compl := (congrArg MSt.compl h :)
    poised := (congrArg MSt.poised h :)
    yradius := (congrArg MSt.yradius h :)
    infoCe := by rw [← signed_nil t.infoCe]; exact (congrArg MSt.infoCe h :)
    ceplus := by rw [← signed_nil t.ceplus]; exact (congrArg MSt.ceplus h :)
    sl := (congrArg MSt.sl h :) }

theorem mainLoop_signed {ε : List Bool} {e : Env K F} (h : SignOk ε e) (os : List (Orc K F)) (s t : MSt K F)
    (hs : CalmSt ε e s) (hst : stSg [] t = stSg ε s) :
    (mainLoop e os s).Both (fun s t => stSg [] t = stSg ε s) (mainLoop (signEnv ε e) os t) := by
  have h1 := mainLoop_sg h os s hs
  have h2 := mainLoop_sg (signOk_nil ε h) os t (Or.inl rfl)
  rw [bareSg_nil, hst, h1] at h2
  cases hr : mainLoop e os s <;> cases hr' : mainLoop (signEnv ε e) os t <;> rw [hr, hr'] at h2 <;>
    simp only [MainRes.map, MainRes.done.injEq, MainRes.running.injEq, MainRes.crash.injEq, reduceCtorEq] at h2
  · exact h2.symm
  · exact h2.symm
  · exact h2.symm

theorem startState_signed (ε : List Bool) (e : Env K F) (hs : e.Constr ∧ e.Tame) (x0 : List K) (fuel : ℕ) (D : K) (sl : List K) :
    (startState e x0 fuel D sl = none → startState (signEnv ε e) x0 fuel D sl = none) ∧
    ∀ s, startState e x0 fuel D sl = some s →
      ∃ t, startState (signEnv ε e) x0 fuel D sl = some t ∧ stSg [] t = stSg ε s := by
  have h1 := startState_sg ε e (Or.inr hs) x0 fuel D sl
  have h2 := startState_sg [] (signEnv ε e) (Or.inl rfl) x0 fuel D sl
  rw [bareSg_nil, h1] at h2
  constructor
  · intro h
    rw [h] at h2
    cases ht : startState (signEnv ε e) x0 fuel D sl with
    | none => rfl
    | some t => rw [ht] at h2; cases h2
  · intro s h
    rw [h] at h2
    cases ht : startState (signEnv ε e) x0 fuel D sl with
    | none => rw [ht] at h2; cases h2
    | some t =>
      rw [ht] at h2
      simp only [Option.map_some, Option.some.injEq] at h2
      exact ⟨t, rfl, h2.symm⟩

end Sqpdfo
