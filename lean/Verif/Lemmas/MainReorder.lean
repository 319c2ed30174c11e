import Verif.Spec.Reorder
import Verif.Lemmas.MainShift
import Mathlib.Data.Fin.Tuple.Sort
import Mathlib.Data.List.OfFn

/-! # Constraints in another order -/

set_option linter.unusedSectionVars false

namespace Sqpdfo
open Spec
variable {K F : Type} [Field K] [LinearOrder K] [IsStrictOrderedRing K] {m : ℕ}

/-! ### Lists -/

theorem reorder_length {α : Type} (σ : Equiv.Perm (Fin m)) (l : List α) : (reorder σ l).length = l.length := by
  unfold reorder
  split
  · rename_i h; rw [List.length_ofFn, h]
  · rfl

theorem reorder_map {α β : Type} (σ : Equiv.Perm (Fin m)) (f : α → β) (l : List α) : reorder σ (l.map f) = (reorder σ l).map f := by
  unfold reorder
  by_cases h : l.length = m
  · rw [dif_pos h, dif_pos (by rw [List.length_map]; exact h), List.map_ofFn]
    congr 1
    funext i
    simp
  · rw [dif_neg h, dif_neg (by rw [List.length_map]; exact h)]

theorem reorder_get {α : Type} (σ : Equiv.Perm (Fin m)) (l : List α) (h : l.length = m) (i : Fin m) : (reorder σ l)[(i : ℕ)]? = l[(σ i : ℕ)]? := by
  unfold reorder
  rw [dif_pos h, List.getElem?_ofFn, dif_pos i.2]
  simp

theorem reorder_one {α : Type} (l : List α) : reorder (1 : Equiv.Perm (Fin m)) l = l := by
  unfold reorder
  split
  · rename_i h
    subst h
    exact List.ofFn_get l
  · rfl

theorem reorder_perm {α : Type} (σ : Equiv.Perm (Fin m)) (l : List α) : (reorder σ l).Perm l := by
  unfold reorder
  split
  · rename_i h
    subst h
    refine (Equiv.Perm.ofFn_comp_perm σ l.get).trans ?_
    rw [List.ofFn_get]
  · exact List.Perm.refl l

theorem reorder_zipWith {α β γ : Type} (σ : Equiv.Perm (Fin m)) (f : α → β → γ) (a : List α) (b : List β) (h : a.length = b.length) :
    reorder σ (List.zipWith f a b) = List.zipWith f (reorder σ a) (reorder σ b) := by
  by_cases ha : a.length = m
  · have hb : b.length = m := h ▸ ha
    refine List.ext_getElem? fun i => ?_
    rcases Nat.lt_or_ge i m with hi | hi
    · have hz : (List.zipWith f a b).length = m := by rw [List.length_zipWith, ha, hb, Nat.min_self]
      have g1 := reorder_get σ (List.zipWith f a b) hz ⟨i, hi⟩
      have g2 := reorder_get σ a ha ⟨i, hi⟩
      have g3 := reorder_get σ b hb ⟨i, hi⟩
      rw [List.getElem?_zipWith] at g1 ⊢
      simp only at g1 g2 g3
      rw [g1, g2, g3]
    · rw [List.getElem?_eq_none, List.getElem?_eq_none]
      · rw [List.length_zipWith, reorder_length, reorder_length, ha, hb]; omega
      · rw [reorder_length, List.length_zipWith, ha, hb]; omega
  · have hb : b.length ≠ m := h ▸ ha
    have hz : (List.zipWith f a b).length ≠ m := by rw [List.length_zipWith, ← h, Nat.min_self]; exact ha
    unfold reorder
    rw [dif_neg ha, dif_neg hb, dif_neg hz]

theorem reorder_drop {α : Type} (σ : Equiv.Perm (Fin m)) (k : ℕ) (hσ : ∀ i : Fin m, k ≤ i → σ i = i) (l : List α) (h : l.length = m) :
    (reorder σ l).drop k = l.drop k := by
  refine List.ext_getElem? fun i => ?_
  rw [List.getElem?_drop, List.getElem?_drop]
  rcases Nat.lt_or_ge (k + i) m with hi | hi
  · have g := reorder_get σ l h ⟨k + i, hi⟩
    rw [hσ ⟨k + i, hi⟩ (by simp)] at g
    exact g
  · rw [List.getElem?_eq_none, List.getElem?_eq_none]
    · omega
    · rw [reorder_length]; omega

/-- A list that is constant where the order changes. -/
theorem reorder_const {α : Type} (σ : Equiv.Perm (Fin m)) (k : ℕ) (hσ : ∀ i : Fin m, k ≤ i → σ i = i) (a : α) (b : List α)
    (h : (List.replicate k a ++ b).length = m) : reorder σ (List.replicate k a ++ b) = List.replicate k a ++ b := by
  have hlt : ∀ i : Fin m, (i : ℕ) < k → (σ i : ℕ) < k := by
    intro i hi
    by_contra hc
    have := hσ (σ i) (not_lt.1 hc)
    have h2 : σ i = i := σ.injective this
    rw [h2] at hc
    exact hc hi
  refine List.ext_getElem? fun i => ?_
  rcases Nat.lt_or_ge i m with hi | hi
  · have g := reorder_get σ _ h ⟨i, hi⟩
    simp only at g
    rw [g]
    rcases Nat.lt_or_ge i k with hk | hk
    · have h2 := hlt ⟨i, hi⟩ hk
      rw [List.getElem?_append_left (by simpa using h2), List.getElem?_append_left (by simpa using hk), List.getElem?_replicate,
        List.getElem?_replicate, if_pos h2, if_pos hk]
    · rw [hσ ⟨i, hi⟩ hk]
  · rw [List.getElem?_eq_none, List.getElem?_eq_none]
    · omega
    · rw [reorder_length]; omega

theorem resid_re {σ : Equiv.Perm (Fin m)} (ns : ℕ) (hσ : ∀ i : Fin m, m - ns ≤ i → σ i = i) (ce sl : List K) :
    resid ns (reorder σ ce) sl = (resid ns ce sl).map (reorder σ) := by
  by_cases hl : ce.length = m
  · unfold resid
    rw [reorder_length]
    split
    · rfl
    split
    · rfl
    · rename_i h1 h2
      push Not at h2
      have hlen : (List.replicate (ce.length - ns) (0 : K) ++ sl.map (· ^ 2)).length = ce.length := by
        rw [List.length_append, List.length_replicate, List.length_map, h2.2]; omega
      rw [Option.map_some, reorder_zipWith _ _ _ _ hlen.symm, reorder_const σ (ce.length - ns) (by rw [hl]; exact hσ) _ _ (hlen.trans hl)]
  · have h1 : reorder σ ce = ce := by unfold reorder; rw [dif_neg hl]
    rw [h1]
    unfold resid
    split
    · rw [Option.map_some, h1]
    split
    · rfl
    · rename_i h2 h3
      push Not at h3
      rw [Option.map_some]
      congr 1
      unfold reorder
      rw [dif_neg]
      rw [List.length_zipWith, List.length_append, List.length_replicate, List.length_map, h3.2]
      omega

theorem resNorm_re {σ : Equiv.Perm (Fin m)} {e : Env K F} (h : OrderOk σ e) (ce sl : List K) : e.resNorm (reorder σ ce) sl = e.resNorm ce sl := by
  unfold Env.resNorm
  rw [resid_re _ h.slacks]
  cases resid e.ns ce sl with
  | none => rfl
  | some l =>
    simp only [Option.map_some, Option.some.injEq]
    by_cases hl : l.length = m
    · exact h.nrm l hl
    · unfold reorder; rw [dif_neg hl]

theorem moveSl_re {σ : Equiv.Perm (Fin m)} {e : Env K F} (h : OrderOk σ e) (ce sl : List K) : moveSl e (reorder σ ce) sl = moveSl e ce sl := by
  unfold moveSl
  by_cases hl : ce.length = m
  · rw [reorder_drop σ _ (by rw [h.me]; exact h.slacks) ce hl]
  · unfold reorder; rw [dif_neg hl]

theorem colK_re (σ : Equiv.Perm (Fin m)) (c : List (Fl K)) : colK (reorder σ c) = (colK c).map (reorder σ) := by
  unfold colK
  by_cases h : ∀ v ∈ c, ∃ q, v = Fl.fin q
  · have key : ∀ l : List (Fl K), (∀ v ∈ l, ∃ q, v = Fl.fin q) → ∃ k : List K, l = k.map Fl.fin := by
      intro l
      induction l with
      | nil => intro _; exact ⟨[], rfl⟩
      | cons v l ih =>
        intro h
        obtain ⟨q, rfl⟩ := h v List.mem_cons_self
        obtain ⟨k, rfl⟩ := ih fun w hw => h w (List.mem_cons_of_mem _ hw)
        exact ⟨q :: k, rfl⟩
    have some : ∀ k : List K, (k.map Fl.fin).mapM Fl.val? = some k := by
      intro k
      induction k with
      | nil => rfl
      | cons q k ih => rw [List.map_cons, List.mapM_cons, ih]; rfl
    obtain ⟨k, rfl⟩ := key c h
    rw [reorder_map, some, some]
    rfl
  · have none : ∀ l : List (Fl K), (∃ v ∈ l, ∀ q, v ≠ Fl.fin q) → l.mapM Fl.val? = none := by
      intro l
      induction l with
      | nil => rintro ⟨v, hv, -⟩; cases hv
      | cons w l ih =>
        rintro ⟨v, hv, hq⟩
        rw [List.mapM_cons]
        cases hw : w.val? with
        | none => rfl
        | some q =>
          rcases List.mem_cons.1 hv with rfl | hv
          · cases v with
            | fin r => exact absurd rfl (hq r)
            | nan => cases hw
            | pinf => cases hw
            | ninf => cases hw
          · rw [ih ⟨v, hv, hq⟩]; rfl
    push Not at h
    rw [none c h, none _ (by obtain ⟨v, hv, hq⟩ := h; exact ⟨v, (reorder_perm σ c).mem_iff.2 hv, hq⟩)]
    rfl

theorem flatten_re {α : Type} (σ : Equiv.Perm (Fin m)) (ce : List (List α)) : (ce.map (reorder σ)).flatten.Perm ce.flatten := by
  induction ce with
  | nil => exact List.Perm.refl _
  | cons c ce ih => exact List.Perm.append (reorder_perm σ c) ih

theorem finVals_re (σ : Equiv.Perm (Fin m)) (ce : List (List (Fl K))) : (finVals (ce.map (reorder σ))).Perm (finVals ce) :=
  (flatten_re σ ce).filterMap _

theorem any_re {α : Type} {l l' : List α} (h : l.Perm l') (p : α → Bool) : l.any p = l'.any p := by
  rw [Bool.eq_iff_iff, List.any_eq_true, List.any_eq_true]
  exact ⟨fun ⟨x, hx, hp⟩ => ⟨x, h.mem_iff.1 hx, hp⟩, fun ⟨x, hx, hp⟩ => ⟨x, h.mem_iff.2 hx, hp⟩⟩

theorem maxList_re {l l' : List K} (h : l.Perm l') : maxList l = maxList l' := by
  have key : ∀ (l : List K) (a : K), (∀ x ∈ a :: l, x ≤ l.foldl max a) ∧ l.foldl max a ∈ a :: l := by
    intro l
    induction l with
    | nil => intro a; exact ⟨fun x hx => by simp only [List.mem_singleton] at hx; rw [hx]; exact le_refl _, List.mem_cons_self⟩
    | cons b l ih =>
      intro a
      obtain ⟨h1, h2⟩ := ih (max a b)
      refine ⟨fun x hx => ?_, ?_⟩
      · show x ≤ l.foldl max (max a b)
        have hm := h1 (max a b) List.mem_cons_self
        rcases List.mem_cons.1 hx with rfl | hx
        · exact (le_max_left _ _).trans hm
        rcases List.mem_cons.1 hx with rfl | hx
        · exact (le_max_right _ _).trans hm
        · exact h1 x (List.mem_cons_of_mem _ hx)
      · show l.foldl max (max a b) ∈ _
        rcases List.mem_cons.1 h2 with h3 | h3
        · rw [h3]
          rcases max_choice a b with h4 | h4 <;> rw [h4] <;> simp
        · exact List.mem_cons_of_mem _ (List.mem_cons_of_mem _ h3)
  cases l with
  | nil => rw [List.nil_perm.1 h]
  | cons a l =>
    cases l' with
    | nil => exact absurd (List.perm_nil.1 h) (by simp)
    | cons b l' =>
      simp only [maxList, Option.some.injEq]
      obtain ⟨h1, h2⟩ := key l a
      obtain ⟨h3, h4⟩ := key l' b
      exact le_antisymm (h3 _ (h.mem_iff.1 h2)) (h1 _ (h.mem_iff.2 h4))

theorem minList_re {l l' : List K} (h : l.Perm l') : minList l = minList l' := by
  have key : ∀ (l : List K) (a : K), (∀ x ∈ a :: l, l.foldl min a ≤ x) ∧ l.foldl min a ∈ a :: l := by
    intro l
    induction l with
    | nil => intro a; exact ⟨fun x hx => by simp only [List.mem_singleton] at hx; rw [hx]; exact le_refl _, List.mem_cons_self⟩
    | cons b l ih =>
      intro a
      obtain ⟨h1, h2⟩ := ih (min a b)
      refine ⟨fun x hx => ?_, ?_⟩
      · show l.foldl min (min a b) ≤ x
        have hm := h1 (min a b) List.mem_cons_self
        rcases List.mem_cons.1 hx with rfl | hx
        · exact hm.trans (min_le_left _ _)
        rcases List.mem_cons.1 hx with rfl | hx
        · exact hm.trans (min_le_right _ _)
        · exact h1 x (List.mem_cons_of_mem _ hx)
      · show l.foldl min (min a b) ∈ _
        rcases List.mem_cons.1 h2 with h3 | h3
        · rw [h3]
          rcases min_choice a b with h4 | h4 <;> rw [h4] <;> simp
        · exact List.mem_cons_of_mem _ (List.mem_cons_of_mem _ h3)
  cases l with
  | nil => rw [List.nil_perm.1 h]
  | cons a l =>
    cases l' with
    | nil => exact absurd (List.perm_nil.1 h) (by simp)
    | cons b l' =>
      simp only [minList, Option.some.injEq]
      obtain ⟨h1, h2⟩ := key l a
      obtain ⟨h3, h4⟩ := key l' b
      exact le_antisymm (h1 _ (h.mem_iff.2 h4)) (h3 _ (h.mem_iff.1 h2))

theorem replaceHuge_re (σ : Equiv.Perm (Fin m)) (ce : List (List (Fl K))) :
    replaceHuge (ce.map (reorder σ)) = (replaceHuge ce).map (List.map (reorder σ)) := by
  unfold replaceHuge
  have hp := finVals_re σ ce
  rw [any_re hp, maxList_re (hp.filter _)]
  split
  · split
    · rfl
    · simp only [Option.map_some, List.map_map, Option.some.injEq]
      refine List.map_congr_left fun c _ => ?_
      simp only [Function.comp_apply, reorder_map]
  · rfl

theorem replaceHugeNeg_re (σ : Equiv.Perm (Fin m)) (ce : List (List (Fl K))) :
    replaceHugeNeg (ce.map (reorder σ)) = (replaceHugeNeg ce).map (List.map (reorder σ)) := by
  unfold replaceHugeNeg
  have hp := finVals_re σ ce
  rw [any_re hp, minList_re (hp.filter _)]
  split
  · split
    · rfl
    · simp only [Option.map_some, List.map_map, Option.some.injEq]
      refine List.map_congr_left fun c _ => ?_
      simp only [Function.comp_apply, reorder_map]
  · rfl

theorem huge_re (σ : Equiv.Perm (Fin m)) (ce : List (List (Fl K))) :
    (replaceHuge (ce.map (reorder σ))).bind replaceHugeNeg = ((replaceHuge ce).bind replaceHugeNeg).map (List.map (reorder σ)) := by
  rw [replaceHuge_re]
  cases replaceHuge ce with
  | none => rfl
  | some c => exact replaceHugeNeg_re σ c

theorem anyNonzero_re (σ : Equiv.Perm (Fin m)) (ce : List (List K)) : anyNonzero (ce.map (reorder σ)) = anyNonzero ce := by
  unfold anyNonzero
  rw [List.any_map]
  congr 1
  funext c
  exact any_re (reorder_perm σ c) _

/-! ### Evaluations -/

/-- The evaluation data with the constraints in another order. -/
def evRe {P : Type} (σ : Equiv.Perm (Fin m)) (s : EvSt P K) : EvSt P K := { s with ceX := s.ceX.map (reorder σ) }

/-- The set with the constraints in another order. -/
def setRe {P : Type} (σ : Equiv.Perm (Fin m)) (s : IntSet P (List K) F K) : IntSet P (List K) F K := { s with ceY := s.ceY.map (reorder σ) }

/-- The state with the constraints in another order, and without gradients. -/
def stRe (σ : Equiv.Perm (Fin m)) (s : MSt K F) : MSt K F :=
  { s with
    ev := evRe σ s.ev
    set := setRe σ s.set
    infoCe := reorder σ s.infoCe
    ceplus := reorder σ s.ceplus
    gx := ⟨[], []⟩
    infoG := ⟨[], []⟩ }

/-- The problem with the constraints in another order and without gradients. -/
def bareRe (σ : Equiv.Perm (Fin m)) (e : Env K F) : Env K F := { e with U := reorderUser σ e.U, model := fun _ _ _ _ => ⟨[], []⟩ }

theorem sqpdfoFunc_re {P : Type} (σ : Equiv.Perm (Fin m)) (U : User P K) (y : P) (w : World P) :
    sqpdfoFunc (reorderUser σ U) y w = ({ (sqpdfoFunc U y w).1 with c := reorder σ (sqpdfoFunc U y w).1.c }, (sqpdfoFunc U y w).2) := by
  have hnil : reorder σ ([] : List (Fl K)) = [] := List.eq_nil_of_length_eq_zero (reorder_length σ [])
  obtain ⟨f, c⟩ := U
  unfold sqpdfoFunc reorderUser
  cases c with
  | none => simp only [Option.map_none, hnil]
  | some c =>
    simp only [Option.map_some]
    cases c { w with logF := w.logF ++ [y] } y with
    | raised => simp only [reorderOut, hnil]
    | nums vs => simp only [reorderOut]

theorem augmX_re {P : Type} (σ : Equiv.Perm (Fin m)) (U : User P K) (y : P) (k : ℕ) (s : EvSt P K) :
    augmX (reorderUser σ U) (.fin big) y k (evRe σ s) = (augmX U (.fin big) y k s).map (evRe σ) := by
  unfold augmX
  dsimp only [evRe]
  rw [sqpdfoFunc_re]
  generalize sqpdfoFunc U y s.w = r
  obtain ⟨⟨msg, f, c⟩, w⟩ := r
  dsimp only
  have h1 : (reorder σ c).any Fl.isNan = c.any Fl.isNan := any_re (reorder_perm σ c) _
  have h2 : ((reorder σ c).map clipCe).isEmpty = (c.map clipCe).isEmpty := by
    rw [Bool.eq_iff_iff, List.isEmpty_iff, List.isEmpty_iff, ← List.length_eq_zero_iff, ← List.length_eq_zero_iff, List.length_map, List.length_map,
      reorder_length]
  rw [h1, h2, ← reorder_map]
  cases f with
  | raised => rfl
  | other => rfl
  | num v =>
    dsimp only
    split
    · rfl
    split
    · rfl
    split
    · rfl
    split
    · rfl
    · simp only [Option.map_some, Option.some.injEq]
      split
      · rfl
      · rw [evRe, setOrAppend_map]

theorem swapOpt_map {α β : Type} (f : α → β) (l : List α) (i j : ℕ) : swapOpt (l.map f) i j = (swapOpt l i j).map (List.map f) := by
  cases l with
  | nil => rfl
  | cons a l => exact swapL_map f (a :: l) i j

theorem swapInY_re {P : Type} (σ : Equiv.Perm (Fin m)) (build : List P → F) (i j : ℕ) (s : IntSet P (List K) F K) :
    swapInY build i j (setRe σ s) = (swapInY build i j s).map (setRe σ) := by
  unfold swapInY
  split
  · rfl
  · dsimp only [setRe]
    rw [swapOpt_map]
    cases swapL s.Y (if i > j then j else i) (if i > j then i else j) <;>
      cases swapL s.ind (if i > j then j else i) (if i > j then i else j) <;>
      cases swapL s.fY (if i > j then j else i) (if i > j then i else j) <;>
      cases swapOpt s.ciY (if i > j then j else i) (if i > j then i else j) <;>
      cases swapOpt s.ceY (if i > j then j else i) (if i > j then i else j) <;> rfl

theorem findSmallf_re {P : Type} (σ : Equiv.Perm (Fin m)) (build : List P → F) (choice : Option ℕ) (s : IntSet P (List K) F K)
    (fx : K) (i : ℕ) (g : K) : findSmallf build choice ⟨setRe σ s, fx, i, g⟩ =
      (findSmallf build choice ⟨s, fx, i, g⟩).map fun t => ⟨setRe σ t.s, t.fx, t.ixbest, t.infoF⟩ := by
  unfold findSmallf
  cases choice with
  | some k =>
    simp only [swapInY_re]
    cases swapInY build 0 k s with
    | none => rfl
    | some t =>
      simp only [Option.map_some, setRe]
      cases t.fY[0]? <;> cases t.ind[0]? <;> rfl
  | none =>
    simp only [setRe]
    cases s.fY[0]? <;> rfl

/-! ### Stages -/

theorem callSmallf_re {σ : Equiv.Perm (Fin m)} {e : Env K F} (h : OrderOk σ e) (s : MSt K F) :
    callSmallf (bareRe σ e) (stRe σ s) = (callSmallf e s).map (stRe σ) := by
  unfold callSmallf
  have h1 : (stRe σ s).set.ceY.mapM (fun c => (bareRe σ e).resNorm c (stRe σ s).sl) = s.set.ceY.mapM (fun c => e.resNorm c s.sl) := by
    show (s.set.ceY.map (reorder σ)).mapM (fun c => e.resNorm c s.sl) = _
    rw [List.mapM_map]
    congr 1
    funext c
    exact resNorm_re h c s.sl
  have h2 : anyNonzero (stRe σ s).set.ceY = anyNonzero s.set.ceY := anyNonzero_re σ s.set.ceY
  rw [h1, h2]
  show (match (if anyNonzero s.set.ceY then s.set.ceY.mapM (fun c => e.resNorm c s.sl)
      else some (s.set.Y.map fun _ => 0)) with
    | none => PassRes.crash .ceShape
    | some nrms =>
      match findSmallf e.build (smallfChoice (meritY e.trunc s.sigma (anyNonzero s.set.ceY) s.set.fY nrms)
          (indInside e.lb e.ub s.set.Y)) ⟨setRe σ s.set, s.fx, s.ixbest, s.fx⟩ with
      | none => PassRes.crash .index
      | some t =>
        match t.s.Y[0]? with
        | none => PassRes.crash .index
        | some x0 => PassRes.cont { stRe σ s with
            set := t.s
            fx := t.fx
            ixbest := t.ixbest
            x := if (smallfChoice (meritY e.trunc s.sigma (anyNonzero s.set.ceY) s.set.fY nrms)
              (indInside e.lb e.ub s.set.Y)).isSome then x0 else s.x
            ev := { evRe σ s.ev with infoF := .fin t.infoF }
            infoCe := match t.s.ceY[0]? with
              | some c => c
              | none => reorder σ s.infoCe }) = _
  cases (if anyNonzero s.set.ceY = true then s.set.ceY.mapM (fun c => e.resNorm c s.sl) else some (s.set.Y.map fun _ => 0)) with
  | none => rfl
  | some nrms =>
    simp only [findSmallf_re]
    cases findSmallf e.build (smallfChoice (meritY e.trunc s.sigma (anyNonzero s.set.ceY) s.set.fY nrms) (indInside e.lb e.ub s.set.Y))
        ⟨s.set, s.fx, s.ixbest, s.fx⟩ with
    | none => rfl
    | some t =>
      simp only [Option.map_some]
      have h5 : (setRe σ t.s).Y = t.s.Y := rfl
      have h6 : (setRe σ t.s).ceY[0]? = (t.s.ceY[0]?).map (reorder σ) := List.getElem?_map
      rw [h5, h6]
      cases t.s.Y[0]? with
      | none => rfl
      | some x => cases hc : t.s.ceY[0]? with
        | none => simp only [PassRes.map, Option.map_none, stRe, hc]; rfl
        | some c => simp only [PassRes.map, Option.map_some, stRe, hc]; rfl

theorem evalReplaced_re (σ : Equiv.Perm (Fin m)) (e : Env K F) : ∀ (js : List ℕ) (s : MSt K F),
    evalReplaced (bareRe σ e) js (stRe σ s) = (evalReplaced e js s).map (stRe σ) := by
  intro js
  induction js with
  | nil => intro s; rfl
  | cons j js ih =>
    intro s
    have h1 : (stRe σ s).set.Y = s.set.Y := rfl
    have h2 : (stRe σ s).set.ind = s.set.ind := rfl
    have h3 : (stRe σ s).m = s.m := rfl
    have h4 : (stRe σ s).ev = evRe σ s.ev := rfl
    have h5 : (bareRe σ e).U = reorderUser σ e.U := rfl
    have h6 : (bareRe σ e).me = e.me := rfl
    simp only [evalReplaced, h1, h2, h3, h4, h5, h6, augmX_re]
    cases s.set.Y[j]? with
    | none => rfl
    | some y =>
      cases s.set.ind[j]? with
      | none => rfl
      | some i =>
        dsimp only
        cases augmX e.U (.fin big) y (s.m + 1) s.ev with
        | none => rfl
        | some ev =>
          simp only [Option.map_some]
          have g1 : (evRe σ ev).fX = ev.fX := rfl
          have g2 : (evRe σ ev).ceX[s.m + 1]? = (ev.ceX[s.m + 1]?).map (reorder σ) := List.getElem?_map
          rw [g1, g2]
          cases ev.fX[s.m + 1]? with
          | none => rfl
          | some v =>
            dsimp only
            cases v.val? with
            | none => rfl
            | some v =>
              dsimp only
              by_cases hm : e.me > 0
              · rw [if_pos hm, if_pos hm]
                cases ev.ceX[s.m + 1]? with
                | none => rfl
                | some c =>
                  simp only [Option.map_some, Option.bind_some, colK_re]
                  cases colK c with
                  | none => rfl
                  | some c =>
                    simp only [Option.map_some]
                    have hset : (stRe σ s).set.ceY.set j (reorder σ c) = (s.set.ceY.set j c).map (reorder σ) := by
                      rw [List.map_set]; rfl
                    rw [← ih, hset]
                    rfl
              · rw [if_neg hm, if_neg hm, ← ih]
                rfl

theorem improveEnd_re (σ : Equiv.Perm (Fin m)) (e : Env K F) (k : Meas K) (r : K) (s : MSt K F) :
    improveEnd (bareRe σ e) k r (stRe σ s) = (improveEnd e k r s).map (stRe σ) :=
  ite_plus (fun _ => rfl) fun _ => ite_plus (fun _ => rfl) fun _ => rfl

theorem repairStage_re {σ : Equiv.Perm (Fin m)} {e : Env K F} (h : OrderOk σ e) (o : Orc K F) (r : K) (s : MSt K F) :
    repairStage (bareRe σ e) o r (stRe σ s) = (repairStage e o r s).map (stRe σ) := by
  unfold repairStage
  dsimp only
  rw [PassRes.map_bind (f := stRe σ) (k' := fun s => improveEnd (bareRe σ e) o.k2 r (s.newGx (bareRe σ e)).storeG) (fun _ _ => rfl)
    (fun u _ => by rw [← improveEnd_re]; rfl)]
  rw [PassRes.map_bind (f := stRe σ) (k' := callSmallf (bareRe σ e)) (fun _ _ => rfl) (fun u _ => (callSmallf_re h u).symm)]
  rw [← evalReplaced_re σ e]
  rfl

theorem improve_re {σ : Equiv.Perm (Fin m)} {e : Env K F} (h : OrderOk σ e) (o : Orc K F) (s : MSt K F) :
    improve (bareRe σ e) o (stRe σ s) = (improve e o s).map (stRe σ) :=
  ite_plus (fun _ => ite_plus (fun _ => rfl) fun _ => ite_plus (fun _ => rfl) fun _ => by
    rw [← repairStage_re h]; rfl) fun _ => rfl

theorem penalty_re (σ : Equiv.Perm (Fin m)) (o : Orc K F) (s : MSt K F) : penalty o (stRe σ s) = (penalty o s).map (stRe σ) :=
  ite_plus (fun _ => ite_plus (fun _ => rfl) fun _ => rfl) fun _ => rfl

theorem evalTrial_re (σ : Equiv.Perm (Fin m)) (e : Env K F) (o : Orc K F) (s : MSt K F) :
    evalTrial (bareRe σ e) o (stRe σ s) = (evalTrial e o s).map (stRe σ) := by
  unfold evalTrial
  dsimp only
  have h1 : augmX (bareRe σ e).U (.fin big) o.xnew ((stRe σ s).m + 1) (stRe σ s).ev =
      (augmX e.U (.fin big) o.xnew (s.m + 1) s.ev).map (evRe σ) := augmX_re σ e.U o.xnew (s.m + 1) s.ev
  rw [h1]
  cases augmX e.U (.fin big) o.xnew (s.m + 1) s.ev with
  | none => rfl
  | some ev =>
    simp only [Option.map_some]
    have h2 : (finVals (evRe σ ev).ceX).any (fun v => decide (v ≠ 0)) = (finVals ev.ceX).any (fun v => decide (v ≠ 0)) :=
      any_re (finVals_re σ ev.ceX) _
    have h3 : (replaceHuge (evRe σ ev).ceX).bind replaceHugeNeg = ((replaceHuge ev.ceX).bind replaceHugeNeg).map (List.map (reorder σ)) :=
      huge_re σ ev.ceX
    rw [h2, h3]
    refine ite_plus (fun _ => rfl) fun _ => ite_plus (fun _ => ?_) fun _ => rfl
    cases (replaceHuge ev.ceX).bind replaceHugeNeg with
    | none => rfl
    | some ceX =>
      simp only [Option.map_some]
      have h4 : (ceX.map (reorder σ))[(stRe σ s).m + 1]? = (ceX[s.m + 1]?).map (reorder σ) := List.getElem?_map
      rw [h4]
      cases ceX[s.m + 1]? with
      | none => rfl
      | some c =>
        simp only [Option.map_some, Option.bind_some, colK_re]
        cases colK c with
        | none => rfl
        | some c => rfl

theorem accSet_re (σ : Equiv.Perm (Fin m)) (e : Env K F) (f : K) (pos : ℕ) (s : MSt K F) :
    accSet (bareRe σ e) f pos (stRe σ s) = setRe σ (accSet e f pos s) := by
  by_cases h : e.me > 0
  · rw [accSet, accSet, if_pos h, if_pos (show (bareRe σ e).me > 0 from h), setRe, setOrAppend_map]; rfl
  · rw [accSet, accSet, if_neg h, if_neg (show ¬ (bareRe σ e).me > 0 from h), setRe]; rfl

theorem accepted_re {σ : Equiv.Perm (Fin m)} {e : Env K F} (h : OrderOk σ e) (o : Orc K F) (f rho norms : K) (pos : ℕ) (s : MSt K F) :
    accepted (bareRe σ e) o f rho norms pos (stRe σ s) = (accepted e o f rho norms pos s).map (stRe σ) := by
  have h1 : (e.me > 0 ∧ (reorder σ s.ceplus).length ≠ e.me) ↔ (e.me > 0 ∧ s.ceplus.length ≠ e.me) := by rw [reorder_length]
  unfold accepted
  dsimp only
  have h2 : ((bareRe σ e).me > 0 ∧ (stRe σ s).ceplus.length ≠ (bareRe σ e).me) ↔ (e.me > 0 ∧ s.ceplus.length ≠ e.me) := h1
  simp only [h2]
  refine ite_plus (fun _ => rfl) fun _ => ?_
  show accEnd (bareRe σ e) o f rho norms (stRe σ s) (swapInY e.build 0 pos (accSet (bareRe σ e) f pos (stRe σ s))) =
    (accEnd e o f rho norms s (swapInY e.build 0 pos (accSet e f pos s))).map (stRe σ)
  rw [accSet_re, swapInY_re]
  cases swapInY e.build 0 pos (accSet e f pos s) with
  | none => rfl
  | some set =>
    have h3 : (if e.me > 0 then reorder σ s.ceplus else reorder σ s.infoCe) = reorder σ (if e.me > 0 then s.ceplus else s.infoCe) := by
      split <;> rfl
    have h4 := moveSl_re h (if e.me > 0 then s.ceplus else s.infoCe) o.slplus
    simp only [Option.map_some, accEnd]
    show (match set.Y[0]? with
      | none => PassRes.crash .index
      | some x0 => PassRes.cont (MSt.storeG (MSt.newGx (bareRe σ e) { stRe σ s with
        set := setRe σ set
        infoCe := if e.me > 0 then reorder σ s.ceplus else reorder σ s.infoCe
        sl := if e.me > 0 ∧ e.ns > 0 then moveSl e (if e.me > 0 then reorder σ s.ceplus else reorder σ s.infoCe) o.slplus else s.sl
        x := x0
        fx := f
        ixbest := s.m
        poisedModel := false
        delta := succDelta rho o.active norms s.delta
        rejected := false }))) = _
    rw [h3, h4]
    cases set.Y[0]? with
    | none => rfl
    | some x => rfl

theorem repSet_re (σ : Equiv.Perm (Fin m)) (e : Env K F) (f : K) (pos : ℕ) (s : MSt K F) :
    repSet (bareRe σ e) f pos (stRe σ s) = setRe σ (repSet e f pos s) := by
  by_cases h : e.me > 0
  · rw [repSet, repSet, setRe, if_pos h, if_pos (show (bareRe σ e).me > 0 from h), List.map_set]; rfl
  · rw [repSet, repSet, setRe, if_neg h, if_neg (show ¬ (bareRe σ e).me > 0 from h)]; rfl

theorem replaceAt_re {σ : Equiv.Perm (Fin m)} {e : Env K F} (h : OrderOk σ e) (o : Orc K F) (f rho norms : K) (pos : ℕ) (s : MSt K F) :
    replaceAt (bareRe σ e) o f rho norms pos (stRe σ s) = (replaceAt e o f rho norms pos s).map (stRe σ) := by
  have h1 : (e.me > 0 ∧ (reorder σ s.ceplus).length ≠ e.me) ↔ (e.me > 0 ∧ s.ceplus.length ≠ e.me) := by rw [reorder_length]
  unfold replaceAt
  dsimp only
  have h2 : ((bareRe σ e).me > 0 ∧ (stRe σ s).ceplus.length ≠ (bareRe σ e).me) ↔ (e.me > 0 ∧ s.ceplus.length ≠ e.me) := h1
  simp only [h2]
  refine ite_plus (fun _ => rfl) fun _ => ite_plus (fun _ => ?_) fun _ => ?_
  · show repEnd (bareRe σ e) o f norms (stRe σ s) (swapInY e.build 0 pos (repSet (bareRe σ e) f pos (stRe σ s))) =
      (repEnd e o f norms s (swapInY e.build 0 pos (repSet e f pos s))).map (stRe σ)
    rw [repSet_re, swapInY_re]
    cases swapInY e.build 0 pos (repSet e f pos s) with
    | none => rfl
    | some set =>
      have h3 : (match (setRe σ set).ceY[0]? with
          | some c => if e.me > 0 then c else reorder σ s.infoCe
          | none => reorder σ s.infoCe) = reorder σ (match set.ceY[0]? with
          | some c => if e.me > 0 then c else s.infoCe
          | none => s.infoCe) := by
        have : (setRe σ set).ceY[0]? = (set.ceY[0]?).map (reorder σ) := List.getElem?_map
        rw [this]
        cases set.ceY[0]? with
        | none => rfl
        | some c => simp only [Option.map_some]; split <;> rfl
      simp only [Option.map_some, repEnd]
      show (match set.Y[0]? with
        | none => PassRes.crash .index
        | some x0 => PassRes.cont (MSt.newGx (bareRe σ e) { stRe σ s with
          set := setRe σ set
          infoCe := match (setRe σ set).ceY[0]? with
            | some c => if e.me > 0 then c else reorder σ s.infoCe
            | none => reorder σ s.infoCe
          sl := if e.me > 0 ∧ e.ns > 0 then moveSl e (match (setRe σ set).ceY[0]? with
            | some c => if e.me > 0 then c else reorder σ s.infoCe
            | none => reorder σ s.infoCe) o.slplus else s.sl
          x := x0
          fx := f
          ev := { evRe σ s.ev with infoF := .fin f }
          ixbest := s.m
          poisedModel := false
          delta := min (max (2 * norms) s.delta) cDeltamax })) = _
      rw [h3, moveSl_re h]
      cases set.Y[0]? with
      | none => rfl
      | some x => rfl
  · show PassRes.cont (MSt.newGx (bareRe σ e) { stRe σ s with
      set := repSet (bareRe σ e) f pos (stRe σ s)
      delta := if s.delta > cEps then cGamma2 * s.delta else s.delta }) = _
    rw [repSet_re]
    rfl

theorem reduce_re (σ : Equiv.Perm (Fin m)) (e : Env K F) (o : Orc K F) (f norms : K) (s : MSt K F) :
    reduce (bareRe σ e) o f norms (stRe σ s) = (reduce e o f norms s).map (stRe σ) :=
  ite_plus (fun _ => rfl) fun _ => rfl

theorem augmentRejected_re (σ : Equiv.Perm (Fin m)) (e : Env K F) (o : Orc K F) (f : K) (s : MSt K F) :
    augmentRejected (bareRe σ e) o f (stRe σ s) = (augmentRejected e o f s).map (stRe σ) := by
  have h1 : (e.me > 0 ∧ (reorder σ s.ceplus).length ≠ e.me) ↔ (e.me > 0 ∧ s.ceplus.length ≠ e.me) := by rw [reorder_length]
  unfold augmentRejected
  dsimp only
  have h2 : ((bareRe σ e).me > 0 ∧ (stRe σ s).ceplus.length ≠ (bareRe σ e).me) ↔ (e.me > 0 ∧ s.ceplus.length ≠ e.me) := h1
  simp only [h2]
  refine ite_plus (fun _ => rfl) fun _ => ?_
  show PassRes.cont _ = PassRes.cont _
  have h3 : (if e.me > 0 then setOrAppend (s.set.ceY.map (reorder σ)) ((augmentY e o.xnew (s.set.Y.take s.cur)).1 - 1) (reorder σ s.ceplus)
      else s.set.ceY.map (reorder σ)) =
      (if e.me > 0 then setOrAppend s.set.ceY ((augmentY e o.xnew (s.set.Y.take s.cur)).1 - 1) s.ceplus else s.set.ceY).map (reorder σ) := by
    split
    · rw [setOrAppend_map]
    · rfl
  congr 1
  show MSt.mk _ _ _ _ _ _ _ _ _ _ _ _ _ _ _ _ _ _ _ _ _ _ _ _ _ _ _ = MSt.mk _ _ _ _ _ _ _ _ _ _ _ _ _ _ _ _ _ _ _ _ _ _ _ _ _ _ _
  congr 1
  show IntSet.mk _ _ _ _ _ _ = IntSet.mk _ _ _ _ _ _
  congr 1

theorem pickRep_re {σ : Equiv.Perm (Fin m)} {e : Env K F} (h : OrderOk σ e) (o : Orc K F) (f rho norms : K) (s : MSt K F)
    (far close : Option ℕ × List (List K) × F) :
    pickRep (bareRe σ e) o f rho norms (stRe σ s) far close = (pickRep e o f rho norms s far close).map (stRe σ) := by
  obtain ⟨p, fY, ff⟩ := far
  obtain ⟨q, cY, cf⟩ := close
  unfold pickRep
  cases p with
  | some pos =>
    dsimp only
    rw [PassRes.map_bind (f := stRe σ) (k' := fun s => .cont s.restoreF) (fun _ _ => rfl) (fun u _ => rfl), ← replaceAt_re h]
    rfl
  | none =>
    dsimp only
    cases q with
    | some pos =>
      dsimp only
      rw [PassRes.map_bind (f := stRe σ) (k' := fun s => .cont s.restoreF) (fun _ _ => rfl) (fun u _ => rfl), ← replaceAt_re h]
      rfl
    | none => exact reduce_re σ e o f norms s

theorem replaceOrReduce_re {σ : Equiv.Perm (Fin m)} {e : Env K F} (h : OrderOk σ e) (o : Orc K F) (f rho norms : K) (s : MSt K F) :
    replaceOrReduce (bareRe σ e) o f rho norms (stRe σ s) = (replaceOrReduce e o f rho norms s).map (stRe σ) := by
  refine ite_plus (fun _ => ?_) fun _ => reduce_re σ e o f norms s
  exact pickRep_re h o f rho norms s
    (includeInY e.dist e.build o.lval2 (findIdx (fun v => decide (v > (1 + cEpsTR) * s.delta)) (farDists e rho o.xnew s))
      (1 / 10 ^ 10) (if rho ≥ cEta1 then .weighted else .distance) o.xnew (if rho ≥ cEta1 then o.xnew else s.x) s.set.Y s.set.fac)
    (includeInY e.dist e.build o.lval3 (findIdx (fun v => decide (v ≤ (1 + cEpsTR) * s.delta))
        (if rho ≥ cEta1 then farDists e rho o.xnew s else (farDists e rho o.xnew s).set 0 (2 * ((1 + cEpsTR) * s.delta))))
        (if rho ≥ cEta1 then 1 / 10 ^ 15 else 6 / 5) .standard o.xnew (if rho ≥ cEta1 then o.xnew else s.x) s.set.Y s.set.fac)

theorem rejectStep_re {σ : Equiv.Perm (Fin m)} {e : Env K F} (h : OrderOk σ e) (o : Orc K F) (f rho norms : K) (s : MSt K F) :
    rejectStep (bareRe σ e) o f rho norms (stRe σ s) = (rejectStep e o f rho norms s).map (stRe σ) := by
  refine ite_plus (fun _ => ?_) fun _ => replaceOrReduce_re h o f rho norms { s with rejected := true }
  rw [PassRes.map_bind (f := stRe σ) (k' := fun s => .cont s.restoreF) (fun _ _ => rfl) (fun u _ => rfl), ← augmentRejected_re]
  rfl

theorem pickAcc_re {σ : Equiv.Perm (Fin m)} {e : Env K F} (h : OrderOk σ e) (o : Orc K F) (f rho norms : K) (s : MSt K F)
    (inc : Option ℕ × List (List K) × F) :
    pickAcc (bareRe σ e) o f rho norms (stRe σ s) inc = (pickAcc e o f rho norms s inc).map (stRe σ) := by
  obtain ⟨p, iY, ifc⟩ := inc
  cases p with
  | some pos => exact accepted_re h o f _ norms pos { s with set := { s.set with Y := iY, fac := ifc } }
  | none => exact rejectStep_re h o f _ norms s

theorem decideStep_re {σ : Equiv.Perm (Fin m)} {e : Env K F} (h : OrderOk σ e) (o : Orc K F) (norms : K) (s : MSt K F) :
    decideStep (bareRe σ e) o norms (stRe σ s) = (decideStep e o norms s).map (stRe σ) := by
  unfold decideStep
  have h1 : (stRe σ s).ev.fX = s.ev.fX := rfl
  have h2 : (stRe σ s).m = s.m := rfl
  rw [h1, h2]
  cases (s.ev.fX[s.m]?).bind Fl.val? with
  | none => rfl
  | some f =>
    have h3 : (bareRe σ e).resNorm (stRe σ s).ceplus o.slplus = e.resNorm s.ceplus o.slplus := resNorm_re h s.ceplus o.slplus
    dsimp only
    rw [h3]
    cases e.resNorm s.ceplus o.slplus with
    | none => rfl
    | some c =>
      dsimp only
      refine ite_plus (fun _ => rfl) fun _ => ite_plus (fun _ => ite_plus (fun _ => rfl) fun _ => ite_plus (fun _ => ?_) fun _ => ?_) fun _ => ?_
      · exact accepted_re h o f _ norms _ { s with
          pred := newPred o s.sigma, cur := (augmentY e o.xnew (s.set.Y.take s.cur)).1, set := { s.set with
            Y := (augmentY e o.xnew (s.set.Y.take s.cur)).2.1, fac := (augmentY e o.xnew (s.set.Y.take s.cur)).2.2 } }
      · exact pickAcc_re h o f _ norms { s with pred := newPred o s.sigma } (includeInY e.dist e.build o.lval1 (List.range s.cur)
            (1 / 10 ^ 10) .distance o.xnew o.xnew s.set.Y s.set.fac)
      · exact rejectStep_re h o f _ norms { s with pred := newPred o s.sigma }

theorem globalise_re {σ : Equiv.Perm (Fin m)} {e : Env K F} (h : OrderOk σ e) (s : MSt K F) :
    globalise (bareRe σ e) (stRe σ s) = (globalise e s).map (stRe σ) := by
  refine ite_plus (fun _ => rfl) fun _ => ?_
  have h1 : (stRe σ s).ev.infoF = s.ev.infoF := rfl
  rw [h1]
  cases s.ev.infoF.val? with
  | none => rfl
  | some f =>
    dsimp only
    have h3 : (bareRe σ e).resNorm (stRe σ s).infoCe (stRe σ s).sl = e.resNorm s.infoCe s.sl := resNorm_re h s.infoCe s.sl
    rw [h3]
    cases e.resNorm s.infoCe s.sl with
    | none => rfl
    | some c => rfl

theorem afterGlob_re {σ : Equiv.Perm (Fin m)} {e : Env K F} (h : OrderOk σ e) (o : Orc K F) (s : MSt K F) :
    afterGlob (bareRe σ e) o (stRe σ s) = (afterGlob e o s).map (stRe σ) := by
  refine ite_plus (fun _ => rfl) fun _ => ?_
  rw [PassRes.map_bind (f := stRe σ) (k' := fun t => decideStep (bareRe σ e) o (stepNorm e o { s with niter := s.niter + 1 }) t)
    (fun _ _ => rfl) (fun t _ => (decideStep_re h o _ t).symm),
    PassRes.map_bind (f := stRe σ) (k' := evalTrial (bareRe σ e) o) (fun _ _ => rfl) (fun t _ => (evalTrial_re σ e o t).symm),
    ← penalty_re]
  rfl

theorem stepStage_re {σ : Equiv.Perm (Fin m)} {e : Env K F} (h : OrderOk σ e) (o : Orc K F) (s : MSt K F) :
    stepStage (bareRe σ e) o (stRe σ s) = (stepStage e o s).map (stRe σ) := by
  show (globalise (bareRe σ e) (stRe σ s)).bind (afterGlob (bareRe σ e) o) = ((globalise e s).bind (afterGlob e o)).map (stRe σ)
  rw [PassRes.map_bind (f := stRe σ) (k' := afterGlob (bareRe σ e) o) (fun _ _ => rfl) (fun u _ => (afterGlob_re h o u).symm),
    globalise_re h s]

theorem pass_re {σ : Equiv.Perm (Fin m)} {e : Env K F} (h : OrderOk σ e) (o : Orc K F) (s : MSt K F) :
    pass (bareRe σ e) o (stRe σ s) = (pass e o s).map (stRe σ) := by
  refine ite_plus (fun _ => rfl) fun _ => ite_plus (fun _ => rfl) fun _ => ite_plus (fun _ => rfl) fun _ => ?_
  dsimp only
  rw [PassRes.map_bind (f := stRe σ) (k' := stepStage (bareRe σ e) o) (fun _ _ => rfl) (fun u _ => (stepStage_re h o u).symm)]
  congr 1
  exact ite_plus (fun _ => improve_re h o { s.measure o.k1 with ev := { s.ev with flag := Status.success } }) fun _ => rfl

/-- The same ends of the loop with other states. -/
def MainRes.map (f : MSt K F → MSt K F) : MainRes K F → MainRes K F
  | .done s => .done (f s)
  | .running s => .running (f s)
  | .crash c => .crash c

theorem mainLoop_re {σ : Equiv.Perm (Fin m)} {e : Env K F} (h : OrderOk σ e) : ∀ (os : List (Orc K F)) (s : MSt K F),
    mainLoop (bareRe σ e) os (stRe σ s) = (mainLoop e os s).map (stRe σ) := by
  intro os
  induction os with
  | nil => intro s; rfl
  | cons o os ih =>
    intro s
    simp only [mainLoop, pass_re h]
    cases pass e o s with
    | cont t => exact ih t
    | ret t => rfl
    | crash c => rfl

/-! ### The start -/

theorem samplePass_re {P : Type} (σ : Equiv.Perm (Fin m)) (U : User P K) : ∀ (ys : List P) (i : ℕ) (s : EvSt P K),
    samplePass (reorderUser σ U) ys i (evRe σ s) = (samplePass U ys i s).map (evRe σ) := by
  intro ys
  induction ys with
  | nil => intro i s; rfl
  | cons y ys ih =>
    intro i s
    simp only [samplePass, augmX_re]
    cases augmX U (.fin big) y i s with
    | none => rfl
    | some t =>
      simp only [Option.map_some]
      have h1 : (evRe σ t).flag = t.flag := rfl
      have h2 : (evRe σ t).fX = t.fX := rfl
      rw [h1, h2]
      split
      · rfl
      · cases t.fX[i]? with
        | none => rfl
        | some v =>
          dsimp only
          split
          · rfl
          · exact ih (i + 1) t

theorem initLoop_re (σ : Equiv.Perm (Fin m)) (U : User (List K) K) (x0 : List K) (nx : K) : ∀ (fuel : ℕ) (D : K) (s : EvSt (List K) K),
    initLoop (reorderUser σ U) x0 nx fuel D (evRe σ s) = (initLoop U x0 nx fuel D s).map (evRe σ) := by
  intro fuel
  induction fuel with
  | zero => intro D s; rfl
  | succ fuel ih =>
    intro D s
    have hp := samplePass_re σ U (simplex x0 D) 0 { s with X := [], fX := [], ceX := [] }
    simp only [initLoop]
    rw [show ({ evRe σ s with X := [], fX := [], ceX := [] } : EvSt (List K) K) = evRe σ { s with X := [], fX := [], ceX := [] } from rfl, hp]
    cases samplePass U (simplex x0 D) 0 { s with X := [], fX := [], ceX := [] } with
    | crash => rfl
    | failed t => rfl
    | broke t =>
      simp only [SampleRes.map]
      rw [show (evRe σ t).ceX = t.ceX.map (reorder σ) from rfl, replaceHuge_re]
      cases replaceHuge t.ceX with
      | none => rfl
      | some c =>
        simp only [Option.map_some, replaceHugeNeg_re]
        cases replaceHugeNeg c with
        | none => rfl
        | some c =>
          simp only [Option.map_some]
          split
          · rfl
          · exact ih _ { t with ceX := c }
    | full t =>
      simp only [SampleRes.map]
      rw [show (evRe σ t).ceX = t.ceX.map (reorder σ) from rfl, replaceHuge_re]
      cases replaceHuge t.ceX with
      | none => rfl
      | some c =>
        simp only [Option.map_some, replaceHugeNeg_re]
        cases replaceHugeNeg c with
        | none => rfl
        | some c => rfl

theorem mapM_col_re (σ : Equiv.Perm (Fin m)) (l : List (List (Fl K))) :
    (l.map (reorder σ)).mapM colK = (l.mapM colK).map (List.map (reorder σ)) := by
  induction l with
  | nil => rfl
  | cons v l ih =>
    rw [List.map_cons, List.mapM_cons, List.mapM_cons, ih, colK_re]
    cases colK v with
    | none => rfl
    | some q =>
      cases l.mapM colK with
      | none => rfl
      | some l => rfl

theorem mainInit_re (σ : Equiv.Perm (Fin m)) (e : Env K F) (D : K) (sl : List K) (ev : EvSt (List K) K) :
    mainInit (bareRe σ e) D sl (evRe σ ev) = (mainInit e D sl ev).map (stRe σ) := by
  have hnil : reorder σ ([] : List K) = [] := List.eq_nil_of_length_eq_zero (reorder_length σ [])
  unfold mainInit
  rw [show (evRe σ ev).fX = ev.fX from rfl, show (evRe σ ev).ceX = ev.ceX.map (reorder σ) from rfl, mapM_col_re, show (evRe σ ev).X = ev.X from rfl]
  cases ev.fX.mapM Fl.val? with
  | none => rfl
  | some fY =>
    cases ev.ceX.mapM colK with
    | none => rfl
    | some ceY =>
      cases ev.X[0]? with
      | none => rfl
      | some x =>
        simp only [Option.map_some, List.getElem?_map]
        cases fY[0]? with
        | none => rfl
        | some f =>
          cases hc : ceY[0]? with
          | none => simp only [Option.map_none, Option.map_some, stRe, hc, hnil]; rfl
          | some c => simp only [Option.map_some, stRe, hc, hnil]; rfl

theorem startState_re (σ : Equiv.Perm (Fin m)) (e : Env K F) (x0 : List K) (fuel : ℕ) (D : K) (sl : List K) :
    startState (bareRe σ e) x0 fuel D sl = (startState e x0 fuel D sl).map (stRe σ) := by
  unfold startState
  have h := initLoop_re σ e.U x0 (e.nrm x0) fuel D emptyEv
  rw [show evRe σ (emptyEv : EvSt (List K) K) = emptyEv from rfl] at h
  rw [show (bareRe σ e).U = reorderUser σ e.U from rfl, show (bareRe σ e).nrm = e.nrm from rfl, h]
  cases initLoop e.U x0 (e.nrm x0) fuel D emptyEv with
  | done D' ev => exact mainInit_re σ e D' sl ev
  | crash => rfl
  | failed s => rfl
  | stalled s => rfl
  | running => rfl

/-! ### From the run without gradients to the two runs -/

theorem reorderUser_one {P : Type} (U : User P K) : reorderUser (1 : Equiv.Perm (Fin m)) U = U := by
  obtain ⟨f, c⟩ := U
  cases c with
  | none => rfl
  | some c =>
    simp only [reorderUser, Option.map_some, User.mk.injEq, Option.some.injEq, true_and]
    funext w y
    cases c w y with
    | raised => rfl
    | nums vs => simp only [reorderOut, reorder_one]

theorem bareRe_one (σ : Equiv.Perm (Fin m)) (e : Env K F) : bareRe (1 : Equiv.Perm (Fin m)) (reorderEnv σ e) = bareRe σ e := by
  unfold bareRe reorderEnv
  dsimp only
  rw [reorderUser_one]

theorem orderOk_one (σ : Equiv.Perm (Fin m)) {e : Env K F} (h : OrderOk σ e) : OrderOk (1 : Equiv.Perm (Fin m)) (reorderEnv σ e) :=
  ⟨h.me, fun _ _ => rfl, fun l _ => by rw [reorder_one]⟩

theorem reordered_of_bare {σ : Equiv.Perm (Fin m)} {s t : MSt K F} (h : stRe (1 : Equiv.Perm (Fin m)) t = stRe σ s) : ReorderedBy σ s t := by
  have hm : ∀ {α : Type} (l : List (List α)), l.map (reorder (1 : Equiv.Perm (Fin m))) = l := fun l => by
    rw [show (reorder (1 : Equiv.Perm (Fin m))) = id from funext reorder_one, List.map_id]
  exact {
    niter := (congrArg MSt.niter h :)
    points := (congrArg (fun u => u.ev.X) h :)
    values := (congrArg (fun u => u.ev.fX) h :)
    ceX := by rw [← hm t.ev.ceX]; exact (congrArg (fun u => u.ev.ceX) h :)
    nsimul := (congrArg (fun u => u.ev.nsimul) h :)
    infoF := (congrArg (fun u => u.ev.infoF) h :)
    flag := (congrArg (fun u => u.ev.flag) h :)
    calls := (congrArg (fun u => u.ev.w) h :)
    m := (congrArg MSt.m h :)
    Y := (congrArg (fun u => u.set.Y) h :)
    ind := (congrArg (fun u => u.set.ind) h :)
    fY := (congrArg (fun u => u.set.fY) h :)
    ciY := (congrArg (fun u => u.set.ciY) h :)
    ceY := by rw [← hm t.set.ceY]; exact (congrArg (fun u => u.set.ceY) h :)
    fac := (congrArg (fun u => u.set.fac) h :)
    cur := (congrArg MSt.cur h :)
    x := (congrArg MSt.x h :)
    fx := (congrArg MSt.fx h :)
    ixbest := (congrArg MSt.ixbest h :)
    delta := (congrArg MSt.delta h :)
    sigma := (congrArg MSt.sigma h :)
    pred := (congrArg MSt.pred h :)
    epsCur := (congrArg MSt.epsCur h :)
    rejected := (congrArg MSt.rejected h :)
    poisedModel := (congrArg MSt.poisedModel h :)
    f0 := (congrArg MSt.f0 h :)
    ce0n := (congrArg MSt.ce0n h :)
    merit0 := (congrArg MSt.merit0 h :)
    glagn := (congrArg MSt.glagn h :)
    feasn := (congrArg MSt.feasn h :)
    compl := (congrArg MSt.compl h :)
    poised := (congrArg MSt.poised h :)
    yradius := (congrArg MSt.yradius h :)
    infoCe := by rw [← reorder_one (m := m) t.infoCe]; exact (congrArg MSt.infoCe h :)
    ceplus := by rw [← reorder_one (m := m) t.ceplus]; exact (congrArg MSt.ceplus h :)
    sl := (congrArg MSt.sl h :) }

theorem mainLoop_reordered {σ : Equiv.Perm (Fin m)} {e : Env K F} (h : OrderOk σ e) (os : List (Orc K F)) (s t : MSt K F)
    (hst : stRe (1 : Equiv.Perm (Fin m)) t = stRe σ s) :
    (mainLoop e os s).Both (fun s t => stRe (1 : Equiv.Perm (Fin m)) t = stRe σ s) (mainLoop (reorderEnv σ e) os t) := by
  have h1 := mainLoop_re h os s
  have h2 := mainLoop_re (orderOk_one σ h) os t
  rw [bareRe_one, hst, h1] at h2
  cases hr : mainLoop e os s <;> cases hr' : mainLoop (reorderEnv σ e) os t <;> rw [hr, hr'] at h2 <;>
    simp only [MainRes.map, MainRes.done.injEq, MainRes.running.injEq, MainRes.crash.injEq, reduceCtorEq] at h2
  · exact h2.symm
  · exact h2.symm
  · exact h2.symm

theorem startState_reordered (σ : Equiv.Perm (Fin m)) (e : Env K F) (x0 : List K) (fuel : ℕ) (D : K) (sl : List K) :
    (startState e x0 fuel D sl = none → startState (reorderEnv σ e) x0 fuel D sl = none) ∧
    ∀ s, startState e x0 fuel D sl = some s →
      ∃ t, startState (reorderEnv σ e) x0 fuel D sl = some t ∧ stRe (1 : Equiv.Perm (Fin m)) t = stRe σ s := by
  have h1 := startState_re σ e x0 fuel D sl
  have h2 := startState_re (1 : Equiv.Perm (Fin m)) (reorderEnv σ e) x0 fuel D sl
  rw [bareRe_one, h1] at h2
  constructor
  · intro h
    rw [h] at h2
    cases ht : startState (reorderEnv σ e) x0 fuel D sl with
    | none => rfl
    | some t => rw [ht] at h2; cases h2
  · intro s h
    rw [h] at h2
    cases ht : startState (reorderEnv σ e) x0 fuel D sl with
    | none => rw [ht] at h2; cases h2
    | some t =>
      rw [ht] at h2
      simp only [Option.map_some, Option.some.injEq] at h2
      exact ⟨t, rfl, h2.symm⟩

end Sqpdfo
