import Verif.Spec.Translate
import Verif.Lemmas.MainReorder
import Verif.Lemmas.MainLog
import Verif.Props.C98_C99_Causal

/-! # Runs in other coordinates -/

set_option linter.unusedSectionVars false

namespace Sqpdfo
open Spec
variable {K F : Type} [Field K] [LinearOrder K] [IsStrictOrderedRing K]

/-! ### Evaluations -/

/-- The evaluation data in other coordinates. -/
def evTr {P : Type} (τ : P → P) (s : EvSt P K) : EvSt P K := { s with X := s.X.map τ, w := carryW τ s.w }

/-- The interpolation set in other coordinates. -/
def setTr {P C : Type} (τ : P → P) (φ : F → F) (s : IntSet P C F K) : IntSet P C F K := { s with Y := s.Y.map τ, fac := φ s.fac }

theorem sqpdfoFunc_tr {P : Type} {τ : P → P} {U V : User P K} (h : CarriedUser τ U V) (y : P) (w : World P) :
    sqpdfoFunc V (τ y) (carryW τ w) = ((sqpdfoFunc U y w).1, carryW τ (sqpdfoFunc U y w).2) := by
  obtain ⟨f, c⟩ := U
  obtain ⟨g, d⟩ := V
  have hw : ({ carryW τ w with logF := (carryW τ w).logF ++ [τ y] } : World P) = carryW τ { w with logF := w.logF ++ [y] } := by
    simp only [carryW, List.map_append, List.map_cons, List.map_nil]
  have hf : g (carryW τ w) (τ y) = f w y := h.f w y
  unfold sqpdfoFunc
  simp only [hw, hf]
  cases c with
  | none =>
    have hd : d = none := h.none rfl
    subst hd
    rfl
  | some c =>
    obtain ⟨c', hd, hc⟩ := h.some c rfl
    dsimp only at hd
    subst hd
    simp only [hc]
    cases c { w with logF := w.logF ++ [y] } y with
    | raised => simp only [carryW, List.map_append, List.map_cons, List.map_nil]
    | nums vs => simp only [carryW, List.map_append, List.map_cons, List.map_nil]

theorem augmX_tr {P : Type} {τ : P → P} {U V : User P K} (h : CarriedUser τ U V) (v : Fl K) (y : P) (k : ℕ) (s : EvSt P K) :
    augmX V v (τ y) k (evTr τ s) = (augmX U v y k s).map (evTr τ) := by
  unfold augmX
  dsimp only [evTr]
  rw [sqpdfoFunc_tr h, ← setOrAppend_map]
  generalize sqpdfoFunc U y s.w = r
  obtain ⟨⟨msg, f, c⟩, w⟩ := r
  dsimp only
  cases f with
  | raised => rfl
  | other => rfl
  | num v =>
    dsimp only
    split
    · rfl
    split
    · rfl
    split
    · rfl
    split
    · rfl
    · rfl

/-! ### The interpolation set -/

theorem swapInY_tr {P C : Type} [DecidableEq C] {τ : P → P} {φ : F → F} {b b' : List P → F} (hb : ∀ Y, b' (Y.map τ) = φ (b Y)) (i j : ℕ)
    (s : IntSet P C F K) : swapInY b' i j (setTr τ φ s) = (swapInY b i j s).map (setTr τ φ) := by
  unfold swapInY
  split
  · rfl
  · dsimp only [setTr]
    rw [swapL_map]
    cases swapL s.Y (if i > j then j else i) (if i > j then i else j) <;>
      cases swapL s.ind (if i > j then j else i) (if i > j then i else j) <;>
      cases swapL s.fY (if i > j then j else i) (if i > j then i else j) <;>
      cases swapOpt s.ciY (if i > j then j else i) (if i > j then i else j) <;>
      cases swapOpt s.ceY (if i > j then j else i) (if i > j then i else j) <;> try rfl
    simp only [Option.map_some, hb]
    rfl

theorem findSmallf_tr {P C : Type} [DecidableEq C] {τ : P → P} {φ : F → F} {b b' : List P → F} (hb : ∀ Y, b' (Y.map τ) = φ (b Y))
    (choice : Option ℕ) (s : IntSet P C F K) (fx : K) (i : ℕ) (g : K) : findSmallf b' choice ⟨setTr τ φ s, fx, i, g⟩ =
      (findSmallf b choice ⟨s, fx, i, g⟩).map fun t => ⟨setTr τ φ t.s, t.fx, t.ixbest, t.infoF⟩ := by
  unfold findSmallf
  cases choice with
  | some k =>
    simp only [swapInY_tr hb]
    cases swapInY b 0 k s with
    | none => rfl
    | some t =>
      simp only [Option.map_some, setTr]
      cases t.fY[0]? <;> cases t.ind[0]? <;> rfl
  | none =>
    simp only [setTr]
    cases s.fY[0]? <;> rfl

theorem includeInY_tr {P : Type} {D : P → Prop} {τ : P → P} {φ : F → F} {b b' : List P → F} {d d' : P → P → K} (hb : ∀ Y, b' (Y.map τ) = φ (b Y))
    (hd : ∀ y z, D y → D z → d' (τ y) (τ z) = d y z) (lval : ℕ → K) (choice : List ℕ) (thr : K) (crit : Crit) (x ref : P) (hr : D ref) (Y : List P)
    (hY : ∀ y ∈ Y, D y) (fac : F) :
    includeInY d' b' lval choice thr crit (τ x) (τ ref) (Y.map τ) (φ fac) =
      ((includeInY d b lval choice thr crit x ref Y fac).1, (includeInY d b lval choice thr crit x ref Y fac).2.1.map τ,
        φ (includeInY d b lval choice thr crit x ref Y fac).2.2) := by
  have hc : ∀ L, candCrit d' crit (τ ref) L (Y.map τ) = candCrit d crit ref L Y := by
    intro L
    funext j
    unfold candCrit
    rw [List.getElem?_map]
    cases hj : Y[j]? with
    | none => rfl
    | some y => simp only [Option.map_some, hd y ref (hY y (List.mem_of_getElem? hj)) hr]
  unfold includeInY
  dsimp only
  rw [List.length_map, hc]
  split
  · rfl
  split
  · rfl
  · generalize pickMax (candCrit d crit ref (fun j => if j ∈ choice then lval j else 0) Y) _ none 0 = p
    cases p with
    | none => rfl
    | some pos =>
      simp only [← List.map_set, hb]

/-- The local state of the repair in other coordinates. -/
def repTr {P : Type} (τ : P → P) (φ : F → F) (s : RepSt P F K) : RepSt P F K := { s with Y := s.Y.map τ, fac := φ s.fac }

/-- The result of the repair in other coordinates. -/
def resTr {P : Type} (τ : P → P) (φ : F → F) (r : RepRes P F K) : RepRes P F K := { r with st := repTr τ φ r.st }

theorem put_tr {P : Type} {D : P → Prop} {τ : P → P} {φ : F → F} {b b' : List P → F} {d d' : P → P → K} (hb : ∀ Y, b' (Y.map τ) = φ (b Y))
    (hd : ∀ y z, D y → D z → d' (τ y) (τ z) = d y z) (st : RepSt P F K) (hY : ∀ y ∈ st.Y, D y) (j : ℕ) (y : P) (hy : D y)
    (l : List ℕ) :
    (repTr τ φ st).put d' b' j (τ y) l = repTr τ φ (st.put d b j y l) := by
  unfold RepSt.put repTr
  dsimp only
  rw [← List.map_set, hb, List.getElem?_map]
  cases hz : (st.Y.set j y)[0]? with
  | none => rfl
  | some z =>
    have : D z := (List.mem_or_eq_of_mem_set (List.mem_of_getElem? hz)).elim (hY z) fun h => h ▸ hy
    simp only [Option.map_some, hd y z hy this]

theorem put_D {P : Type} {D : P → Prop} {b : List P → F} {d : P → P → K} {st : RepSt P F K} (hY : ∀ y ∈ st.Y, D y) (j : ℕ) {y : P} (hy : D y)
    (l : List ℕ) : ∀ z ∈ (st.put d b j y l).Y, D z := fun z hz => (List.mem_or_eq_of_mem_set hz).elim (hY z) fun h => h ▸ hy

theorem farLoop_D {P : Type} {D : P → Prop} {b : List P → F} {d : P → P → K} {q : F → List P → ℕ → P × K} (hD : ∀ f Y j, D (q f Y j).1) (thr : K) :
    ∀ (l : List (ℕ × K)) (st : RepSt P F K), (∀ y ∈ st.Y, D y) → ∀ y ∈ (farLoop d b q thr l st).Y, D y := by
  intro l
  induction l with
  | nil => intro st hY; exact hY
  | cons p l ih =>
    intro st hY
    obtain ⟨j, dj⟩ := p
    unfold farLoop
    split
    · exact ih _ (put_D hY j (hD _ _ _) _)
    · exact hY

theorem bestRepl_D {P : Type} {D : P → Prop} {p : ℕ → P × K} (hD : ∀ j, D (p j).1) : ∀ (l : List ℕ) (b : Option (ℕ × P)) (m : K),
    (∀ z, b = some z → D z.2) → ∀ z, (bestRepl p l b m).1 = some z → D z.2 := by
  intro l
  induction l with
  | nil => intro b m hb; exact hb
  | cons j l ih =>
    intro b m hb
    simp only [bestRepl]
    split
    · exact ih _ _ fun z hz => by cases hz; exact hD j
    · exact ih b m hb

theorem farLoop_tr {P : Type} {D : P → Prop} {τ : P → P} {φ : F → F} {b b' : List P → F} {d d' : P → P → K} {q q' : F → List P → ℕ → P × K}
    (hb : ∀ Y, b' (Y.map τ) = φ (b Y)) (hd : ∀ y z, D y → D z → d' (τ y) (τ z) = d y z) (hq : ∀ f Y j, q' (φ f) (Y.map τ) j = (τ (q f Y j).1, (q f Y j).2))
    (hD : ∀ f Y j, D (q f Y j).1) (thr : K) : ∀ (l : List (ℕ × K)) (st : RepSt P F K), (∀ y ∈ st.Y, D y) →
    farLoop d' b' q' thr l (repTr τ φ st) = repTr τ φ (farLoop d b q thr l st) := by
  intro l
  induction l with
  | nil => intro st _; rfl
  | cons p l ih =>
    intro st hY
    obtain ⟨j, dj⟩ := p
    unfold farLoop
    split
    · rw [← ih _ (put_D hY j (hD _ _ _) _), ← put_tr hb hd st hY j _ (hD _ _ _), show (q' (repTr τ φ st).fac (repTr τ φ st).Y j) = _ from hq st.fac st.Y j]
      rfl
    · rfl

theorem bestRepl_tr {P : Type} {τ : P → P} {p p' : ℕ → P × K} (hp : ∀ j, p' j = (τ (p j).1, (p j).2)) : ∀ (l : List ℕ) (b : Option (ℕ × P)) (m : K),
    bestRepl p' l (b.map fun z => (z.1, τ z.2)) m = ((bestRepl p l b m).1.map fun z => (z.1, τ z.2), (bestRepl p l b m).2) := by
  intro l
  induction l with
  | nil => intro b m; rfl
  | cons j l ih =>
    intro b m
    simp only [bestRepl, hp]
    split
    · rw [← ih]; rfl
    · exact ih b m

theorem rounds_tr {P : Type} {D : P → Prop} {τ : P → P} {φ : F → F} {b b' : List P → F} {d d' : P → P → K} {q q' : F → List P → ℕ → P × K}
    (hb : ∀ Y, b' (Y.map τ) = φ (b Y)) (hd : ∀ y z, D y → D z → d' (τ y) (τ z) = d y z) (hq : ∀ f Y j, q' (φ f) (Y.map τ) j = (τ (q f Y j).1, (q f Y j).2))
    (hD : ∀ f Y j, D (q f Y j).1) (thr : K) : ∀ (k r : ℕ) (last : K) (st : RepSt P F K), (∀ y ∈ st.Y, D y) →
    rounds d' b' q' thr k r last (repTr τ φ st) = resTr τ φ (rounds d b q thr k r last st) := by
  intro k
  induction k with
  | zero => intro r last st _; rfl
  | succ k ih =>
    intro r last st hY
    unfold rounds
    dsimp only
    have hl : (repTr τ φ st).Y.length = st.Y.length := List.length_map _
    have h1 := bestRepl_tr (hq st.fac st.Y) ((List.range st.Y.length).tail) none 0
    have h2 := bestRepl_D (D := D) (hD st.fac st.Y) ((List.range st.Y.length).tail) none 0 (by simp)
    rw [hl, show bestRepl (q' (repTr τ φ st).fac (repTr τ φ st).Y) ((List.range st.Y.length).tail) none 0 = _ from h1]
    generalize bestRepl (q st.fac st.Y) ((List.range st.Y.length).tail) none 0 = B at h2 ⊢
    obtain ⟨B1, B2⟩ := B
    cases B1 with
    | none => rfl
    | some z =>
      obtain ⟨j, y⟩ := z
      simp only [Option.map_some]
      split
      · rfl
      · rw [← ih _ _ _ (put_D hY j (h2 (j, y) rfl) _), ← put_tr hb hd st hY j y (h2 (j, y) rfl)]
        rfl

theorem dists_tr {P : Type} {D : P → Prop} {τ : P → P} {d d' : P → P → K} (hd : ∀ y z, D y → D z → d' (τ y) (τ z) = d y z) (Y : List P)
    (hY : ∀ y ∈ Y, D y) : dists d' (Y.map τ) = dists d Y := by
  cases Y with
  | nil => rfl
  | cons y l =>
    simp only [dists, List.map_cons, List.map_map, Function.comp_def]
    congr 1
    exact List.map_congr_left fun z hz => hd z y (hY z (List.mem_cons_of_mem _ hz)) (hY y List.mem_cons_self)

theorem repairY_tr {P : Type} {D : P → Prop} {τ : P → P} {φ : F → F} {b b' : List P → F} {d d' : P → P → K} {q q' : F → List P → ℕ → P × K}
    (hb : ∀ Y, b' (Y.map τ) = φ (b Y)) (hd : ∀ y z, D y → D z → d' (τ y) (τ z) = d y z) (hq : ∀ f Y j, q' (φ f) (Y.map τ) j = (τ (q f Y j).1, (q f Y j).2))
    (hD : ∀ f Y j, D (q f Y j).1) (thr far : K) (order : List ℕ) (Y : List P) (hY : ∀ y ∈ Y, D y) (fac : F) :
    repairY d' b' q' thr far order (Y.map τ) (φ fac) = resTr τ φ (repairY d b q thr far order Y fac) := by
  unfold repairY
  dsimp only
  rw [dists_tr hd Y hY, ← rounds_tr hb hd hq hD _ _ _ _ _ (farLoop_D hD _ _ _ hY), ← farLoop_tr hb hd hq hD _ _ _ hY]
  rfl

/-! ### Stages -/

variable {D : List K → Prop} {τ : List K → List K} {φ : F → F} {γ : Grads K → Grads K} {e : Env K F} {A : Coords K F}

theorem dist_tr (h : Carried D τ φ γ e A) (y z : List K) (hy : D y) (hz : D z) : (e.within A).dist (τ y) (τ z) = e.dist y z := by
  have := h.dist y z [] hy hz
  rw [List.append_nil, List.append_nil] at this
  exact this

theorem newGx_tr (h : Carried D τ φ γ e A) (s : MSt K F) : (carrySt τ φ γ s).newGx (e.within A) = carrySt τ φ γ (s.newGx e) := by
  unfold MSt.newGx
  show MSt.mk _ _ _ _ _ _ _ _ _ _ _ _ _ _ _ _ _ _ _ _ _ _ _ _ _ _ _ = MSt.mk _ _ _ _ _ _ _ _ _ _ _ _ _ _ _ _ _ _ _ _ _ _ _ _ _ _ _
  congr 1
  exact h.model _ _ _ _

theorem callSmallf_tr (h : Carried D τ φ γ e A) (s : MSt K F) (hC : ∀ y ∈ s.set.Y, SameSide e A τ y) :
    callSmallf (e.within A) (carrySt τ φ γ s) = (callSmallf e s).map (carrySt τ φ γ) := by
  unfold callSmallf
  have h1 : indInside (e.within A).lb (e.within A).ub (carrySt τ φ γ s).set.Y = indInside e.lb e.ub s.set.Y := by
    show indInside A.lb A.ub (s.set.Y.map τ) = _
    unfold indInside
    rw [List.length_map]
    refine List.map_congr_left fun i _ => ?_
    rw [List.getElem?_map]
    cases hy : s.set.Y[i]? with
    | none => rfl
    | some y =>
      have := hC y (List.mem_of_getElem? hy)
      simp only [SameSide] at this
      simp only [Option.map_some, this]
  have h2 : ((carrySt τ φ γ s).set.Y.map fun _ => (0 : K)) = s.set.Y.map fun _ => 0 := by
    show ((s.set.Y.map τ).map fun _ => (0 : K)) = _
    rw [List.map_map]; rfl
  rw [h1, h2]
  show (match (if anyNonzero s.set.ceY then s.set.ceY.mapM (fun c => e.resNorm c s.sl)
      else some (s.set.Y.map fun _ => 0)) with
    | none => PassRes.crash .ceShape
    | some nrms =>
      match findSmallf A.build (smallfChoice (meritY e.trunc s.sigma (anyNonzero s.set.ceY) s.set.fY nrms)
          (indInside e.lb e.ub s.set.Y)) ⟨setTr τ φ s.set, s.fx, s.ixbest, s.fx⟩ with
      | none => PassRes.crash .index
      | some t =>
        match t.s.Y[0]? with
        | none => PassRes.crash .index
        | some x0 => PassRes.cont { carrySt τ φ γ s with
            set := t.s
            fx := t.fx
            ixbest := t.ixbest
            x := if (smallfChoice (meritY e.trunc s.sigma (anyNonzero s.set.ceY) s.set.fY nrms)
              (indInside e.lb e.ub s.set.Y)).isSome then x0 else τ s.x
            ev := { evTr τ s.ev with infoF := .fin t.infoF }
            infoCe := match t.s.ceY[0]? with
              | some c => c
              | none => s.infoCe }) = _
  cases (if anyNonzero s.set.ceY = true then s.set.ceY.mapM (fun c => e.resNorm c s.sl) else some (s.set.Y.map fun _ => 0)) with
  | none => rfl
  | some nrms =>
    dsimp only
    rw [findSmallf_tr h.build]
    generalize smallfChoice (meritY e.trunc s.sigma (anyNonzero s.set.ceY) s.set.fY nrms) (indInside e.lb e.ub s.set.Y) = ch
    cases findSmallf e.build ch ⟨s.set, s.fx, s.ixbest, s.fx⟩ with
    | none => rfl
    | some t =>
      simp only [Option.map_some]
      have h5 : (setTr τ φ t.s).Y[0]? = (t.s.Y[0]?).map τ := List.getElem?_map
      rw [h5]
      cases t.s.Y[0]? with
      | none => rfl
      | some x =>
        cases ch with
        | none => rfl
        | some i => rfl

theorem evalReplaced_tr (h : Carried D τ φ γ e A) : ∀ (js : List ℕ) (s : MSt K F),
    evalReplaced (e.within A) js (carrySt τ φ γ s) = (evalReplaced e js s).map (carrySt τ φ γ) := by
  intro js
  induction js with
  | nil => intro s; rfl
  | cons j js ih =>
    intro s
    have h1 : (carrySt τ φ γ s).set.Y[j]? = (s.set.Y[j]?).map τ := List.getElem?_map
    have h2 : (carrySt τ φ γ s).set.ind = s.set.ind := rfl
    have h3 : (carrySt τ φ γ s).m = s.m := rfl
    have h4 : (carrySt τ φ γ s).ev = evTr τ s.ev := rfl
    have h5 : (e.within A).U = A.U := rfl
    have h6 : (e.within A).me = e.me := rfl
    simp only [evalReplaced, h1, h2, h3, h4, h5, h6]
    cases s.set.Y[j]? with
    | none => rfl
    | some y =>
      cases s.set.ind[j]? with
      | none => rfl
      | some i =>
        simp only [Option.map_some, augmX_tr h.user]
        cases augmX e.U (.fin big) y (s.m + 1) s.ev with
        | none => rfl
        | some ev =>
          simp only [Option.map_some]
          have g1 : (evTr τ ev).fX = ev.fX := rfl
          have g2 : (evTr τ ev).ceX = ev.ceX := rfl
          rw [g1, g2]
          cases ev.fX[s.m + 1]? with
          | none => rfl
          | some v =>
            dsimp only
            cases v.val? with
            | none => rfl
            | some v =>
              dsimp only
              by_cases hm : e.me > 0
              · rw [if_pos hm, if_pos hm]
                cases (ev.ceX[s.m + 1]?).bind colK with
                | none => rfl
                | some c =>
                  dsimp only
                  rw [← ih]
                  rfl
              · rw [if_neg hm, if_neg hm, ← ih]
                rfl

theorem improveEnd_tr (k : Meas K) (r : K) (s : MSt K F) :
    improveEnd (e.within A) k r (carrySt τ φ γ s) = (improveEnd e k r s).map (carrySt τ φ γ) :=
  ite_plus (fun _ => rfl) fun _ => ite_plus (fun _ => rfl) fun _ => rfl

theorem improveEnd_set {k : Meas K} {r : K} {s v : MSt K F} (h : improveEnd e k r s = .cont v ∨ improveEnd e k r s = .ret v) :
    v.set = s.set := by
  unfold improveEnd at h
  dsimp only at h
  split at h
  · rcases h with h | h <;> cases h; rfl
  · split at h
    · rcases h with h | h <;> cases h; rfl
    · rcases h with h | h <;> cases h; rfl

theorem swapInY_keeps {P C : Type} [DecidableEq C] {b : List P → F} {i j : ℕ} {s t : IntSet P C F K} (h : swapInY b i j s = some t) :
    ∀ y ∈ s.Y, y ∈ t.Y := by
  have hl : ∀ (i j : ℕ) (l l' : List P), swapL l i j = some l' → ∀ k ∈ l, k ∈ l' := by
    intro i j l l' h k hk
    obtain ⟨h1, h2⟩ := swapL_get h
    obtain ⟨n, hn, rfl⟩ := List.getElem_of_mem hk
    have hi : swapIdx i j (swapIdx i j n) = n := by
      unfold swapIdx
      split_ifs <;> simp_all
    have := h2 (swapIdx i j n)
    rw [hi, List.getElem?_eq_getElem hn] at this
    exact List.mem_of_getElem? this
  unfold swapInY at h
  split at h
  · cases h; exact fun y hy => hy
  · dsimp only at h
    split at h
    · rename_i hY _ _ _ _
      cases h
      exact hl _ _ _ _ hY
    · cases h

theorem callSmallf_pts {s v : MSt K F} (h : callSmallf e s = .cont v) : ∀ y ∈ s.set.Y, y ∈ v.set.Y := by
  unfold callSmallf at h
  dsimp only at h
  split at h
  · cases h
  · split at h
    · cases h
    · rename_i t ht
      split at h
      · cases h
      · cases h
        show ∀ y ∈ s.set.Y, y ∈ t.s.Y
        unfold findSmallf at ht
        split at ht
        · split at ht
          · cases ht
          · rename_i hsw
            split at ht
            · cases ht; exact swapInY_keeps hsw
            · cases ht
        · split at ht
          · cases ht; exact fun y hy => hy
          · cases ht

theorem callSmallf_noret (e : Env K F) (s v : MSt K F) : callSmallf e s ≠ .ret v := by
  unfold callSmallf
  dsimp only
  split
  · simp
  · split
    · simp
    · split <;> simp

theorem _root_.Sqpdfo.Core.Y_mem {s : MSt K F} (h : Core e [] s) {y : List K} (hy : y ∈ s.set.Y) : y ∈ s.ev.w.logF := by
  obtain ⟨j, hj, rfl⟩ := List.getElem_of_mem hy
  obtain ⟨i, y, f, b1, b2, b3, b4, b5⟩ := h.link j (by rw [← h.Ylen]; exact hj) (by simp)
  rw [List.getElem?_eq_getElem hj] at b2
  cases b2
  exact h.log.subset (List.mem_of_getElem? b4)

/-- The stage does not crash, and all points of the set at its end have the property. -/
def Held (S : List K → Prop) (r : PassRes K F) : Prop := ∃ v, (r = .cont v ∨ r = .ret v) ∧ ∀ y ∈ v.set.Y, S y

theorem repairStage_tr (h : Carried D τ φ γ e A) {o o' : Orc K F} (ho : CarriedOrc D τ φ o o') (r : K) (s : MSt K F)
    (hY : ∀ y ∈ s.set.Y, D y) (hC : Held (SameSide e A τ) (repairStage e o r s)) :
    repairStage (e.within A) o' r (carrySt τ φ γ s) = (repairStage e o r s).map (carrySt τ φ γ) := by
  obtain ⟨p, q, rfl, hp, hq, -, hD⟩ := ho
  unfold repairStage at hC ⊢
  dsimp only at hC ⊢
  have hr := repairY_tr (b := e.build) (b' := A.build) (d := e.dist) (d' := (e.within A).dist) (q := o.propose) (q' := q) h.build (dist_tr h) hq hD
    (6 / 5) ((if o.normgx ≤ cEps ∨ s.pred = -1 then 1 else 10) * (1 + cEpsL) * r) (e.order (dists e.dist s.set.Y)) s.set.Y hY s.set.fac
  have hd := dists_tr (τ := τ) (dist_tr h) s.set.Y hY
  rw [show (carrySt τ φ γ s).set.Y = s.set.Y.map τ from rfl, hd]
  rw [show repairY (e.within A).dist (e.within A).build q (6 / 5)
    ((if o.normgx ≤ cEps ∨ (carrySt τ φ γ s).pred = -1 then 1 else 10) * (1 + cEpsL) * r) ((e.within A).order (dists e.dist s.set.Y)) (s.set.Y.map τ)
    (carrySt τ φ γ s).set.fac = _ from hr]
  generalize repairY e.dist e.build o.propose (6 / 5) ((if o.normgx ≤ cEps ∨ s.pred = -1 then 1 else 10) * (1 + cEpsL) * r)
    (e.order (dists e.dist s.set.Y)) s.set.Y s.set.fac = R at hC ⊢
  have h7 : (if (e.within A).verbose4 then p (resTr τ φ R).st.fac (resTr τ φ R).st.Y else ((resTr τ φ R).maximprove, (resTr τ φ R).radius)) =
      (if e.verbose4 then o.poisedness R.st.fac R.st.Y else (R.maximprove, R.radius)) := by
    rw [show p (resTr τ φ R).st.fac (resTr τ φ R).st.Y = _ from hp R.st.fac R.st.Y]
    rfl
  rw [h7]
  rw [PassRes.map_bind (f := carrySt τ φ γ) (k' := fun s => improveEnd (e.within A) o.k2 r (s.newGx (e.within A)).storeG) (fun _ _ => rfl)
    (fun u _ => by rw [newGx_tr h, ← improveEnd_tr]; rfl)]
  rw [PassRes.map_bind (f := carrySt τ φ γ) (k' := callSmallf (e.within A)) (fun _ _ => rfl)
    (fun u hu => (callSmallf_tr h u fun y hy => by
      obtain ⟨v, hv, hS⟩ := hC
      rw [hu] at hv
      simp only [PassRes.bind] at hv
      cases hw : callSmallf e u with
      | cont w =>
        rw [hw] at hv
        refine hS y ?_
        rw [improveEnd_set hv]
        exact callSmallf_pts hw y hy
      | ret w => exact absurd hw (callSmallf_noret e u w)
      | crash c => rw [hw] at hv; simp at hv).symm)]
  rw [← evalReplaced_tr h]
  rfl

theorem tooSmall_tr {s : MSt K F} (hN : SameFloor e τ s.x) (r : K) : tooSmall (e.within A) (carrySt τ φ γ s) r ↔ tooSmall e s r := by
  have key : ∀ (e : Env K F) (s : MSt K F), tooSmall e s r ↔ r < max (stallfact * e.nrm s.x) (1 / 10 ^ 10) := by
    intro e s
    rw [lt_max_iff, show (1 / 10 ^ 10 : K) = cEps * (1 / 10 ^ 5) by unfold cEps; norm_num]
    rfl
  rw [key, key]
  show r < max (stallfact * e.nrm (τ s.x)) (1 / 10 ^ 10) ↔ _
  rw [hN]

theorem improve_tr (h : Carried D τ φ γ e A) {o o' : Orc K F} (ho : CarriedOrc D τ φ o o') {s : MSt K F} (hN : FitsIn D e τ s)
    (hC : Held (SameSide e A τ) (improve e o s)) :
    improve (e.within A) o' (carrySt τ φ γ s) = (improve e o s).map (carrySt τ φ γ) := by
  have hr := fun r s => repairStage_tr (γ := γ) h ho r s
  obtain ⟨p, q, rfl, hp, hq, -, hD⟩ := ho
  unfold improve at hC ⊢
  dsimp only at hC ⊢
  have hpp : p (carrySt τ φ γ s).set.fac (carrySt τ φ γ s).set.Y = o.poisedness s.set.fac s.set.Y := hp s.set.fac s.set.Y
  simp only [hpp]
  refine ite_plus (fun i1 => ite_plus (fun _ => rfl) fun i2 => ?_) fun _ => rfl
  rw [if_pos (show e.n + 1 ≤ s.cur from i1), if_neg (show ¬ (s.glagn ≤ e.tolGrad ∧ s.feasn ≤ e.tolFeas ∧ s.compl ≤ e.tolBnds ∧
    (o.poisedness s.set.fac s.set.Y).1 * (o.poisedness s.set.fac s.set.Y).2 / cFactorCV ≤ cEps) from i2)] at hC
  have ht := fun (u : MSt K F) (hu : u.x = s.x) r => tooSmall_tr (A := A) (φ := φ) (γ := γ) (τ := τ) (e := e) (s := u) (by rw [hu]; exact hN.1) r
  have key : ∀ (u : MSt K F), u.x = s.x → u.set = s.set → ∀ r, Held (SameSide e A τ) (if tooSmall e u r then u.stop Status.stopOnSmallTR else repairStage e o r u) →
      (if tooSmall (e.within A) (carrySt τ φ γ u) r then (carrySt τ φ γ u).stop Status.stopOnSmallTR
      else repairStage (e.within A) { o with poisedness := p, propose := q, xnew := τ o.xnew } r (carrySt τ φ γ u)) =
      (if tooSmall e u r then u.stop Status.stopOnSmallTR else repairStage e o r u).map (carrySt τ φ γ) := by
    intro u hu hus r hC
    simp only [ht u hu r]
    exact ite_plus (fun _ => rfl) fun i3 => hr r u (by rw [hus]; exact hN.2.2) (by rw [if_neg i3] at hC; exact hC)
  exact key { s with
    poised := (o.poisedness s.set.fac s.set.Y).1, yradius := (o.poisedness s.set.fac s.set.Y).2, niter := s.niter + 1
    epsCur := newEpsCur e { s with poised := (o.poisedness s.set.fac s.set.Y).1, yradius := (o.poisedness s.set.fac s.set.Y).2 } } rfl rfl _ hC

theorem globalise_x {s t : MSt K F} (h : globalise e s = .cont t) : t.x = s.x ∧ t.set = s.set := by
  unfold globalise at h
  split at h
  · cases h; exact ⟨rfl, rfl⟩
  split at h
  · cases h
  split at h
  · cases h
  · cases h; exact ⟨rfl, rfl⟩

theorem penalty_x {o : Orc K F} {s t : MSt K F} (h : penalty o s = .cont t) : t.x = s.x ∧ t.set = s.set := by
  unfold penalty at h
  split at h
  · dsimp only at h
    split at h
    · cases h
    · cases h; exact ⟨rfl, rfl⟩
  · cases h; exact ⟨rfl, rfl⟩

theorem evalTrial_x {o : Orc K F} {s t : MSt K F} (h : evalTrial e o s = .cont t) : t.x = s.x ∧ t.set = s.set := by
  unfold evalTrial at h
  dsimp only at h
  split at h
  · cases h
  split at h
  · cases h
  split at h
  · split at h
    · cases h
    split at h
    · cases h
    · cases h; exact ⟨rfl, rfl⟩
  · cases h; exact ⟨rfl, rfl⟩

theorem penalty_tr (o : Orc K F) (s : MSt K F) : penalty o (carrySt τ φ γ s) = (penalty o s).map (carrySt τ φ γ) :=
  ite_plus (fun _ => ite_plus (fun _ => rfl) fun _ => rfl) fun _ => rfl

theorem evalTrial_tr (h : Carried D τ φ γ e A) {o o' : Orc K F} (ho : o'.xnew = τ o.xnew) (s : MSt K F) :
    evalTrial (e.within A) o' (carrySt τ φ γ s) = (evalTrial e o s).map (carrySt τ φ γ) := by
  unfold evalTrial
  dsimp only
  have h1 : augmX (e.within A).U (.fin big) o'.xnew ((carrySt τ φ γ s).m + 1) (carrySt τ φ γ s).ev =
      (augmX e.U (.fin big) o.xnew (s.m + 1) s.ev).map (evTr τ) := by
    rw [ho]; exact augmX_tr h.user _ o.xnew (s.m + 1) s.ev
  rw [h1]
  cases augmX e.U (.fin big) o.xnew (s.m + 1) s.ev with
  | none => rfl
  | some ev =>
    simp only [Option.map_some]
    refine ite_plus (fun _ => rfl) fun _ => ite_plus (fun _ => ?_) fun _ => rfl
    show (match (replaceHuge ev.ceX).bind replaceHugeNeg with
      | none => PassRes.crash .ceShape
      | some ceX =>
        match (ceX[s.m + 1]?).bind colK with
        | none => PassRes.crash .ceShape
        | some c => PassRes.cont _) = _
    cases (replaceHuge ev.ceX).bind replaceHugeNeg with
    | none => rfl
    | some ceX =>
      dsimp only
      cases (ceX[s.m + 1]?).bind colK with
      | none => rfl
      | some c => rfl

theorem accSet_tr (f : K) (pos : ℕ) (s : MSt K F) : accSet (e.within A) f pos (carrySt τ φ γ s) = setTr τ φ (accSet e f pos s) := by
  by_cases h : e.me > 0
  · rw [accSet, accSet, if_pos h, if_pos (show (e.within A).me > 0 from h), setTr]; rfl
  · rw [accSet, accSet, if_neg h, if_neg (show ¬ (e.within A).me > 0 from h), setTr]; rfl

theorem accepted_tr (h : Carried D τ φ γ e A) {o o' : Orc K F} (ho : CarriedOrc D τ φ o o') (f rho norms : K) (pos : ℕ) (s : MSt K F) :
    accepted (e.within A) o' f rho norms pos (carrySt τ φ γ s) = (accepted e o f rho norms pos s).map (carrySt τ φ γ) := by
  obtain ⟨p, q, rfl, -, -⟩ := ho
  refine ite_plus (fun _ => rfl) fun _ => ?_
  show accEnd (e.within A) o f rho norms (carrySt τ φ γ s) (swapInY A.build 0 pos (accSet (e.within A) f pos (carrySt τ φ γ s))) =
    (accEnd e o f rho norms s (swapInY e.build 0 pos (accSet e f pos s))).map (carrySt τ φ γ)
  rw [accSet_tr, swapInY_tr h.build]
  cases swapInY e.build 0 pos (accSet e f pos s) with
  | none => rfl
  | some set =>
    simp only [Option.map_some, accEnd]
    rw [show (setTr τ φ set).Y[0]? = (set.Y[0]?).map τ from List.getElem?_map]
    cases set.Y[0]? with
    | none => rfl
    | some x =>
      simp only [Option.map_some]
      exact congrArg (fun u => PassRes.cont (MSt.storeG u)) (newGx_tr h { s with
        set := set
        infoCe := if e.me > 0 then s.ceplus else s.infoCe
        sl := if e.me > 0 ∧ e.ns > 0 then moveSl e (if e.me > 0 then s.ceplus else s.infoCe) o.slplus else s.sl
        x := x
        fx := f
        ixbest := s.m
        poisedModel := false
        delta := succDelta rho o.active norms s.delta
        rejected := false })

theorem repSet_tr (f : K) (pos : ℕ) (s : MSt K F) : repSet (e.within A) f pos (carrySt τ φ γ s) = setTr τ φ (repSet e f pos s) := rfl

theorem replaceAt_tr (h : Carried D τ φ γ e A) {o o' : Orc K F} (ho : CarriedOrc D τ φ o o') (f rho norms : K) (pos : ℕ) (s : MSt K F) :
    replaceAt (e.within A) o' f rho norms pos (carrySt τ φ γ s) = (replaceAt e o f rho norms pos s).map (carrySt τ φ γ) := by
  obtain ⟨p, q, rfl, -, -⟩ := ho
  refine ite_plus (fun _ => rfl) fun _ => ite_plus (fun _ => ?_) fun _ => ?_
  · show repEnd (e.within A) o f norms (carrySt τ φ γ s) (swapInY A.build 0 pos (repSet (e.within A) f pos (carrySt τ φ γ s))) =
      (repEnd e o f norms s (swapInY e.build 0 pos (repSet e f pos s))).map (carrySt τ φ γ)
    rw [repSet_tr, swapInY_tr h.build]
    cases swapInY e.build 0 pos (repSet e f pos s) with
    | none => rfl
    | some set =>
      simp only [Option.map_some, repEnd]
      rw [show (setTr τ φ set).Y[0]? = (set.Y[0]?).map τ from List.getElem?_map]
      cases set.Y[0]? with
      | none => rfl
      | some x =>
        simp only [Option.map_some]
        exact congrArg PassRes.cont (newGx_tr h { s with
          set := set
          infoCe := match set.ceY[0]? with
            | some c => if e.me > 0 then c else s.infoCe
            | none => s.infoCe
          sl := if e.me > 0 ∧ e.ns > 0 then moveSl e (match set.ceY[0]? with
            | some c => if e.me > 0 then c else s.infoCe
            | none => s.infoCe) o.slplus else s.sl
          x := x
          fx := f
          ev := { s.ev with infoF := .fin f }
          ixbest := s.m
          poisedModel := false
          delta := min (max (2 * norms) s.delta) cDeltamax })
  · show PassRes.cont (MSt.newGx (e.within A) (carrySt τ φ γ { s with
      set := repSet e f pos s
      delta := if s.delta > cEps then cGamma2 * s.delta else s.delta })) = PassRes.cont _
    rw [newGx_tr h]
    rfl

theorem reduce_tr {o o' : Orc K F} (ho : CarriedOrc D τ φ o o') (f norms : K) {s : MSt K F} (hN : FitsIn D e τ s) :
    reduce (e.within A) o' f norms (carrySt τ φ γ s) = (reduce e o f norms s).map (carrySt τ φ γ) := by
  obtain ⟨p, q, rfl, -, -⟩ := ho
  have key : ∀ (u : MSt K F), u.x = s.x → ∀ r, (if tooSmall (e.within A) (carrySt τ φ γ u) r then (carrySt τ φ γ u).stop Status.stopOnSmallTR
      else .cont (carrySt τ φ γ u).restoreF) = (if tooSmall e u r then u.stop Status.stopOnSmallTR else .cont u.restoreF).map (carrySt τ φ γ) := by
    intro u hu r
    simp only [tooSmall_tr (A := A) (φ := φ) (γ := γ) (τ := τ) (e := e) (s := u) (by rw [hu]; exact hN.1) r]
    exact ite_plus (fun _ => rfl) fun _ => rfl
  exact key { s with delta := redDelta (gamInter f s.fx o.gTs s.pred) s.delta norms } rfl _

theorem augmentY_tr (h : Carried D τ φ γ e A) (x : List K) (Y : List (List K)) :
    augmentY (e.within A) (τ x) (Y.map τ) = ((augmentY e x Y).1, (augmentY e x Y).2.1.map τ, φ (augmentY e x Y).2.2) := by
  have h1 : Y.map τ ++ [τ x] = (Y ++ [x]).map τ := by rw [List.map_append]; rfl
  unfold augmentY
  rw [List.length_map, h1, show (e.within A).build (Y.map τ) = _ from h.build Y, show (e.within A).build ((Y ++ [x]).map τ) = _ from h.build (Y ++ [x])]
  show (if Y.length ≥ (e.n + 1) * (e.n + 2) / 2 ∧ e.regression = false then _ else _) = _
  split <;> rfl

theorem augmentRejected_tr (h : Carried D τ φ γ e A) {o o' : Orc K F} (ho : CarriedOrc D τ φ o o') (f : K) (s : MSt K F) :
    augmentRejected (e.within A) o' f (carrySt τ φ γ s) = (augmentRejected e o f s).map (carrySt τ φ γ) := by
  obtain ⟨p, q, rfl, -, -⟩ := ho
  unfold augmentRejected
  dsimp only
  have ha : augmentY (e.within A) (τ o.xnew) ((carrySt τ φ γ s).set.Y.take (carrySt τ φ γ s).cur) =
      ((augmentY e o.xnew (s.set.Y.take s.cur)).1, (augmentY e o.xnew (s.set.Y.take s.cur)).2.1.map τ,
        φ (augmentY e o.xnew (s.set.Y.take s.cur)).2.2) := by
    rw [← augmentY_tr h, List.map_take]; rfl
  rw [ha]
  generalize augmentY e o.xnew (s.set.Y.take s.cur) = a
  refine ite_plus (fun _ => rfl) fun _ => ?_
  show PassRes.cont (MSt.newGx (e.within A) (carrySt τ φ γ { s with
    cur := a.1
    set := { s.set with
      Y := a.2.1
      fac := a.2.2
      ind := setOrAppend s.set.ind (a.1 - 1) s.m
      fY := setOrAppend s.set.fY (a.1 - 1) f
      ceY := if e.me > 0 then setOrAppend s.set.ceY (a.1 - 1) s.ceplus else s.set.ceY }
    poisedModel := false
    delta := if s.delta > cEps then cGamma2 * s.delta else s.delta })) = PassRes.cont _
  rw [newGx_tr h]

/-- A choice of a position with a new set in other coordinates. -/
def incTr (τ : List K → List K) (φ : F → F) (i : Option ℕ × List (List K) × F) : Option ℕ × List (List K) × F := (i.1, i.2.1.map τ, φ i.2.2)

theorem pickRep_tr (h : Carried D τ φ γ e A) {o o' : Orc K F} (ho : CarriedOrc D τ φ o o') (f rho norms : K) {s : MSt K F} (hN : FitsIn D e τ s)
    (far close : Option ℕ × List (List K) × F) :
    pickRep (e.within A) o' f rho norms (carrySt τ φ γ s) (incTr τ φ far) (incTr τ φ close) =
      (pickRep e o f rho norms s far close).map (carrySt τ φ γ) := by
  obtain ⟨p, fY, ff⟩ := far
  obtain ⟨q, cY, cf⟩ := close
  unfold pickRep
  cases p with
  | some pos =>
    dsimp only [incTr]
    rw [PassRes.map_bind (f := carrySt τ φ γ) (k' := fun s => .cont s.restoreF) (fun _ _ => rfl) (fun u _ => rfl), ← replaceAt_tr h ho]
    rfl
  | none =>
    dsimp only [incTr]
    cases q with
    | some pos =>
      dsimp only
      rw [PassRes.map_bind (f := carrySt τ φ γ) (k' := fun s => .cont s.restoreF) (fun _ _ => rfl) (fun u _ => rfl), ← replaceAt_tr h ho]
      rfl
    | none => exact reduce_tr ho f norms hN

theorem farDists_tr (h : Carried D τ φ γ e A) (rho : K) (x : List K) (hx : D x) (s : MSt K F) (hs : D s.x)
    (hY : ∀ y ∈ s.set.Y, D y) : farDists (e.within A) rho (τ x) (carrySt τ φ γ s) = farDists e rho x s := by
  unfold farDists
  show (if rho ≥ cEta1 then (s.set.Y.map τ).map fun y => (e.within A).dist y (τ x) else
    match s.set.Y.map τ with
    | [] => []
    | _ :: l => 0 :: l.map fun y => (e.within A).dist y (τ s.x)) = _
  rw [List.map_map]
  split
  · exact List.map_congr_left fun y hy => dist_tr h y x (hY y hy) hx
  · cases hS : s.set.Y with
    | nil => rfl
    | cons y l =>
      simp only [List.map_cons, List.map_map]
      congr 1
      exact List.map_congr_left fun z hz => dist_tr h z s.x (hY z (by rw [hS]; exact List.mem_cons_of_mem _ hz)) hs

theorem replaceOrReduce_tr (h : Carried D τ φ γ e A) {o o' : Orc K F} (ho : CarriedOrc D τ φ o o') (f rho norms : K) {s : MSt K F}
    (hN : FitsIn D e τ s) :
    replaceOrReduce (e.within A) o' f rho norms (carrySt τ φ γ s) = (replaceOrReduce e o f rho norms s).map (carrySt τ φ γ) := by
  refine ite_plus (fun _ => ?_) fun _ => reduce_tr ho f norms hN
  have hp := pickRep_tr (A := A) (γ := γ) h ho f rho norms hN
    (includeInY e.dist e.build o.lval2 (findIdx (fun v => decide (v > (1 + cEpsTR) * s.delta)) (farDists e rho o.xnew s))
      (1 / 10 ^ 10) (if rho ≥ cEta1 then .weighted else .distance) o.xnew (if rho ≥ cEta1 then o.xnew else s.x) s.set.Y s.set.fac)
    (includeInY e.dist e.build o.lval3 (findIdx (fun v => decide (v ≤ (1 + cEpsTR) * s.delta))
        (if rho ≥ cEta1 then farDists e rho o.xnew s else (farDists e rho o.xnew s).set 0 (2 * ((1 + cEpsTR) * s.delta))))
        (if rho ≥ cEta1 then 1 / 10 ^ 15 else 6 / 5) .standard o.xnew (if rho ≥ cEta1 then o.xnew else s.x) s.set.Y s.set.fac)
  refine Eq.trans ?_ hp
  obtain ⟨p, q, rfl, -, -, hx, -⟩ := ho
  unfold incTr
  have href : D (if rho ≥ cEta1 then o.xnew else s.x) := by
    split
    · exact hx
    · exact hN.2.1
  rw [← includeInY_tr h.build (dist_tr h) _ _ _ _ _ _ href _ hN.2.2, ← includeInY_tr h.build (dist_tr h) _ _ _ _ _ _ href _ hN.2.2,
    ← farDists_tr h rho o.xnew hx s hN.2.1 hN.2.2, apply_ite τ]
  rfl

theorem rejectStep_tr (h : Carried D τ φ γ e A) {o o' : Orc K F} (ho : CarriedOrc D τ φ o o') (f rho norms : K) {s : MSt K F} (hN : FitsIn D e τ s) :
    rejectStep (e.within A) o' f rho norms (carrySt τ φ γ s) = (rejectStep e o f rho norms s).map (carrySt τ φ γ) := by
  refine ite_plus (fun _ => ?_) fun _ => replaceOrReduce_tr h ho f rho norms (s := { s with rejected := true }) hN
  rw [PassRes.map_bind (f := carrySt τ φ γ) (k' := fun s => .cont s.restoreF) (fun _ _ => rfl) (fun u _ => rfl), ← augmentRejected_tr h ho]
  rfl

theorem pickAcc_tr (h : Carried D τ φ γ e A) {o o' : Orc K F} (ho : CarriedOrc D τ φ o o') (f rho norms : K) {s : MSt K F} (hN : FitsIn D e τ s)
    (inc : Option ℕ × List (List K) × F) :
    pickAcc (e.within A) o' f rho norms (carrySt τ φ γ s) (incTr τ φ inc) = (pickAcc e o f rho norms s inc).map (carrySt τ φ γ) := by
  obtain ⟨p, iY, ifc⟩ := inc
  cases p with
  | some pos => exact accepted_tr h ho f _ norms pos { s with set := { s.set with Y := iY, fac := ifc } }
  | none => exact rejectStep_tr h ho f _ norms hN

theorem decideStep_tr (h : Carried D τ φ γ e A) {o o' : Orc K F} (ho : CarriedOrc D τ φ o o') (norms : K) {s : MSt K F} (hN : FitsIn D e τ s) :
    decideStep (e.within A) o' norms (carrySt τ φ γ s) = (decideStep e o norms s).map (carrySt τ φ γ) := by
  have hacc := fun f rho pos (u : MSt K F) => accepted_tr h ho f rho norms pos u
  have hpick := fun f rho (u : MSt K F) (hu : FitsIn D e τ u) inc => pickAcc_tr (γ := γ) h ho f rho norms hu inc
  have hrej := fun f rho (u : MSt K F) (hu : FitsIn D e τ u) => rejectStep_tr (γ := γ) h ho f rho norms hu
  obtain ⟨p, q, rfl, -, -, hx, -⟩ := ho
  unfold decideStep
  have h1 : (carrySt τ φ γ s).ev.fX = s.ev.fX := rfl
  have h2 : (carrySt τ φ γ s).m = s.m := rfl
  rw [h1, h2]
  cases (s.ev.fX[s.m]?).bind Fl.val? with
  | none => rfl
  | some f =>
    have h3 : (e.within A).resNorm (carrySt τ φ γ s).ceplus o.slplus = e.resNorm s.ceplus o.slplus := rfl
    dsimp only
    rw [h3]
    cases e.resNorm s.ceplus o.slplus with
    | none => rfl
    | some c =>
      have ha : augmentY (e.within A) (τ o.xnew) ((carrySt τ φ γ s).set.Y.take (carrySt τ φ γ s).cur) =
          ((augmentY e o.xnew (s.set.Y.take s.cur)).1, (augmentY e o.xnew (s.set.Y.take s.cur)).2.1.map τ,
            φ (augmentY e o.xnew (s.set.Y.take s.cur)).2.2) := by
        rw [← augmentY_tr h, List.map_take]; rfl
      dsimp only
      rw [ha]
      refine ite_plus (fun _ => rfl) fun _ => ite_plus (fun _ => ite_plus (fun _ => rfl) fun _ => ite_plus (fun _ => ?_) fun _ => ?_) fun _ => ?_
      · exact hacc f _ _ { s with
          pred := newPred o s.sigma, cur := (augmentY e o.xnew (s.set.Y.take s.cur)).1, set := { s.set with
            Y := (augmentY e o.xnew (s.set.Y.take s.cur)).2.1, fac := (augmentY e o.xnew (s.set.Y.take s.cur)).2.2 } }
      · refine Eq.trans ?_ (hpick f _ { s with pred := newPred o s.sigma } hN (includeInY e.dist e.build o.lval1 (List.range s.cur)
            (1 / 10 ^ 10) .distance o.xnew o.xnew s.set.Y s.set.fac))
        unfold incTr
        rw [← includeInY_tr h.build (dist_tr h) _ _ _ _ _ _ hx _ hN.2.2]
        rfl
      · exact hrej f _ { s with pred := newPred o s.sigma } hN

theorem globalise_tr (s : MSt K F) : globalise (e.within A) (carrySt τ φ γ s) = (globalise e s).map (carrySt τ φ γ) := by
  refine ite_plus (fun _ => rfl) fun _ => ?_
  have h1 : (carrySt τ φ γ s).ev.infoF = s.ev.infoF := rfl
  rw [h1]
  cases s.ev.infoF.val? with
  | none => rfl
  | some f =>
    dsimp only
    have h3 : (e.within A).resNorm (carrySt τ φ γ s).infoCe (carrySt τ φ γ s).sl = e.resNorm s.infoCe s.sl := rfl
    rw [h3]
    cases e.resNorm s.infoCe s.sl with
    | none => rfl
    | some c => rfl

theorem stepNorm_tr (h : Carried D τ φ γ e A) {o o' : Orc K F} (ho : CarriedOrc D τ φ o o') (s : MSt K F) (hs : D s.x) :
    stepNorm (e.within A) o' (carrySt τ φ γ s) = stepNorm e o s := by
  obtain ⟨p, q, rfl, -, -, hx, -⟩ := ho
  show (if e.ns > 0 then e.nrm (List.zipWith (· - ·) (τ o.xnew) (τ s.x) ++ List.zipWith (· - ·) o.slplus s.sl)
    else e.nrm (List.zipWith (· - ·) (τ o.xnew) (τ s.x))) = _
  rw [h.dist _ _ _ hx hs]
  have := h.dist o.xnew s.x [] hx hs
  rw [List.append_nil, List.append_nil] at this
  rw [this]
  rfl

theorem afterGlob_tr (h : Carried D τ φ γ e A) {o o' : Orc K F} (ho : CarriedOrc D τ φ o o') {s : MSt K F} (hN : FitsIn D e τ s) :
    afterGlob (e.within A) o' (carrySt τ φ γ s) = (afterGlob e o s).map (carrySt τ φ γ) := by
  have hd := fun norms (u : MSt K F) (hu : FitsIn D e τ u) => decideStep_tr (γ := γ) h ho norms hu
  have hn := stepNorm_tr (γ := γ) h ho { s with niter := s.niter + 1 } hN.2.1
  obtain ⟨p, q, rfl, -, -⟩ := ho
  refine ite_plus (fun _ => rfl) fun _ => ?_
  rw [PassRes.map_bind (f := carrySt τ φ γ) (k' := fun t => decideStep (e.within A) { o with poisedness := p, propose := q, xnew := τ o.xnew }
      (stepNorm e o { s with niter := s.niter + 1 }) t)
    (fun _ _ => rfl) (fun t ht => ?_),
    PassRes.map_bind (f := carrySt τ φ γ) (k' := evalTrial (e.within A) { o with poisedness := p, propose := q, xnew := τ o.xnew })
      (fun _ _ => rfl) (fun t _ => (evalTrial_tr h rfl t).symm),
    ← penalty_tr, ← hn]
  · rfl
  · refine (hd _ t ?_).symm
    have hx : t.x = s.x ∧ t.set = s.set := by
      cases hp : penalty o { s with niter := s.niter + 1 } with
      | cont u => rw [hp] at ht; exact ⟨(evalTrial_x ht).1.trans (penalty_x hp).1, (evalTrial_x ht).2.trans (penalty_x hp).2⟩
      | ret u => rw [hp] at ht; cases ht
      | crash c => rw [hp] at ht; cases ht
    unfold FitsIn
    rw [hx.1, hx.2]
    exact hN

theorem stepStage_tr (h : Carried D τ φ γ e A) {o o' : Orc K F} (ho : CarriedOrc D τ φ o o') {s : MSt K F} (hN : FitsIn D e τ s) :
    stepStage (e.within A) o' (carrySt τ φ γ s) = (stepStage e o s).map (carrySt τ φ γ) := by
  show (globalise (e.within A) (carrySt τ φ γ s)).bind (afterGlob (e.within A) o') = ((globalise e s).bind (afterGlob e o)).map (carrySt τ φ γ)
  rw [PassRes.map_bind (f := carrySt τ φ γ) (k' := afterGlob (e.within A) o') (fun _ _ => rfl)
    (fun u hu => (afterGlob_tr h ho (by unfold FitsIn; rw [(globalise_x hu).1, (globalise_x hu).2]; exact hN)).symm), globalise_tr s]

theorem beforeStep_tr (h : Carried D τ φ γ e A) {o o' : Orc K F} (ho : CarriedOrc D τ φ o o') {s : MSt K F} (hN : FitsIn D e τ s)
    (hC : Held (SameSide e A τ) (beforeStep e o s)) :
    beforeStep (e.within A) o' (carrySt τ φ γ s) = (beforeStep e o s).map (carrySt τ φ γ) := by
  have hi := fun (u : MSt K F) (hu : FitsIn D e τ u) => improve_tr (γ := γ) h ho hu
  obtain ⟨p, q, rfl, -, -⟩ := ho
  unfold beforeStep at hC
  dsimp only at hC
  refine ite_plus (fun _ => rfl) fun i1 => ite_plus (fun _ => rfl) fun i2 => ite_plus (fun _ => rfl) fun i3 => ?_
  rw [if_neg (show ¬ e.miter.le (Fl.fin (s.niter : K)) = true from i1), if_neg (show ¬ e.msimul.le (Fl.fin (s.ev.nsimul : K)) = true from i2),
    if_neg (show ¬ o.k1.fail = true from i3)] at hC
  refine ite_plus (fun i4 => hi { s.measure o.k1 with ev := { s.ev with flag := Status.success } } hN ?_) fun _ => rfl
  rw [if_pos (show (s.measure o.k1).glagn ≤ e.tolGrad ∧ (s.measure o.k1).feasn ≤ e.tolFeas ∧ (s.measure o.k1).compl ≤ e.tolBnds ∨
    (s.measure o.k1).delta < 1 / 10 ^ 10 ∨ (s.measure o.k1).pred = -1 from i4)] at hC
  exact hC

/-- One pass, if the conditions hold at its start and for the state from which the step is made. -/
theorem pass_tr (h : Carried D τ φ γ e A) {o o' : Orc K F} (ho : CarriedOrc D τ φ o o') {s : MSt K F} (hN : FitsIn D e τ s)
    (hM : ∀ v, beforeStep e o s = .cont v → FitsIn D e τ v) (hC : Held (SameSide e A τ) (beforeStep e o s)) :
    pass (e.within A) o' (carrySt τ φ γ s) = (pass e o s).map (carrySt τ φ γ) := by
  rw [pass_eq, pass_eq, PassRes.map_bind (f := carrySt τ φ γ) (k' := stepStage (e.within A) o') (fun _ _ => rfl)
    (fun u hu => (stepStage_tr h ho (hM u hu)).symm), beforeStep_tr h ho hN hC]

/-! ### The start -/

theorem samplePass_tr {P : Type} {τ : P → P} {U V : User P K} (h : CarriedUser τ U V) : ∀ (ys : List P) (i : ℕ) (s : EvSt P K),
    samplePass V (ys.map τ) i (evTr τ s) = (samplePass U ys i s).map (evTr τ) := by
  intro ys
  induction ys with
  | nil => intro i s; rfl
  | cons y ys ih =>
    intro i s
    simp only [List.map_cons, samplePass, augmX_tr h]
    cases augmX U (.fin big) y i s with
    | none => rfl
    | some t =>
      simp only [Option.map_some]
      have h1 : (evTr τ t).flag = t.flag := rfl
      have h2 : (evTr τ t).fX = t.fX := rfl
      rw [h1, h2]
      split
      · rfl
      · cases t.fX[i]? with
        | none => rfl
        | some v =>
          dsimp only
          split
          · rfl
          · exact ih (i + 1) t

theorem samplePass_whole {P : Type} {U : User P K} (h : Bounded25 U) (ys : List P) (i : ℕ) (s t : EvSt P K) : samplePass U ys i s ≠ .broke t :=
  (samplePass_plus (d := 0) (fun w y q hq => ⟨h w y q hq, by rw [add_zero]; exact h w y q hq⟩) ys i s).2 t

/-- The sampling, if the images of the initial points are the initial points for the image. -/
theorem initLoop_tr {τ : List K → List K} {U V : User (List K) K} (h : CarriedUser τ U V) (hB : Bounded25 U) (x0 : List K)
    (hs : ∀ D, simplex (τ x0) D = (simplex x0 D).map τ) (nx nx' : K) (fuel : ℕ) (D : K) (s : EvSt (List K) K) :
    initLoop V (τ x0) nx' fuel D (evTr τ s) = (initLoop U x0 nx fuel D s).map (evTr τ) := by
  cases fuel with
  | zero => rfl
  | succ fuel =>
    have hp := samplePass_tr h (simplex x0 D) 0 { s with X := [], fX := [], ceX := [] }
    simp only [initLoop]
    rw [show ({ evTr τ s with X := [], fX := [], ceX := [] } : EvSt (List K) K) = evTr τ { s with X := [], fX := [], ceX := [] } from rfl, hs, hp]
    cases hr : samplePass U (simplex x0 D) 0 { s with X := [], fX := [], ceX := [] } with
    | crash => rfl
    | failed t => rfl
    | broke t => exact absurd hr (samplePass_whole hB _ _ _ t)
    | full t =>
      simp only [SampleRes.map]
      rw [show (evTr τ t).ceX = t.ceX from rfl]
      cases replaceHuge t.ceX with
      | none => rfl
      | some c =>
        dsimp only
        cases replaceHugeNeg c with
        | none => rfl
        | some c => rfl

theorem mainInit_tr (h : Carried D τ φ γ e A) (D : K) (sl : List K) (ev : EvSt (List K) K) :
    mainInit (e.within A) D sl (evTr τ ev) = (mainInit e D sl ev).map (carrySt τ φ γ) := by
  unfold mainInit
  rw [show (evTr τ ev).fX = ev.fX from rfl, show (evTr τ ev).ceX = ev.ceX from rfl, show (evTr τ ev).X = ev.X.map τ from rfl, List.getElem?_map,
    List.length_map, show (e.within A).build (ev.X.map τ) = _ from h.build ev.X]
  cases ev.fX.mapM Fl.val? with
  | none => rfl
  | some fY =>
    cases ev.ceX.mapM colK with
    | none => rfl
    | some ceY =>
      cases ev.X[0]? with
      | none => rfl
      | some x =>
        simp only [Option.map_some]
        cases fY[0]? with
        | none => rfl
        | some f =>
          simp only [Option.map_some]
          rw [show (e.within A).model (φ (e.build ev.X)) (τ x) fY ceY = _ from h.model _ _ _ _]
          rfl

theorem startState_tr (h : Carried D τ φ γ e A) (hB : Bounded25 e.U) (x0 : List K) (hs : ∀ D, simplex (τ x0) D = (simplex x0 D).map τ) (fuel : ℕ)
    (D : K) (sl : List K) : startState (e.within A) (τ x0) fuel D sl = (startState e x0 fuel D sl).map (carrySt τ φ γ) := by
  unfold startState
  have hi := initLoop_tr h.user hB x0 hs (e.nrm x0) (e.nrm (τ x0)) fuel D emptyEv
  rw [show evTr τ (emptyEv : EvSt (List K) K) = emptyEv from rfl] at hi
  rw [show (e.within A).U = A.U from rfl, show (e.within A).nrm = e.nrm from rfl, hi]
  cases initLoop e.U x0 (e.nrm x0) fuel D emptyEv with
  | done D' ev => exact mainInit_tr h D' sl ev
  | crash => rfl
  | failed s => rfl
  | stalled s => rfl
  | running => rfl

/-! ### The loop -/

theorem mainLoop_tr (h : Carried D τ φ γ e A) (he : e.Ok) : ∀ (os os' : List (Orc K F)) (s : MSt K F), List.Forall₂ (CarriedOrc D τ φ) os os' → Inv e [] s →
    ∀ t, (mainLoop e os s = .running t ∨ mainLoop e os s = .done t) → (∀ y ∈ t.ev.w.logF, D y ∧ SameFloor e τ y ∧ SameSide e A τ y) →
    mainLoop (e.within A) os' (carrySt τ φ γ s) = (mainLoop e os s).map (carrySt τ φ γ) := by
  intro os
  induction os with
  | nil => intro os' s ho hI t ht hN; cases ho; rfl
  | cons o os ih =>
    intro os' s ho hI t ht hN
    cases ho with
    | cons ho hos =>
      rename_i o' os'
      have hpass : (pass e o s).Sat (Inv e []) (fun _ => True) (fun _ => True) :=
        (pass_sat e he o s hI).mono (fun _ h => h.1) (fun _ _ => trivial) (fun _ _ => trivial)
      -- the points called up to the end of this pass are among those of the run
      have hsub : ∃ u, (pass e o s = .cont u ∨ pass e o s = .ret u) ∧ ∀ y ∈ u.ev.w.logF, y ∈ t.ev.w.logF := by
        simp only [mainLoop] at ht
        cases hp : pass e o s with
        | cont u =>
          rw [hp] at ht
          exact ⟨u, Or.inl rfl, fun y hy => (mainLoop_calls e os u t ht).subset hy⟩
        | ret u =>
          rw [hp] at ht
          simp only [reduceCtorEq, MainRes.done.injEq, false_or] at ht
          subst ht
          exact ⟨u, Or.inr rfl, fun y hy => hy⟩
        | crash c => rw [hp] at ht; simp at ht
      obtain ⟨u, hu, hsub⟩ := hsub
      have hs : ∀ y ∈ s.ev.w.logF, y ∈ u.ev.w.logF := by
        have hc := pass_calls e o s
        rcases hu with hu | hu <;> rw [hu] at hc <;> exact fun y hy => List.IsPrefix.subset hc hy
      have hv : ∀ v, beforeStep e o s = .cont v → ∀ y ∈ v.ev.w.logF, y ∈ u.ev.w.logF := by
        intro v hb
        have hg := stepStage_grew e o v
        rw [pass_eq, hb] at hu
        change stepStage e o v = _ ∨ stepStage e o v = _ at hu
        rcases hu with hu | hu <;> rw [hu] at hg
        · intro y hy
          have : v.ev.w.logF <+: u.ev.w.logF := ⟨_, (show Grew _ _ _ from hg).logF.symm⟩
          exact this.subset hy
        · intro y hy
          rcases (show SameW v u ∨ Grew _ _ _ from hg) with hg | hg
          · rw [show u.ev.w = v.ev.w from hg]; exact hy
          · have : v.ev.w.logF <+: u.ev.w.logF := ⟨_, hg.logF.symm⟩
            exact this.subset hy
      have hx : FitsIn D e τ s :=
        ⟨(hN _ (hsub _ (hs _ (hI.toCore.x_mem (by simp))))).2.1, (hN _ (hsub _ (hs _ (hI.toCore.x_mem (by simp))))).1,
          fun y hy => (hN _ (hsub _ (hs _ (hI.toCore.Y_mem hy)))).1⟩
      have hM : ∀ v, beforeStep e o s = .cont v → FitsIn D e τ v := by
        intro v hb
        have hbi := beforeStep_inv e he o s hI
        rw [hb] at hbi
        have hbi : Inv e [] v := hbi
        exact ⟨(hN _ (hsub _ (hv v hb _ (hbi.toCore.x_mem (by simp))))).2.1, (hN _ (hsub _ (hv v hb _ (hbi.toCore.x_mem (by simp))))).1,
          fun y hy => (hN _ (hsub _ (hv v hb _ (hbi.toCore.Y_mem hy)))).1⟩
      have hC : Held (SameSide e A τ) (beforeStep e o s) := by
        have hbi := beforeStep_inv e he o s hI
        cases hb : beforeStep e o s with
        | cont v =>
          rw [hb] at hbi
          exact ⟨v, Or.inl rfl, fun y hy => (hN _ (hsub _ (hv v hb _ ((show Inv e [] v from hbi).toCore.Y_mem hy)))).2.2⟩
        | ret v =>
          rw [pass_eq, hb] at hu
          have huv : v = u := by
            rcases hu with hu | hu
            · cases hu
            · cases hu; rfl
          subst huv
          have hps := pass_sat e he o s hI
          rw [pass_eq, hb] at hps
          exact ⟨v, Or.inr rfl, fun y hy => (hN _ (hsub _ ((show Ret e v from (show Ret e v ∧ _ from hps).1).core.Y_mem hy))).2.2⟩
        | crash c =>
          rw [pass_eq, hb] at hu
          rcases hu with hu | hu <;> cases hu
      have key := pass_tr (γ := γ) h ho hx hM hC
      simp only [mainLoop] at ht ⊢
      rw [key]
      cases hp : pass e o s with
      | cont w =>
        rw [hp] at ht hpass
        exact ih os' w hos hpass t ht hN
      | ret w => rfl
      | crash c => rfl

end Sqpdfo
