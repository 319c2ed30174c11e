import Verif.Spec.Shift
import Verif.Lemmas.Main
import Mathlib.Tactic.Ring

/-! # A constant added to the objective -/

set_option linter.unusedSectionVars false

namespace Sqpdfo
open Spec
variable {K F : Type} [Field K] [LinearOrder K] [IsStrictOrderedRing K]

/-- The same stage results with other states. -/
def PassRes.map (f : MSt K F → MSt K F) : PassRes K F → PassRes K F
  | .cont s => .cont (f s)
  | .ret s => .ret (f s)
  | .crash c => .crash c

theorem PassRes.map_bind {r : PassRes K F} {k k' : MSt K F → PassRes K F} {f g : MSt K F → MSt K F}
    (hr : ∀ s, r = .ret s → f s = g s) (hk : ∀ s, r = .cont s → (k s).map g = k' (f s)) :
    (r.bind k).map g = (r.map f).bind k' := by
  cases r with
  | cont s => exact hk s rfl
  | ret s => show PassRes.ret (g s) = PassRes.ret (f s); rw [hr s rfl]
  | crash c => rfl

/-- The evaluation data with values larger by `d`. -/
def evPlus {P : Type} (d : K) (s : EvSt P K) : EvSt P K := { s with fX := s.fX.map (plus d), infoF := plus d s.infoF }

/-- The set with values larger by `d`. -/
def setPlus {P C : Type} (d : K) (s : IntSet P C F K) : IntSet P C F K := { s with fY := s.fY.map (· + d) }

/-- The state with values larger by `d`, the memorised values `a`, `b`, and without gradients. -/
def stPlus (d a b : K) (s : MSt K F) : MSt K F :=
  { s with
    ev := evPlus d s.ev
    set := setPlus d s.set
    fx := s.fx + d
    f0 := a
    merit0 := b
    gx := ⟨[], []⟩
    infoG := ⟨[], []⟩ }

/-- The state with all values larger by `d`. -/
def stAll (d : K) (s : MSt K F) : MSt K F := stPlus d (s.f0 + d) (s.merit0 + d) s

/-- The problem with the objective plus `d` and without gradients. -/
def bare (d : K) (e : Env K F) : Env K F := { e with U := plusUser d e.U, model := fun _ _ _ _ => ⟨[], []⟩ }

theorem plus_val (d : K) (v : Fl K) : (plus d v).val? = v.val?.map (· + d) := by cases v <;> rfl

theorem sqpdfoFunc_plus {P : Type} (d : K) (U : User P K) (y : P) (w : World P) :
    sqpdfoFunc (plusUser d U) y w = ({ (sqpdfoFunc U y w).1 with f := plusOut d (sqpdfoFunc U y w).1.f }, (sqpdfoFunc U y w).2) := by
  unfold sqpdfoFunc plusUser
  dsimp only
  cases U.f w y with
  | raised =>
    cases U.c with
    | none => rfl
    | some c =>
      dsimp only
      split <;> simp_all [plusOut, plus]
  | num v =>
    cases U.c with
    | none => rfl
    | some c =>
      dsimp only [plusOut]
      split <;> simp_all [plusOut, plus]
  | other =>
    cases U.c with
    | none => rfl
    | some c =>
      dsimp only [plusOut]
      split <;> simp_all [plusOut, plus]

theorem sqpdfoFunc_fin {P : Type} (U : User P K) (y : P) (w : World P) (q : K)
    (h : (sqpdfoFunc U y w).1.f = .num (.fin q)) : U.f w y = .num (.fin q) := by
  unfold sqpdfoFunc at h
  dsimp only at h
  cases hf : U.f w y with
  | raised =>
    rw [hf] at h
    cases hc : U.c with
    | none => rw [hc] at h; simp at h
    | some c =>
      rw [hc] at h
      dsimp only at h
      split at h <;> simp at h
  | num v =>
    rw [hf] at h
    cases hc : U.c with
    | none => rw [hc] at h; simpa using h
    | some c =>
      rw [hc] at h
      dsimp only at h
      split at h <;> simpa using h
  | other =>
    rw [hf] at h
    cases hc : U.c with
    | none => rw [hc] at h; simp at h
    | some c =>
      rw [hc] at h
      dsimp only at h
      split at h <;> simp at h

theorem setOrAppend_map {α β : Type} (f : α → β) (l : List α) (m : ℕ) (a : α) :
    (setOrAppend l m a).map f = setOrAppend (l.map f) m (f a) := by
  unfold setOrAppend
  rw [List.length_map]
  split
  · exact List.map_set
  · simp

theorem augmX_plus {P : Type} {d : K} {U : User P K} (hU : Moderate d U) (y : P) (m : ℕ) (s : EvSt P K) :
    augmX (plusUser d U) (.fin big) y m (evPlus d s) = (augmX U (.fin big) y m s).map (evPlus d) := by
  unfold augmX
  dsimp only [evPlus]
  rw [sqpdfoFunc_plus]
  have hq := sqpdfoFunc_fin U y s.w
  generalize sqpdfoFunc U y s.w = r at hq
  obtain ⟨⟨msg, f, c⟩, w⟩ := r
  dsimp only at hq ⊢
  cases f with
  | raised => rfl
  | other => rfl
  | num v =>
    cases v with
    | nan => rfl
    | pinf => rfl
    | ninf => rfl
    | fin q =>
      obtain ⟨h1, h2⟩ := hU _ _ _ (hq q rfl)
      have k1 := (abs_le.1 h1).2
      have k2 := (abs_le.1 h2).2
      have hmin : ∀ r : K, r ≤ 10 ^ 25 → (Fl.fin big).fmin (Fl.fin r) = Fl.fin r := by
        intro r hr
        unfold Fl.fmin
        simp only [Fl.isNan, Bool.false_eq_true, if_false, Fl.le, decide_eq_true_eq]
        split
        · rename_i hb; rw [le_antisymm hr hb]; rfl
        · rfl
      simp only [plusOut, plus, Fl.isNan, Fl.isInf, Bool.false_eq_true, if_false, hmin q k1, hmin (q + d) k2]
      split
      · rfl
      split
      · rfl
      · simp only [Option.map_some, Option.some.injEq]
        rw [evPlus, setOrAppend_map]
        rfl

theorem swapL_map {α β : Type} (f : α → β) (l : List α) (i j : ℕ) : swapL (l.map f) i j = (swapL l i j).map (List.map f) := by
  unfold swapL
  rw [List.getElem?_map, List.getElem?_map]
  cases l[i]? <;> cases l[j]? <;> simp [List.map_set]

theorem swapInY_plus {P C : Type} [DecidableEq C] (d : K) (build : List P → F) (i j : ℕ) (s : IntSet P C F K) :
    swapInY build i j (setPlus d s) = (swapInY build i j s).map (setPlus d) := by
  unfold swapInY
  split
  · rfl
  · dsimp only [setPlus]
    rw [swapL_map]
    cases swapL s.Y (if i > j then j else i) (if i > j then i else j) <;>
      cases swapL s.ind (if i > j then j else i) (if i > j then i else j) <;>
      cases swapL s.fY (if i > j then j else i) (if i > j then i else j) <;>
      cases swapOpt s.ciY (if i > j then j else i) (if i > j then i else j) <;>
      cases swapOpt s.ceY (if i > j then j else i) (if i > j then i else j) <;> rfl

theorem argMin_plus (d : K) (l : List K) : argMin (l.map (· + d)) = (argMin l).map fun p => (p.1, p.2 + d) := by
  induction l with
  | nil => rfl
  | cons a l ih =>
    simp only [List.map_cons, argMin, ih]
    cases argMin l with
    | none => rfl
    | some p =>
      obtain ⟨i, b⟩ := p
      simp only [Option.map_some, add_lt_add_iff_right]
      split <;> rfl

theorem mapM_get_plus (d : K) (merit : List K) (ind : List ℕ) :
    ind.mapM (fun i => (merit.map (· + d))[i]?) = (ind.mapM fun i => merit[i]?).map (List.map (· + d)) := by
  induction ind with
  | nil => rfl
  | cons i ind ih =>
    rw [List.mapM_cons, List.mapM_cons, ih, List.getElem?_map]
    cases merit[i]? with
    | none => rfl
    | some v =>
      cases ind.mapM fun i => merit[i]? with
      | none => rfl
      | some l => rfl

theorem smallfChoice_plus (d : K) (merit : List K) (ind : List ℕ) : smallfChoice (merit.map (· + d)) ind = smallfChoice merit ind := by
  unfold smallfChoice
  rw [mapM_get_plus]
  cases ind.mapM fun i => merit[i]? with
  | none => rfl
  | some vals =>
    simp only [Option.map_some, argMin_plus, List.getElem?_map]
    cases argMin vals with
    | none => rfl
    | some p =>
      cases merit[0]? with
      | none => rfl
      | some m0 => simp only [Option.map_some, add_lt_add_iff_right]

theorem meritY_plus (d : K) (trunc : K → K) (sigma : K) (b : Bool) (fY nrms : List K) :
    meritY trunc sigma b (fY.map (· + d)) nrms = (meritY trunc sigma b fY nrms).map (· + d) := by
  unfold meritY
  generalize (if b = true then nrms else nrms.map fun _ => 0) = l
  induction fY generalizing l with
  | nil => simp
  | cons f fY ih =>
    cases l with
    | nil => simp
    | cons c l =>
      simp only [List.map_cons, List.zipWith_cons_cons, ih, List.cons.injEq, and_true]
      ring

theorem findSmallf_plus {P C : Type} [DecidableEq C] (d : K) (build : List P → F) (choice : Option ℕ) (s : IntSet P C F K)
    (fx : K) (i : ℕ) (g : K) : findSmallf build choice ⟨setPlus d s, fx + d, i, g + d⟩ =
      (findSmallf build choice ⟨s, fx, i, g⟩).map fun t => ⟨setPlus d t.s, t.fx + d, t.ixbest, t.infoF + d⟩ := by
  unfold findSmallf
  cases choice with
  | some k =>
    simp only [swapInY_plus]
    cases swapInY build 0 k s with
    | none => rfl
    | some t =>
      simp only [Option.map_some, setPlus, List.getElem?_map]
      cases t.fY[0]? <;> cases t.ind[0]? <;> rfl
  | none =>
    simp only [setPlus, List.getElem?_map]
    cases s.fY[0]? <;> rfl

theorem ite_plus {c : Prop} [Decidable c] {x y x' y' : PassRes K F} {f : MSt K F → MSt K F} (hx : c → x' = x.map f)
    (hy : ¬ c → y' = y.map f) : (if c then x' else y') = (if c then x else y).map f := by
  split
  · rename_i h; exact hx h
  · rename_i h; exact hy h

theorem callSmallf_plus (e : Env K F) (d a b : K) (s : MSt K F) :
    callSmallf (bare d e) (stPlus d a b s) = (callSmallf e s).map (stPlus d a b) := by
  unfold callSmallf
  show (match (if anyNonzero s.set.ceY then s.set.ceY.mapM (fun c => e.resNorm c s.sl)
      else some (s.set.Y.map fun _ => 0)) with
    | none => PassRes.crash .ceShape
    | some nrms =>
      match findSmallf e.build (smallfChoice (meritY e.trunc s.sigma (anyNonzero s.set.ceY) (s.set.fY.map (· + d)) nrms)
          (indInside e.lb e.ub s.set.Y)) ⟨setPlus d s.set, s.fx + d, s.ixbest, s.fx + d⟩ with
      | none => PassRes.crash .index
      | some t =>
        match t.s.Y[0]? with
        | none => PassRes.crash .index
        | some x0 => PassRes.cont { stPlus d a b s with
            set := t.s
            fx := t.fx
            ixbest := t.ixbest
            x := if (smallfChoice (meritY e.trunc s.sigma (anyNonzero s.set.ceY) (s.set.fY.map (· + d)) nrms)
              (indInside e.lb e.ub s.set.Y)).isSome then x0 else s.x
            ev := { evPlus d s.ev with infoF := .fin t.infoF }
            infoCe := match t.s.ceY[0]? with
              | some c => c
              | none => s.infoCe }) = _
  cases (if anyNonzero s.set.ceY = true then s.set.ceY.mapM (fun c => e.resNorm c s.sl) else some (s.set.Y.map fun _ => 0)) with
  | none => rfl
  | some nrms =>
    simp only [meritY_plus, smallfChoice_plus, findSmallf_plus]
    cases findSmallf e.build (smallfChoice (meritY e.trunc s.sigma (anyNonzero s.set.ceY) s.set.fY nrms) (indInside e.lb e.ub s.set.Y))
        ⟨s.set, s.fx, s.ixbest, s.fx⟩ with
    | none => rfl
    | some t =>
      simp only [Option.map_some]
      have h5 : (setPlus d t.s).Y = t.s.Y := rfl
      have h6 : (setPlus d t.s).ceY = t.s.ceY := rfl
      rw [h5, h6]
      cases t.s.Y[0]? <;> rfl

theorem evalReplaced_plus (e : Env K F) (d a b : K) (hU : Moderate d e.U) : ∀ (js : List ℕ) (s : MSt K F),
    evalReplaced (bare d e) js (stPlus d a b s) = (evalReplaced e js s).map (stPlus d a b) := by
  intro js
  induction js with
  | nil => intro s; rfl
  | cons j js ih =>
    intro s
    have h1 : (stPlus d a b s).set.Y = s.set.Y := rfl
    have h2 : (stPlus d a b s).set.ind = s.set.ind := rfl
    have h3 : (stPlus d a b s).m = s.m := rfl
    have h4 : (stPlus d a b s).ev = evPlus d s.ev := rfl
    have h5 : (bare d e).U = plusUser d e.U := rfl
    have h6 : (bare d e).me = e.me := rfl
    simp only [evalReplaced, h1, h2, h3, h4, h5, h6, augmX_plus hU]
    cases s.set.Y[j]? with
    | none => rfl
    | some y =>
      cases s.set.ind[j]? with
      | none => rfl
      | some i =>
        dsimp only
        cases augmX e.U (.fin big) y (s.m + 1) s.ev with
        | none => rfl
        | some ev =>
          simp only [Option.map_some]
          have g1 : (evPlus d ev).fX = ev.fX.map (plus d) := rfl
          have g2 : (evPlus d ev).ceX = ev.ceX := rfl
          rw [g1, g2, List.getElem?_map]
          cases ev.fX[s.m + 1]? with
          | none => rfl
          | some v =>
            simp only [Option.map_some, plus_val]
            cases v.val? with
            | none => rfl
            | some v =>
              simp only [Option.map_some]
              have hset : (stPlus d a b s).set.fY.set j (v + d) = (s.set.fY.set j v).map (· + d) := by
                rw [List.map_set]; rfl
              by_cases hm : e.me > 0
              · rw [if_pos hm, if_pos hm]
                cases (ev.ceX[s.m + 1]?).bind colK with
                | none => rfl
                | some c =>
                  dsimp only
                  rw [← ih, hset]
                  rfl
              · rw [if_neg hm, if_neg hm, ← ih, hset]
                rfl

theorem improveEnd_plus (e : Env K F) (d a b : K) (k : Meas K) (r : K) (s : MSt K F) :
    improveEnd (bare d e) k r (stPlus d a b s) = (improveEnd e k r s).map (stPlus d a b) :=
  ite_plus (fun _ => rfl) fun _ => ite_plus (fun _ => rfl) fun _ => rfl

theorem repairStage_plus (e : Env K F) (d a b : K) (hU : Moderate d e.U) (o : Orc K F) (r : K) (s : MSt K F) :
    repairStage (bare d e) o r (stPlus d a b s) = (repairStage e o r s).map (stPlus d a b) := by
  unfold repairStage
  dsimp only
  rw [PassRes.map_bind (f := stPlus d a b) (k' := fun s => improveEnd (bare d e) o.k2 r (s.newGx (bare d e)).storeG) (fun _ _ => rfl)
    (fun u _ => by rw [← improveEnd_plus]; rfl)]
  rw [PassRes.map_bind (f := stPlus d a b) (k' := callSmallf (bare d e)) (fun _ _ => rfl) (fun u _ => (callSmallf_plus e d a b u).symm)]
  rw [← evalReplaced_plus e d a b hU]
  rfl

theorem improve_plus (e : Env K F) (d a b : K) (hU : Moderate d e.U) (o : Orc K F) (s : MSt K F) :
    improve (bare d e) o (stPlus d a b s) = (improve e o s).map (stPlus d a b) :=
  ite_plus (fun _ => ite_plus (fun _ => rfl) fun _ => ite_plus (fun _ => rfl) fun _ => by
    rw [← repairStage_plus e d a b hU]; rfl) fun _ => rfl

/-! ### The step -/

theorem penalty_plus (d : K) (o : Orc K F) (s : MSt K F) : penalty o (stAll d s) = (penalty o s).map (stAll d) := by
  refine ite_plus (fun _ => ite_plus (fun _ => rfl) fun _ => ?_) fun _ => rfl
  have h : s.f0 + d + max (sigmab o) (3 / 2 * s.sigma) * s.ce0n = s.f0 + max (sigmab o) (3 / 2 * s.sigma) * s.ce0n + d := by ring
  show PassRes.cont { stAll d s with
      sigma := max (sigmab o) (3 / 2 * s.sigma), merit0 := s.f0 + d + max (sigmab o) (3 / 2 * s.sigma) * s.ce0n } = _
  rw [h]
  rfl

theorem evalTrial_shift (e : Env K F) (d : K) (hU : Moderate d e.U) (o : Orc K F) (s : MSt K F) :
    evalTrial (bare d e) o (stAll d s) = (evalTrial e o s).map (stAll d) := by
  unfold evalTrial
  dsimp only
  have h1 : augmX (bare d e).U (.fin big) o.xnew ((stAll d s).m + 1) (stAll d s).ev =
      (augmX e.U (.fin big) o.xnew (s.m + 1) s.ev).map (evPlus d) := augmX_plus hU o.xnew (s.m + 1) s.ev
  rw [h1]
  cases augmX e.U (.fin big) o.xnew (s.m + 1) s.ev with
  | none => rfl
  | some ev =>
    simp only [Option.map_some]
    refine ite_plus (fun _ => rfl) fun _ => ite_plus (fun _ => ?_) fun _ => rfl
    show (match (replaceHuge ev.ceX).bind replaceHugeNeg with
      | none => PassRes.crash .ceShape
      | some ceX => match (ceX[s.m + 1]?).bind colK with
        | none => PassRes.crash .ceShape
        | some c => PassRes.cont _) = _
    cases (replaceHuge ev.ceX).bind replaceHugeNeg with
    | none => rfl
    | some ceX =>
      dsimp only
      cases (ceX[s.m + 1]?).bind colK with
      | none => rfl
      | some c => rfl

/-- The set after an accepted step, before the exchange with position 0. -/
def accSet (e : Env K F) (f : K) (pos : ℕ) (s : MSt K F) : IntSet (List K) (List K) F K :=
  let set := { s.set with
    ind := setOrAppend s.set.ind pos s.m
    fY := setOrAppend s.set.fY pos f }
  if e.me > 0 then { set with ceY := setOrAppend set.ceY pos s.ceplus } else set

theorem accSet_plus (e : Env K F) (d f : K) (pos : ℕ) (s : MSt K F) :
    accSet (bare d e) (f + d) pos (stAll d s) = setPlus d (accSet e f pos s) := by
  have h3 := setOrAppend_map (· + d) s.set.fY pos f
  by_cases h : e.me > 0
  · rw [accSet, accSet, if_pos h, if_pos (show (bare d e).me > 0 from h), setPlus, h3]; rfl
  · rw [accSet, accSet, if_neg h, if_neg (show ¬ (bare d e).me > 0 from h), setPlus, h3]; rfl

/-- The end of an accepted step. -/
def accEnd (e : Env K F) (o : Orc K F) (f rho norms : K) (s : MSt K F) (T : Option (IntSet (List K) (List K) F K)) : PassRes K F :=
  match T with
  | none => .crash .index
  | some set =>
    match set.Y[0]? with
    | none => .crash .index
    | some x0 => .cont (MSt.newGx e { s with
        set := set
        infoCe := if e.me > 0 then s.ceplus else s.infoCe
        sl := if e.me > 0 ∧ e.ns > 0 then moveSl e (if e.me > 0 then s.ceplus else s.infoCe) o.slplus else s.sl
        x := x0
        fx := f
        ixbest := s.m
        poisedModel := false
        delta := succDelta rho o.active norms s.delta
        rejected := false }).storeG

theorem accepted_plus (e : Env K F) (d : K) (o : Orc K F) (f rho norms : K) (pos : ℕ) (s : MSt K F) :
    accepted (bare d e) o (f + d) rho norms pos (stAll d s) = (accepted e o f rho norms pos s).map (stAll d) := by
  refine ite_plus (fun _ => rfl) fun _ => ?_
  show accEnd (bare d e) o (f + d) rho norms (stAll d s) (swapInY e.build 0 pos (accSet (bare d e) (f + d) pos (stAll d s))) =
    (accEnd e o f rho norms s (swapInY e.build 0 pos (accSet e f pos s))).map (stAll d)
  rw [accSet_plus, swapInY_plus]
  cases swapInY e.build 0 pos (accSet e f pos s) with
  | none => rfl
  | some set =>
    show (match set.Y[0]? with
      | none => PassRes.crash .index
      | some x0 => PassRes.cont _) = PassRes.map _ (match set.Y[0]? with
      | none => PassRes.crash .index
      | some x0 => PassRes.cont _)
    cases set.Y[0]? with
    | none => rfl
    | some x => rfl

/-- The end of a replacement during a rejected step. -/
def repEnd (e : Env K F) (o : Orc K F) (f norms : K) (s : MSt K F) (T : Option (IntSet (List K) (List K) F K)) : PassRes K F :=
  match T with
  | none => .crash .index
  | some set =>
    match set.Y[0]? with
    | none => .crash .index
    | some x0 =>
      let infoCe := match set.ceY[0]? with
        | some c => if e.me > 0 then c else s.infoCe
        | none => s.infoCe
      .cont (MSt.newGx e { s with
        set := set
        infoCe := infoCe
        sl := if e.me > 0 ∧ e.ns > 0 then moveSl e infoCe o.slplus else s.sl
        x := x0
        fx := f
        ev := { s.ev with infoF := .fin f }
        ixbest := s.m
        poisedModel := false
        delta := min (max (2 * norms) s.delta) cDeltamax })

/-- The set after a replacement. -/
def repSet (e : Env K F) (f : K) (pos : ℕ) (s : MSt K F) : IntSet (List K) (List K) F K :=
  { s.set with
    ind := s.set.ind.set pos s.m
    fY := s.set.fY.set pos f
    ceY := if e.me > 0 then s.set.ceY.set pos s.ceplus else s.set.ceY }

theorem repSet_plus (e : Env K F) (d f : K) (pos : ℕ) (s : MSt K F) :
    repSet (bare d e) (f + d) pos (stAll d s) = setPlus d (repSet e f pos s) := by
  have h3 : (s.set.fY.set pos f).map (· + d) = (s.set.fY.map (· + d)).set pos (f + d) := List.map_set
  rw [repSet, repSet, setPlus, h3]; rfl

theorem replaceAt_plus (e : Env K F) (d : K) (o : Orc K F) (f rho norms : K) (pos : ℕ) (s : MSt K F) :
    replaceAt (bare d e) o (f + d) rho norms pos (stAll d s) = (replaceAt e o f rho norms pos s).map (stAll d) := by
  refine ite_plus (fun _ => rfl) fun _ => ite_plus (fun _ => ?_) fun _ => ?_
  · show repEnd (bare d e) o (f + d) norms (stAll d s) (swapInY e.build 0 pos (repSet (bare d e) (f + d) pos (stAll d s))) =
      (repEnd e o f norms s (swapInY e.build 0 pos (repSet e f pos s))).map (stAll d)
    rw [repSet_plus, swapInY_plus]
    cases swapInY e.build 0 pos (repSet e f pos s) with
    | none => rfl
    | some set =>
      show (match set.Y[0]? with
        | none => PassRes.crash .index
        | some x0 => PassRes.cont _) = PassRes.map _ (match set.Y[0]? with
        | none => PassRes.crash .index
        | some x0 => PassRes.cont _)
      cases set.Y[0]? with
      | none => rfl
      | some x => rfl
  · show PassRes.cont (MSt.newGx (bare d e) { stAll d s with
      set := repSet (bare d e) (f + d) pos (stAll d s)
      delta := if s.delta > cEps then cGamma2 * s.delta else s.delta }) = _
    rw [repSet_plus]
    rfl

theorem gamInter_plus (d f fx g p : K) : gamInter (f + d) (fx + d) g p = gamInter f fx g p := by
  unfold gamInter
  rw [add_sub_add_right_eq_sub]

theorem reduce_plus (e : Env K F) (d : K) (o : Orc K F) (f norms : K) (s : MSt K F) :
    reduce (bare d e) o (f + d) norms (stAll d s) = (reduce e o f norms s).map (stAll d) := by
  have h : reduce (bare d e) o (f + d) norms (stAll d s) =
      if tooSmall e s (redDelta (gamInter (f + d) (s.fx + d) o.gTs s.pred) s.delta norms) then
        MSt.stop { stAll d s with delta := redDelta (gamInter (f + d) (s.fx + d) o.gTs s.pred) s.delta norms } Status.stopOnSmallTR
      else .cont (MSt.restoreF { stAll d s with delta := redDelta (gamInter (f + d) (s.fx + d) o.gTs s.pred) s.delta norms }) := rfl
  rw [h, gamInter_plus]
  exact ite_plus (fun _ => rfl) fun _ => rfl

theorem augmentRejected_plus (e : Env K F) (d : K) (o : Orc K F) (f : K) (s : MSt K F) :
    augmentRejected (bare d e) o (f + d) (stAll d s) = (augmentRejected e o f s).map (stAll d) := by
  refine ite_plus (fun _ => rfl) fun _ => ?_
  show PassRes.cont _ = PassRes.cont _
  have h3 := setOrAppend_map (· + d) s.set.fY ((augmentY e o.xnew (s.set.Y.take s.cur)).1 - 1) f
  congr 1
  show MSt.mk _ _ _ _ _ _ _ _ _ _ _ _ _ _ _ _ _ _ _ _ _ _ _ _ _ _ _ = MSt.mk _ _ _ _ _ _ _ _ _ _ _ _ _ _ _ _ _ _ _ _ _ _ _ _ _ _ _
  congr 1
  show IntSet.mk _ _ _ _ _ _ = IntSet.mk _ _ _ _ _ _
  congr 1
  exact h3.symm

theorem restoreF_plus (d : K) (s : MSt K F) : (stAll d s).restoreF = stAll d s.restoreF := rfl

/-- Which point is replaced, if any. -/
def pickRep (e : Env K F) (o : Orc K F) (f rho norms : K) (s : MSt K F) (far close : Option ℕ × List (List K) × F) : PassRes K F :=
  match far.1 with
  | some pos =>
    (replaceAt e o f rho norms pos
      { s with set := { s.set with Y := far.2.1, fac := far.2.2 } }).bind fun s => .cont s.restoreF
  | none =>
    match close.1 with
    | some pos =>
      (replaceAt e o f rho norms pos
        { s with set := { s.set with Y := close.2.1, fac := close.2.2 } }).bind
        fun s => .cont s.restoreF
    | none => reduce e o f norms s

theorem pickRep_plus (e : Env K F) (d : K) (o : Orc K F) (f rho norms : K) (s : MSt K F) (far close : Option ℕ × List (List K) × F) :
    pickRep (bare d e) o (f + d) rho norms (stAll d s) far close = (pickRep e o f rho norms s far close).map (stAll d) := by
  obtain ⟨p, fY, ff⟩ := far
  obtain ⟨q, cY, cf⟩ := close
  unfold pickRep
  cases p with
  | some pos =>
    dsimp only
    rw [PassRes.map_bind (f := stAll d) (k' := fun s => .cont s.restoreF) (fun _ _ => rfl) (fun u _ => rfl), ← replaceAt_plus]
    rfl
  | none =>
    dsimp only
    cases q with
    | some pos =>
      dsimp only
      rw [PassRes.map_bind (f := stAll d) (k' := fun s => .cont s.restoreF) (fun _ _ => rfl) (fun u _ => rfl), ← replaceAt_plus]
      rfl
    | none => exact reduce_plus e d o f norms s

theorem replaceOrReduce_plus (e : Env K F) (d : K) (o : Orc K F) (f rho norms : K) (s : MSt K F) :
    replaceOrReduce (bare d e) o (f + d) rho norms (stAll d s) = (replaceOrReduce e o f rho norms s).map (stAll d) := by
  refine ite_plus (fun _ => ?_) fun _ => reduce_plus e d o f norms s
  exact pickRep_plus e d o f rho norms s
    (includeInY e.dist e.build o.lval2 (findIdx (fun v => decide (v > (1 + cEpsTR) * s.delta)) (farDists e rho o.xnew s))
      (1 / 10 ^ 10) (if rho ≥ cEta1 then .weighted else .distance) o.xnew (if rho ≥ cEta1 then o.xnew else s.x) s.set.Y s.set.fac)
    (includeInY e.dist e.build o.lval3 (findIdx (fun v => decide (v ≤ (1 + cEpsTR) * s.delta))
        (if rho ≥ cEta1 then farDists e rho o.xnew s else (farDists e rho o.xnew s).set 0 (2 * ((1 + cEpsTR) * s.delta))))
        (if rho ≥ cEta1 then 1 / 10 ^ 15 else 6 / 5) .standard o.xnew (if rho ≥ cEta1 then o.xnew else s.x) s.set.Y s.set.fac)

/-- The step with a good ratio and a full set. -/
def pickAcc (e : Env K F) (o : Orc K F) (f rho norms : K) (s : MSt K F) (inc : Option ℕ × List (List K) × F) : PassRes K F :=
  match inc.1 with
  | some pos => accepted e o f rho norms pos { s with set := { s.set with Y := inc.2.1, fac := inc.2.2 } }
  | none => rejectStep e o f rho norms s

theorem rejectStep_plus (e : Env K F) (d : K) (o : Orc K F) (f rho norms : K) (s : MSt K F) :
    rejectStep (bare d e) o (f + d) rho norms (stAll d s) = (rejectStep e o f rho norms s).map (stAll d) := by
  refine ite_plus (fun _ => ?_) fun _ => replaceOrReduce_plus e d o f rho norms { s with rejected := true }
  rw [PassRes.map_bind (f := stAll d) (k' := fun s => .cont s.restoreF) (fun _ _ => rfl) (fun u _ => rfl), ← augmentRejected_plus]
  rfl

theorem pickAcc_plus (e : Env K F) (d : K) (o : Orc K F) (f rho norms : K) (s : MSt K F) (inc : Option ℕ × List (List K) × F) :
    pickAcc (bare d e) o (f + d) rho norms (stAll d s) inc = (pickAcc e o f rho norms s inc).map (stAll d) := by
  obtain ⟨p, iY, ifc⟩ := inc
  cases p with
  | some pos => exact accepted_plus e d o f _ norms pos { s with set := { s.set with Y := iY, fac := ifc } }
  | none => exact rejectStep_plus e d o f _ norms s

theorem decideStep_plus (e : Env K F) (d : K) (o : Orc K F) (norms : K) (s : MSt K F) :
    decideStep (bare d e) o norms (stAll d s) = (decideStep e o norms s).map (stAll d) := by
  unfold decideStep
  have h1 : (stAll d s).ev.fX = s.ev.fX.map (plus d) := rfl
  have h2 : (stAll d s).m = s.m := rfl
  rw [h1, h2, List.getElem?_map]
  cases s.ev.fX[s.m]? with
  | none => rfl
  | some v =>
    simp only [Option.map_some, Option.bind_some, plus_val]
    cases v.val? with
    | none => rfl
    | some f =>
      simp only [Option.map_some]
      have h3 : (bare d e).resNorm (stAll d s).ceplus o.slplus = e.resNorm s.ceplus o.slplus := rfl
      rw [h3]
      cases e.resNorm s.ceplus o.slplus with
      | none => rfl
      | some c =>
        dsimp only
        have h4 : (stAll d s).merit0 - (f + d + (stAll d s).sigma * c) = s.merit0 - (f + s.sigma * c) := by
          show s.merit0 + d - (f + d + s.sigma * c) = _
          ring
        have h5 : f + d + (stAll d s).sigma * c = f + s.sigma * c + d := by
          show f + d + s.sigma * c = _
          ring
        have h6 : (f + d + (stAll d s).sigma * c ≥ (stAll d s).merit0) ↔ f + s.sigma * c ≥ s.merit0 := by
          rw [h5]
          show s.merit0 + d ≤ _ ↔ _
          rw [add_le_add_iff_right]
        simp only [h4, h6]
        refine ite_plus (fun _ => rfl) fun _ => ite_plus (fun _ => ite_plus (fun _ => rfl) fun _ => ite_plus (fun _ => ?_) fun _ => ?_) fun _ => ?_
        · exact accepted_plus e d o f _ norms _ { s with
            pred := newPred o s.sigma, cur := (augmentY e o.xnew (s.set.Y.take s.cur)).1, set := { s.set with
              Y := (augmentY e o.xnew (s.set.Y.take s.cur)).2.1, fac := (augmentY e o.xnew (s.set.Y.take s.cur)).2.2 } }
        · exact pickAcc_plus e d o f _ norms { s with pred := newPred o s.sigma } (includeInY e.dist e.build o.lval1 (List.range s.cur)
              (1 / 10 ^ 10) .distance o.xnew o.xnew s.set.Y s.set.fac)
        · exact rejectStep_plus e d o f _ norms { s with pred := newPred o s.sigma }

theorem globalise_plus (e : Env K F) (d a b : K) (s : MSt K F) (hm : s.rejected = true → a = s.f0 + d ∧ b = s.merit0 + d) :
    globalise (bare d e) (stPlus d a b s) = (globalise e s).map (stAll d) := by
  refine ite_plus (fun h => ?_) fun _ => ?_
  · obtain ⟨rfl, rfl⟩ := hm h; rfl
  · have h1 : (stPlus d a b s).ev.infoF = plus d s.ev.infoF := rfl
    rw [h1, plus_val]
    cases s.ev.infoF.val? with
    | none => rfl
    | some f =>
      simp only [Option.map_some]
      have h3 : (bare d e).resNorm (stPlus d a b s).infoCe (stPlus d a b s).sl = e.resNorm s.infoCe s.sl := rfl
      rw [h3]
      cases e.resNorm s.infoCe s.sl with
      | none => rfl
      | some c =>
        have h4 : f + d + s.sigma * c = f + s.sigma * c + d := by ring
        show PassRes.cont { stPlus d a b s with f0 := f + d, ce0n := c, merit0 := f + d + s.sigma * c } = _
        rw [h4]
        rfl

/-- The step after the reference values are memorised. -/
def afterGlob (e : Env K F) (o : Orc K F) (s : MSt K F) : PassRes K F :=
  let s := { s with niter := s.niter + 1 }
  if o.tfail then s.stop Status.failUnexpected
  else ((penalty o s).bind (evalTrial e o)).bind fun t => decideStep e o (stepNorm e o s) t

theorem afterGlob_plus (e : Env K F) (d : K) (hU : Moderate d e.U) (o : Orc K F) (s : MSt K F) :
    afterGlob (bare d e) o (stAll d s) = (afterGlob e o s).map (stAll d) := by
  refine ite_plus (fun _ => rfl) fun _ => ?_
  rw [PassRes.map_bind (f := stAll d) (k' := fun t => decideStep (bare d e) o (stepNorm e o { s with niter := s.niter + 1 }) t)
    (fun _ _ => rfl) (fun t _ => (decideStep_plus e d o _ t).symm),
    PassRes.map_bind (f := stAll d) (k' := evalTrial (bare d e) o) (fun _ _ => rfl) (fun t _ => (evalTrial_shift e d hU o t).symm),
    ← penalty_plus]
  rfl

theorem stepStage_plus (e : Env K F) (d a b : K) (hU : Moderate d e.U) (o : Orc K F) (s : MSt K F)
    (hm : s.rejected = true → a = s.f0 + d ∧ b = s.merit0 + d) :
    stepStage (bare d e) o (stPlus d a b s) = (stepStage e o s).map (stAll d) := by
  show (globalise (bare d e) (stPlus d a b s)).bind (afterGlob (bare d e) o) = ((globalise e s).bind (afterGlob e o)).map (stAll d)
  rw [PassRes.map_bind (f := stAll d) (k' := afterGlob (bare d e) o) (fun _ _ => rfl) (fun u _ => (afterGlob_plus e d hU o u).symm),
    globalise_plus e d a b s hm]

/-! ### What the improvement keeps -/

/-- The memory for the next comparison. -/
def KeepsMem (s t : MSt K F) : Prop := t.f0 = s.f0 ∧ t.merit0 = s.merit0 ∧ t.rejected = s.rejected

theorem evalReplaced_memory (e : Env K F) : ∀ (js : List ℕ) (s : MSt K F),
    (evalReplaced e js s).Sat (KeepsMem s) (KeepsMem s) fun _ => True := by
  intro js
  induction js with
  | nil => intro s; exact ⟨rfl, rfl, rfl⟩
  | cons j js ih =>
    intro s
    simp only [evalReplaced]
    split
    · split
      · trivial
      · split
        · trivial
        · split
          · trivial
          · split
            · split
              · trivial
              · exact ih _
            · exact ih _
    · trivial

theorem callSmallf_memory (e : Env K F) (s : MSt K F) : (callSmallf e s).Sat (KeepsMem s) (KeepsMem s) fun _ => True := by
  unfold callSmallf
  split
  · trivial
  · dsimp only
    split
    · trivial
    · split
      · trivial
      · exact ⟨rfl, rfl, rfl⟩

theorem improveEnd_memory (e : Env K F) (k : Meas K) (r : K) (s : MSt K F) :
    (improveEnd e k r s).Sat (KeepsMem s) (KeepsMem s) fun _ => True := by
  unfold improveEnd
  split
  · exact ⟨rfl, rfl, rfl⟩
  · dsimp only
    split <;> exact ⟨rfl, rfl, rfl⟩

theorem KeepsMem.trans {s t u : MSt K F} (h : KeepsMem s t) (h' : KeepsMem t u) : KeepsMem s u :=
  ⟨h'.1.trans h.1, h'.2.1.trans h.2.1, h'.2.2.trans h.2.2⟩

theorem improve_memory (e : Env K F) (o : Orc K F) (s : MSt K F) : (improve e o s).Sat (KeepsMem s) (KeepsMem s) fun _ => True := by
  unfold improve
  split
  · dsimp only
    split
    · exact ⟨rfl, rfl, rfl⟩
    · split
      · exact ⟨rfl, rfl, rfl⟩
      · unfold repairStage
        dsimp only
        refine PassRes.Sat.bind (Q := KeepsMem s) (PassRes.Sat.bind (Q := KeepsMem s) ?_ fun u hu => ?_) fun u hu => ?_
        · exact evalReplaced_memory e _ _
        · exact (callSmallf_memory e u).mono (fun _ => hu.trans) (fun _ => hu.trans) fun _ h => h
        · refine (improveEnd_memory e _ _ _).mono (fun t ht => hu.trans ?_) (fun t ht => hu.trans ?_) fun _ h => h
          · exact ht
          · exact ht
  · trivial

/-! ### Passes and the loop -/

/-- `z` is the state `s` with values larger by `d`, without gradients; the memorised values count only after a rejected step. -/
def Twin (d : K) (s z : MSt K F) : Prop :=
  ∃ a b, z = stPlus d a b s ∧ (s.rejected = true → a = s.f0 + d ∧ b = s.merit0 + d)

/-- Two results of a stage. -/
def PassRes.Both (R : MSt K F → MSt K F → Prop) (r r' : PassRes K F) : Prop :=
  match r, r' with
  | .cont s, .cont t => R s t
  | .ret s, .ret t => R s t
  | .crash c, .crash c' => c' = c
  | _, _ => False

theorem twin_all (d : K) (s : MSt K F) : Twin d s (stAll d s) := ⟨_, _, rfl, fun _ => ⟨rfl, rfl⟩⟩

theorem both_all (d : K) (r : PassRes K F) : r.Both (Twin d) (r.map (stAll d)) := by
  cases r with
  | cont s => exact twin_all d s
  | ret s => exact twin_all d s
  | crash c => rfl

/-- A pass after the measures are computed. -/
def passRest (e : Env K F) (o : Orc K F) (s : MSt K F) : PassRes K F :=
  (if (s.glagn ≤ e.tolGrad ∧ s.feasn ≤ e.tolFeas ∧ s.compl ≤ e.tolBnds) ∨
      s.delta < 1 / 10 ^ 10 ∨ s.pred = -1 then improve e o s else .cont s).bind (stepStage e o)

theorem pass_plus (e : Env K F) (d : K) (hU : Moderate d e.U) (o : Orc K F) (s z : MSt K F) (h : Twin d s z) :
    (pass e o s).Both (Twin d) (pass (bare d e) o z) := by
  obtain ⟨a, b, rfl, hm⟩ := h
  unfold pass
  by_cases h1 : e.miter.le (.fin s.niter) = true
  · rw [if_pos h1, if_pos (show (bare d e).miter.le (.fin (stPlus d a b s).niter) = true from h1)]
    exact ⟨a, b, rfl, hm⟩
  rw [if_neg h1, if_neg (show ¬ (bare d e).miter.le (.fin (stPlus d a b s).niter) = true from h1)]
  by_cases h2 : e.msimul.le (.fin s.ev.nsimul) = true
  · rw [if_pos h2, if_pos (show (bare d e).msimul.le (.fin (stPlus d a b s).ev.nsimul) = true from h2)]
    exact ⟨a, b, rfl, hm⟩
  rw [if_neg h2, if_neg (show ¬ (bare d e).msimul.le (.fin (stPlus d a b s).ev.nsimul) = true from h2)]
  by_cases h3 : o.k1.fail = true
  · rw [if_pos h3, if_pos h3]
    exact ⟨a, b, rfl, hm⟩
  rw [if_neg h3, if_neg h3]
  have key : ∀ u : MSt K F, KeepsMem s u → (stepStage e o u).Both (Twin d) (stepStage (bare d e) o (stPlus d a b u)) := by
    intro u hu
    rw [stepStage_plus e d a b hU o u (fun h => by
      obtain ⟨c1, c2⟩ := hm (hu.2.2 ▸ h)
      exact ⟨by rw [c1, hu.1], by rw [c2, hu.2.1]⟩)]
    exact both_all d _
  show (passRest e o { s.measure o.k1 with ev := { s.ev with flag := Status.success } }).Both (Twin d)
    (passRest (bare d e) o (stPlus d a b { s.measure o.k1 with ev := { s.ev with flag := Status.success } }))
  have hmem : KeepsMem s ({ s.measure o.k1 with ev := { s.ev with flag := Status.success } } : MSt K F) := ⟨rfl, rfl, rfl⟩
  generalize ({ s.measure o.k1 with ev := { s.ev with flag := Status.success } } : MSt K F) = v at hmem ⊢
  unfold passRest
  by_cases hc : (v.glagn ≤ e.tolGrad ∧ v.feasn ≤ e.tolFeas ∧ v.compl ≤ e.tolBnds) ∨ v.delta < 1 / 10 ^ 10 ∨ v.pred = -1
  · have g1 : (if (v.glagn ≤ e.tolGrad ∧ v.feasn ≤ e.tolFeas ∧ v.compl ≤ e.tolBnds) ∨ v.delta < 1 / 10 ^ 10 ∨ v.pred = -1
        then improve e o v else PassRes.cont v) = improve e o v := if_pos hc
    have g2 : (if ((stPlus d a b v).glagn ≤ (bare d e).tolGrad ∧ (stPlus d a b v).feasn ≤ (bare d e).tolFeas ∧
          (stPlus d a b v).compl ≤ (bare d e).tolBnds) ∨ (stPlus d a b v).delta < 1 / 10 ^ 10 ∨ (stPlus d a b v).pred = -1
        then improve (bare d e) o (stPlus d a b v) else PassRes.cont (stPlus d a b v)) = improve (bare d e) o (stPlus d a b v) := if_pos hc
    rw [g1, g2, improve_plus e d a b hU o v]
    have hi := improve_memory e o v
    cases hr : improve e o v with
    | cont u => rw [hr] at hi; exact key u (hmem.trans hi)
    | ret u =>
      rw [hr] at hi
      have hu := hmem.trans hi
      refine ⟨a, b, rfl, fun h => ?_⟩
      obtain ⟨c1, c2⟩ := hm (hu.2.2 ▸ h)
      exact ⟨by rw [c1, hu.1], by rw [c2, hu.2.1]⟩
    | crash c => rfl
  · have g1 : (if (v.glagn ≤ e.tolGrad ∧ v.feasn ≤ e.tolFeas ∧ v.compl ≤ e.tolBnds) ∨ v.delta < 1 / 10 ^ 10 ∨ v.pred = -1
        then improve e o v else PassRes.cont v) = PassRes.cont v := if_neg hc
    have g2 : (if ((stPlus d a b v).glagn ≤ (bare d e).tolGrad ∧ (stPlus d a b v).feasn ≤ (bare d e).tolFeas ∧
          (stPlus d a b v).compl ≤ (bare d e).tolBnds) ∨ (stPlus d a b v).delta < 1 / 10 ^ 10 ∨ (stPlus d a b v).pred = -1
        then improve (bare d e) o (stPlus d a b v) else PassRes.cont (stPlus d a b v)) = PassRes.cont (stPlus d a b v) := if_neg hc
    rw [g1, g2]
    exact key v hmem

/-! ### From a common twin to the two runs -/

theorem plus_zero (v : Fl K) : plus 0 v = v := by cases v <;> simp [plus]

theorem plusUser_zero {P : Type} (U : User P K) : plusUser 0 U = U := by
  obtain ⟨f, c⟩ := U
  simp only [plusUser, User.mk.injEq, and_true]
  funext w y
  cases f w y with
  | num v => simp [plusOut, plus_zero]
  | raised => rfl
  | other => rfl

theorem bare_zero (d : K) (e : Env K F) : bare 0 (plusEnv d e) = bare d e := by
  unfold bare plusEnv
  dsimp only
  rw [plusUser_zero]

theorem moderate_zero {P : Type} {d : K} {U : User P K} (h : Moderate d U) : Moderate 0 (plusUser d U) := by
  intro w y q hq
  change plusOut d (U.f w y) = _ at hq
  cases hf : U.f w y with
  | num v =>
    rw [hf] at hq
    cases v with
    | fin r =>
      simp only [plusOut, plus, FOut.num.injEq, Fl.fin.injEq] at hq
      obtain ⟨-, h2⟩ := h w y r hf
      rw [hq] at h2
      exact ⟨h2, by rw [add_zero]; exact h2⟩
    | nan => simp [plusOut, plus] at hq
    | pinf => simp [plusOut, plus] at hq
    | ninf => simp [plusOut, plus] at hq
  | raised => rw [hf] at hq; simp [plusOut] at hq
  | other => rw [hf] at hq; simp [plusOut] at hq

theorem shifted_of_twins {d : K} {s t z : MSt K F} (h : Twin d s z) (h' : Twin 0 t z) : ShiftedBy d s t := by
  obtain ⟨a, b, rfl, hm⟩ := h
  obtain ⟨a', b', hz, hm'⟩ := h'
  have hl : ∀ l : List (Fl K), l.map (plus 0) = l := fun l => by
    rw [show (plus 0 : Fl K → Fl K) = id from funext plus_zero, List.map_id]
  have hk : ∀ l : List K, l.map (· + 0) = l := fun l => by simp
  have hr : t.rejected = s.rejected := (congrArg MSt.rejected hz).symm
  exact {
    niter := (congrArg MSt.niter hz).symm
    points := (congrArg (fun u => u.ev.X) hz).symm
    values := by rw [← hl t.ev.fX]; exact (congrArg (fun u => u.ev.fX) hz).symm
    ceX := (congrArg (fun u => u.ev.ceX) hz).symm
    nsimul := (congrArg (fun u => u.ev.nsimul) hz).symm
    infoF := by rw [← plus_zero t.ev.infoF]; exact (congrArg (fun u => u.ev.infoF) hz).symm
    flag := (congrArg (fun u => u.ev.flag) hz).symm
    calls := (congrArg (fun u => u.ev.w) hz).symm
    m := (congrArg MSt.m hz).symm
    Y := (congrArg (fun u => u.set.Y) hz).symm
    ind := (congrArg (fun u => u.set.ind) hz).symm
    fY := by rw [← hk t.set.fY]; exact (congrArg (fun u => u.set.fY) hz).symm
    ciY := (congrArg (fun u => u.set.ciY) hz).symm
    ceY := (congrArg (fun u => u.set.ceY) hz).symm
    fac := (congrArg (fun u => u.set.fac) hz).symm
    cur := (congrArg MSt.cur hz).symm
    x := (congrArg MSt.x hz).symm
    fx := by rw [← add_zero t.fx]; exact (congrArg MSt.fx hz).symm
    ixbest := (congrArg MSt.ixbest hz).symm
    delta := (congrArg MSt.delta hz).symm
    sigma := (congrArg MSt.sigma hz).symm
    pred := (congrArg MSt.pred hz).symm
    epsCur := (congrArg MSt.epsCur hz).symm
    rejected := hr
    poisedModel := (congrArg MSt.poisedModel hz).symm
    ce0n := (congrArg MSt.ce0n hz).symm
    memory := fun h => by
      obtain ⟨c1, c2⟩ := hm h
      obtain ⟨c3, c4⟩ := hm' (hr.trans h)
      have c5 : a = a' := congrArg MSt.f0 hz
      have c6 : b = b' := congrArg MSt.merit0 hz
      rw [add_zero] at c3 c4
      exact ⟨by rw [← c1, c5, c3], by rw [← c2, c6, c4]⟩
    glagn := (congrArg MSt.glagn hz).symm
    feasn := (congrArg MSt.feasn hz).symm
    compl := (congrArg MSt.compl hz).symm
    poised := (congrArg MSt.poised hz).symm
    yradius := (congrArg MSt.yradius hz).symm
    infoCe := (congrArg MSt.infoCe hz).symm
    ceplus := (congrArg MSt.ceplus hz).symm
    sl := (congrArg MSt.sl hz).symm }

/-- Two states with a common twin. -/
def Twins (d : K) (s t : MSt K F) : Prop := ∃ z, Twin d s z ∧ Twin 0 t z

theorem Twins.shifted {d : K} {s t : MSt K F} (h : Twins d s t) : ShiftedBy d s t := by
  obtain ⟨z, h1, h2⟩ := h
  exact shifted_of_twins h1 h2

theorem pass_twins (e : Env K F) (d : K) (hU : Moderate d e.U) (o : Orc K F) (s t : MSt K F) (h : Twins d s t) :
    (pass e o s).Both (Twins d) (pass (plusEnv d e) o t) := by
  obtain ⟨z, h1, h2⟩ := h
  have p1 := pass_plus e d hU o s z h1
  have p2 := pass_plus (plusEnv d e) 0 (moderate_zero hU) o t z h2
  rw [bare_zero] at p2
  cases hr : pass e o s <;> cases hr' : pass (plusEnv d e) o t <;> cases hz : pass (bare d e) o z <;>
    rw [hz] at p1 p2 <;> rw [hr] at p1 <;> rw [hr'] at p2 <;> simp only [PassRes.Both] at p1 p2 ⊢
  · exact ⟨_, p1, p2⟩
  · exact ⟨_, p1, p2⟩
  · rw [← p1, ← p2]

theorem mainLoop_twins (e : Env K F) (d : K) (hU : Moderate d e.U) : ∀ (os : List (Orc K F)) (s t : MSt K F), Twins d s t →
    (mainLoop e os s).Both (Twins d) (mainLoop (plusEnv d e) os t) := by
  intro os
  induction os with
  | nil => intro s t h; exact h
  | cons o os ih =>
    intro s t h
    have hp := pass_twins e d hU o s t h
    simp only [mainLoop]
    cases hr : pass e o s <;> cases hr' : pass (plusEnv d e) o t <;> rw [hr, hr'] at hp <;> simp only [PassRes.Both] at hp
    · exact ih _ _ hp
    · exact hp
    · exact hp

/-! ### The start -/

theorem setOrAppend_get {α : Type} (l : List α) (m : ℕ) (a v : α) (h : (setOrAppend l m a)[m]? = some v) : v = a := by
  unfold setOrAppend at h
  split at h
  · rename_i hm
    rw [List.getElem?_set_self hm] at h
    exact (Option.some.inj h).symm
  · rename_i hm
    rw [List.getElem?_append_right (not_lt.1 hm)] at h
    rcases Nat.eq_zero_or_pos (m - l.length) with h0 | h0
    · rw [h0] at h; exact (Option.some.inj h).symm
    · rw [List.getElem?_eq_none (show [a].length ≤ m - l.length from h0)] at h; cases h

theorem augmX_moderate {P : Type} {d : K} {U : User P K} (hU : Moderate d U) (y : P) (m : ℕ) (s t : EvSt P K)
    (h : augmX U (.fin big) y m s = some t) (hf : t.flag = 0) (v : Fl K) (hv : t.fX[m]? = some v) :
    tooBig v = false ∧ tooBig (plus d v) = false := by
  unfold augmX at h
  dsimp only at h
  have hq := sqpdfoFunc_fin U y s.w
  generalize sqpdfoFunc U y s.w = r at hq h
  obtain ⟨⟨msg, f, c⟩, w⟩ := r
  dsimp only at hq h
  cases f with
  | raised => cases h
  | other => cases h
  | num u =>
    cases u with
    | nan => cases h; cases hf
    | pinf => cases h; cases hf
    | ninf => cases h; cases hf
    | fin q =>
      obtain ⟨h1, h2⟩ := hU _ _ _ (hq q rfl)
      simp only [Fl.isNan, Fl.isInf, Bool.false_eq_true, if_false] at h
      split at h
      · cases h; cases hf
      split at h
      · cases h; cases hf
      · cases h
        have hv' := setOrAppend_get _ _ _ _ hv
        have k1 := (abs_le.1 h1).2
        have hmin : (Fl.fin big).fmin (Fl.fin q) = Fl.fin q := by
          unfold Fl.fmin
          simp only [Fl.isNan, Bool.false_eq_true, if_false, Fl.le, decide_eq_true_eq]
          split
          · rename_i hb; rw [le_antisymm k1 hb]; rfl
          · rfl
        rw [hmin] at hv'
        subst hv'
        simp only [tooBig, plus, decide_eq_false_iff_not, not_lt]
        exact ⟨h1, h2⟩

/-- The same results of a sampling with other states. -/
def SampleRes.map {P : Type} (f : EvSt P K → EvSt P K) : SampleRes P K → SampleRes P K
  | .crash => .crash
  | .failed s => .failed (f s)
  | .broke s => .broke (f s)
  | .full s => .full (f s)

theorem samplePass_plus {P : Type} {d : K} {U : User P K} (hU : Moderate d U) : ∀ (ys : List P) (i : ℕ) (s : EvSt P K),
    samplePass (plusUser d U) ys i (evPlus d s) = (samplePass U ys i s).map (evPlus d) ∧
      ∀ u, samplePass U ys i s ≠ .broke u := by
  intro ys
  induction ys with
  | nil => intro i s; exact ⟨rfl, fun u h => by cases h⟩
  | cons y ys ih =>
    intro i s
    simp only [samplePass, augmX_plus hU]
    cases ha : augmX U (.fin big) y i s with
    | none => exact ⟨rfl, fun u h => by cases h⟩
    | some t =>
      simp only [Option.map_some]
      have h1 : (evPlus d t).flag = t.flag := rfl
      rw [h1]
      by_cases hf : t.flag = 0
      · rw [if_neg (not_not.2 hf), if_neg (not_not.2 hf)]
        have h2 : (evPlus d t).fX = t.fX.map (plus d) := rfl
        rw [h2, List.getElem?_map]
        cases hv : t.fX[i]? with
        | none => exact ⟨rfl, fun u h => by cases h⟩
        | some v =>
          obtain ⟨b1, b2⟩ := augmX_moderate hU y i s t ha hf v hv
          simp only [Option.map_some, b1, b2, Bool.false_eq_true, if_false]
          exact ih (i + 1) t
      · rw [if_pos hf, if_pos hf]
        exact ⟨rfl, fun u h => by cases h⟩

/-- The same ends of the initial sampling with other states. -/
def InitRes.map (f : EvSt (List K) K → EvSt (List K) K) : InitRes K → InitRes K
  | .crash => .crash
  | .failed s => .failed (f s)
  | .stalled s => .stalled (f s)
  | .done D s => .done D (f s)
  | .running => .running

theorem initLoop_plus {d : K} {U : User (List K) K} (hU : Moderate d U) (x0 : List K) (nx : K) (fuel : ℕ) (D : K)
    (s : EvSt (List K) K) : initLoop (plusUser d U) x0 nx fuel D (evPlus d s) = (initLoop U x0 nx fuel D s).map (evPlus d) := by
  cases fuel with
  | zero => rfl
  | succ fuel =>
    have hp := samplePass_plus hU (simplex x0 D) 0 { s with X := [], fX := [], ceX := [] }
    simp only [initLoop]
    rw [show ({ evPlus d s with X := [], fX := [], ceX := [] } : EvSt (List K) K) = evPlus d { s with X := [], fX := [], ceX := [] } from rfl,
      hp.1]
    cases hr : samplePass U (simplex x0 D) 0 { s with X := [], fX := [], ceX := [] } with
    | crash => rfl
    | failed t => rfl
    | broke t => exact absurd hr (hp.2 t)
    | full t =>
      simp only [SampleRes.map]
      rw [show (evPlus d t).ceX = t.ceX from rfl]
      cases replaceHuge t.ceX with
      | none => rfl
      | some c =>
        dsimp only
        cases replaceHugeNeg c with
        | none => rfl
        | some c => rfl

theorem mapM_val_plus (d : K) (l : List (Fl K)) : (l.map (plus d)).mapM Fl.val? = (l.mapM Fl.val?).map (List.map (· + d)) := by
  induction l with
  | nil => rfl
  | cons v l ih =>
    rw [List.map_cons, List.mapM_cons, List.mapM_cons, ih, plus_val]
    cases v.val? with
    | none => rfl
    | some q =>
      cases l.mapM Fl.val? with
      | none => rfl
      | some l => rfl

theorem mainInit_plus (e : Env K F) (d D : K) (sl : List K) (ev : EvSt (List K) K) :
    mainInit (bare d e) D sl (evPlus d ev) = (mainInit e D sl ev).map (stPlus d 0 0) := by
  unfold mainInit
  rw [show (evPlus d ev).fX = ev.fX.map (plus d) from rfl, mapM_val_plus, show (evPlus d ev).ceX = ev.ceX from rfl,
    show (evPlus d ev).X = ev.X from rfl]
  cases ev.fX.mapM Fl.val? with
  | none => rfl
  | some fY =>
    cases ev.ceX.mapM colK with
    | none => rfl
    | some ceY =>
      cases ev.X[0]? with
      | none => rfl
      | some x =>
        simp only [Option.map_some, List.getElem?_map]
        cases fY[0]? with
        | none => rfl
        | some f => rfl

theorem startState_plus (e : Env K F) (d : K) (hU : Moderate d e.U) (x0 : List K) (fuel : ℕ) (D : K) (sl : List K) :
    startState (bare d e) x0 fuel D sl = (startState e x0 fuel D sl).map (stPlus d 0 0) := by
  unfold startState
  have h := initLoop_plus hU x0 (e.nrm x0) fuel D emptyEv
  rw [show evPlus d (emptyEv : EvSt (List K) K) = emptyEv from rfl] at h
  rw [show (bare d e).U = plusUser d e.U from rfl, show (bare d e).nrm = e.nrm from rfl, h]
  cases initLoop e.U x0 (e.nrm x0) fuel D emptyEv with
  | done D' ev => exact mainInit_plus e d D' sl ev
  | crash => rfl
  | failed s => rfl
  | stalled s => rfl
  | running => rfl

theorem startState_rejected (e : Env K F) (x0 : List K) (fuel : ℕ) (D : K) (sl : List K) (s : MSt K F)
    (h : startState e x0 fuel D sl = some s) : s.rejected = false := by
  unfold startState at h
  split at h
  · unfold mainInit at h
    split at h
    · split at h
      · cases h
      · cases h; rfl
    · cases h
  · cases h

theorem startState_twins (e : Env K F) (d : K) (hU : Moderate d e.U) (x0 : List K) (fuel : ℕ) (D : K) (sl : List K) (s : MSt K F)
    (h : startState e x0 fuel D sl = some s) : ∃ t, startState (plusEnv d e) x0 fuel D sl = some t ∧ Twins d s t := by
  have h1 := startState_plus e d hU x0 fuel D sl
  have h2 := startState_plus (plusEnv d e) 0 (moderate_zero hU) x0 fuel D sl
  rw [bare_zero, h1, h] at h2
  cases ht : startState (plusEnv d e) x0 fuel D sl with
  | none => rw [ht] at h2; cases h2
  | some t =>
    rw [ht] at h2
    simp only [Option.map_some, Option.some.injEq] at h2
    refine ⟨t, rfl, _, ⟨0, 0, rfl, fun hr => ?_⟩, ⟨0, 0, h2, fun hr => ?_⟩⟩
    · rw [startState_rejected e x0 fuel D sl s h] at hr; cases hr
    · rw [startState_rejected (plusEnv d e) x0 fuel D sl t ht] at hr; cases hr

theorem startState_none (e : Env K F) (d : K) (hU : Moderate d e.U) (x0 : List K) (fuel : ℕ) (D : K) (sl : List K)
    (h : startState e x0 fuel D sl = none) : startState (plusEnv d e) x0 fuel D sl = none := by
  have h1 := startState_plus e d hU x0 fuel D sl
  have h2 := startState_plus (plusEnv d e) 0 (moderate_zero hU) x0 fuel D sl
  rw [bare_zero, h1, h] at h2
  cases ht : startState (plusEnv d e) x0 fuel D sl with
  | none => rfl
  | some t => rw [ht] at h2; cases h2

end Sqpdfo
