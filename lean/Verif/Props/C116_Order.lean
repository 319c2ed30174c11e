import Verif.Lemmas.MainReorder
import Verif.Lemmas.WholeSetup
import Verif.Props.C101_Shift
import Verif.Props.C55_C58_C64_Runs
import Verif.Props.C81_Whole
import Mathlib.Analysis.Real.Sqrt

/-! # C116: the order of the equality constraints does not matter -/

set_option linter.unusedSectionVars false

namespace Sqpdfo
open Spec
variable {K F : Type} [Field K] [LinearOrder K] [IsStrictOrderedRing K] {m : ℕ}

/-- **C116, main loop.** With the same kernel results, the run for the constraints in another order (those with slacks stay in place, the
norm does not depend on the order) passes through the same points, decisions, counters, radii, penalty parameters, slacks and statuses,
with all constraint values in the other order, and ends in the same way.  (This includes the initial sampling.) -/
theorem C116_loop (e : Env K F) (σ : Equiv.Perm (Fin m)) (h : OrderOk σ e) (x0 : List K) (fuel : ℕ) (Δ : K) (sl : List K) :
    (startState e x0 fuel Δ sl = none → startState (reorderEnv σ e) x0 fuel Δ sl = none) ∧
    ∀ s0, startState e x0 fuel Δ sl = some s0 → ∃ t0, startState (reorderEnv σ e) x0 fuel Δ sl = some t0 ∧
      ∀ os : List (Orc K F), (mainLoop e os s0).Both (ReorderedBy σ) (mainLoop (reorderEnv σ e) os t0) := by
  obtain ⟨h1, h2⟩ := startState_reordered σ e x0 fuel Δ sl
  refine ⟨h1, fun s0 h0 => ?_⟩
  obtain ⟨t0, ht, hT⟩ := h2 s0 h0
  exact ⟨t0, ht, fun os => (mainLoop_reordered h os s0 t0 hT).mono fun _ _ h => reordered_of_bare h⟩

/-- The constraint columns in use have one entry per constraint. -/
theorem ce_shape {e : Env K F} {x0 : List K} {fuel : ℕ} {Δ : K} {sl : List K} {s0 : MSt K F} (H : Starts e x0 fuel Δ sl s0) (hT : e.Tame)
    (os : List (Orc K F)) (t : MSt K F) (h : mainLoop e os s0 = .running t ∨ mainLoop e os s0 = .done t) :
    t.set.ceY.length = t.set.Y.length ∧ ∀ c ∈ t.set.ceY, c.length = e.me := by
  have hp : ∀ o s, (Inv e [] s ∧ Ce e [] s) → (pass e o s).Sat (fun s => Inv e [] s ∧ Ce e [] s)
      (fun s => Core e [] s ∧ CeCore e [] s) (fun _ => True) := by
    rintro o s ⟨hI, hc⟩
    exact ((pass_sat e H.ok o s hI).and (pass_ce H.ok H.constr hT o s hc hI)).mono
      (fun _ h => ⟨h.1.1, h.2⟩) (fun _ h => ⟨h.1.1.core, h.2⟩) (fun _ _ => trivial)
  have key := mainLoop_induct e _ _ _ hp os s0 ⟨H.started.1, startState_ce H.constr hT x0 fuel Δ sl s0 H.state⟩
  have : Core e [] t ∧ CeCore e [] t := by
    rcases h with h | h
    · rw [h] at key; exact ⟨key.1.toCore, key.2.toCeCore⟩
    · rw [h] at key; exact key
  obtain ⟨hI, hc⟩ := this
  refine ⟨by rw [← hc.pair.1, hI.indlen, hI.Ylen], fun c hcm => ?_⟩
  obtain ⟨j, hj, rfl⟩ := List.getElem_of_mem hcm
  have hj' : j < t.set.ind.length := by rw [hc.pair.1]; exact hj
  obtain ⟨c, c1, c2⟩ := hc.pair.2 j (by simp) _ (List.getElem?_eq_getElem hj')
  rw [List.getElem?_eq_getElem hj, Option.some.injEq] at c2
  obtain ⟨c', e1, e2, -⟩ := hc.cols _ (List.mem_of_getElem? c1)
  have := congrArg List.length e1
  simp only [List.length_map] at this
  rw [c2, this, e2]

/-- **C116, kernels.** The same with kernels that are functions of the state: if the models of the constraints are computed one by one
(so that values in another order give gradients in this order) and the other kernels do not depend on the order, the two runs stay together,
and the gradients of the constraints are the same in the other order. -/
theorem C116_kernels {e : Env K F} {x0 : List K} {fuel : ℕ} {Δ : K} {sl : List K} {s0 : MSt K F} (H : Starts e x0 fuel Δ sl s0)
    (hT : e.Tame) (σ : Equiv.Perm (Fin m)) (h : OrderOk σ e)
    (hmodel : ∀ (Y : List (List K)) (x : List K) (fY : List K) (ceY : List (List K)), fY.length = Y.length → ceY.length = Y.length →
      (∀ c ∈ ceY, c.length = m) → Y[0]? = some x →
      e.model (e.build Y) x fY (ceY.map (reorder σ)) = reorderG σ (e.model (e.build Y) x fY ceY))
    (kern : MSt K F → Orc K F)
    (hk : ∀ s t, ReorderedBy σ s t → t.infoG = reorderG σ s.infoG → kern t = kern s) :
    ∃ t0, startState (reorderEnv σ e) x0 fuel Δ sl = some t0 ∧
      ∀ n, (play e kern n s0).Both (fun s t => ReorderedBy σ s t ∧ t.infoG = reorderG σ s.infoG) (play (reorderEnv σ e) kern n t0) := by
  obtain ⟨t0, ht0, h0⟩ := (startState_reordered σ e x0 fuel Δ sl).2 s0 H.state
  refine ⟨t0, ht0, ?_⟩
  have hgrad : ∀ (os : List (Orc K F)) (s t : MSt K F), (mainLoop e os s0 = .running s ∨ mainLoop e os s0 = .done s) →
      (mainLoop (reorderEnv σ e) os t0 = .running t ∨ mainLoop (reorderEnv σ e) os t0 = .done t) → ReorderedBy σ s t →
      t.infoG = reorderG σ s.infoG := by
    intro os s t hs ht h'
    obtain ⟨g1, g2, g3, g4, -⟩ := C72_gradients H os s hs
    obtain ⟨c1, c2⟩ := ce_shape H hT os s hs
    have hf := mainLoop_fresh (reorderEnv σ e) os t0 (startState_fresh (reorderEnv σ e) x0 fuel Δ sl t0 ht0) t ht
    rw [hf.info, hf.gx, h'.fac, h'.x, h'.fY, h'.ceY, g1, g3]
    exact hmodel _ _ _ _ g4 c1 (fun c hc => (c2 c hc).trans h.me) g2
  have key : ∀ (n : ℕ) (os : List (Orc K F)) (s t : MSt K F), mainLoop e os s0 = .running s →
      mainLoop (reorderEnv σ e) os t0 = .running t → stRe (1 : Equiv.Perm (Fin m)) t = stRe σ s →
      (play e kern n s).Both (fun s t => ReorderedBy σ s t ∧ t.infoG = reorderG σ s.infoG) (play (reorderEnv σ e) kern n t) := by
    intro n
    induction n with
    | zero => intro os s t hs ht h'; exact ⟨reordered_of_bare h', hgrad os s t (Or.inl hs) (Or.inl ht) (reordered_of_bare h')⟩
    | succ n ih =>
      intro os s t hs ht h'
      have hg := hgrad os s t (Or.inl hs) (Or.inl ht) (reordered_of_bare h')
      have hp := mainLoop_reordered h [kern s] s t h'
      have hs' := mainLoop_snoc e os (kern s) s0 s hs
      have ht' := mainLoop_snoc (reorderEnv σ e) os (kern s) t0 t ht
      simp only [mainLoop] at hs' ht' hp
      simp only [play, hk s t (reordered_of_bare h') hg]
      cases hr : pass e (kern s) s <;> cases hr' : pass (reorderEnv σ e) (kern s) t <;>
        rw [hr, hr'] at hp <;> simp only [MainRes.Both] at hp <;> rw [hr] at hs' <;> rw [hr'] at ht'
      · exact ih _ _ _ hs' ht' hp
      · exact ⟨reordered_of_bare hp, hgrad _ _ _ (Or.inr hs') (Or.inr ht') (reordered_of_bare hp)⟩
      · exact hp
  exact fun n => key n [] s0 t0 rfl rfl h0

/-! ### Whole calls -/

/-- The data for the main part with constraint values in another order. -/
def inRe (σ : Equiv.Perm (Fin m)) (i : MainIn K) : MainIn K := { i with ev := evRe σ i.ev }

/-- The result of the set-up with constraint values in another order. -/
def SetupRes.re (σ : Equiv.Perm (Fin m)) : SetupRes K → SetupRes K
  | .go i => .go (inRe σ i)
  | r => r

theorem setupVia_re (σ : Equiv.Perm (Fin m)) (I : List K → K → InitRes K) (sqrt : K → K) (a : Args K) (g : Globals K)
    (hI : ∀ x D D' s ub, I x D = .done D' s → ∀ r c x0 l u g', checkArgs a g = (.ok r c x0 l u, g') →
      initSlacks sqrt g'.nbrSlacks (firstCe (evRe σ s)) ub = initSlacks sqrt g'.nbrSlacks (firstCe s) ub) :
    setupVia (fun x Δ => (I x Δ).map (evRe σ)) sqrt a g =
      { setupVia I sqrt a g with res := (setupVia I sqrt a g).res.re σ } := by
  unfold setupVia
  split
  · rfl
  · rfl
  · rename_i r c x0 l u g' hca
    split
    · rfl
    · rfl
    · dsimp only
      split
      · rfl
      split
      · rfl
      split
      · split
        · rfl
        · rfl
        · rename_i D ys hb
          split
          · rfl
          cases hr : I (ys.map (·.1)) D with
          | crash => rfl
          | running => rfl
          | failed s => rfl
          | stalled s => rfl
          | done D s =>
            simp only [InitRes.map]
            split
            · rw [hI _ _ _ _ _ hr _ _ _ _ _ _ hca]
              split
              · rfl
              · rfl
            · rfl
      · rfl

theorem setup_init (U : User (List K) K) (sqrt : K → K) (nrm : List K → K) (fuel : ℕ) (a : Args K) (g : Globals K) (i : MainIn K)
    (h : (setup U sqrt nrm fuel a g).res = .go i) :
    (∃ x D D', initLoop U x (nrm x) fuel D emptyEv = .done D' i.ev) ∧
      ∃ r c x0 l u g', checkArgs a g = (.ok r c x0 l u, g') ∧ i.nbrSlacks = g'.nbrSlacks := by
  rw [setup_via] at h
  unfold setupVia at h
  split at h
  · cases h
  · cases h
  · rename_i r c x0 l u g' hca
    split at h
    · cases h
    · cases h
    · dsimp only at h
      split at h
      · cases h
      split at h
      · cases h
      split at h
      · split at h
        · cases h
        · cases h
        · split at h
          · cases h
          split at h
          · cases h
          · cases h
          · cases h
          · cases h
          · rename_i hr
            split at h
            · split at h
              · cases h
              · cases h
                exact ⟨⟨_, _, _, hr⟩, _, _, _, _, _, _, hca, rfl⟩
            · rename_i hn
              cases h
              refine ⟨⟨_, _, _, hr⟩, _, _, _, _, _, _, hca, ?_⟩
              show 0 = _
              omega
      · cases h

theorem checkArgs_slacks {a : Args K} (hw : WellFormed a) {g g' : Globals K} {r c : ℕ} {x0 : List K} {l u : BndArg K}
    (h : checkArgs a g = (.ok r c x0 l u, g')) : g'.nbrSlacks = slackNumber a g := by
  unfold slackNumber
  have hf : a.f = .fn := by
    cases hf : a.f with
    | missing => unfold checkArgs at h; rw [hf] at h; cases h
    | notFn => exact absurd hf hw.f
    | fn => rfl
  have hx : ∃ r c d, a.x0 = .mat r c d := by
    cases hx : a.x0 with
    | missing =>
      unfold checkArgs at h
      simp only [hf, hx] at h
      split at h
      · cases h
      · split at h <;> cases h
    | mat r c d => exact ⟨r, c, d, rfl⟩
  obtain ⟨r', c', d, hx⟩ := hx
  have h2 : ¬ (a.c = .missing ∧ a.me + a.mi > 0) := by
    intro hc
    unfold checkArgs at h
    simp only [hf] at h
    rw [if_pos hc] at h
    cases h
  split
  · rename_i h0
    have hs : (checkArgs a g).2 = g := by
      unfold checkArgs
      simp only [hf, hw.c, if_false, hx, h0, if_true]
      split <;> rfl
    rw [h] at hs
    rw [show g' = g from hs]
  · rename_i h0
    have hc : a.c = .fn := by
      cases h : a.c with
      | missing => exact absurd ⟨h, by omega⟩ h2
      | notFn => exact absurd h hw.c
      | fn => rfl
    classical
    obtain ⟨L', V', r', c', hca', -, -⟩ := C23_slack_count a g hw hf hc h0 hx
      (fun i => decide (TwoSided (a.li.getD (List.replicate (a.mi + a.me) (-10 ^ 9)))
        (a.ui.getD (List.replicate (a.mi + a.me) (10 ^ 9))) i)) (fun i => by simp)
    rw [h] at hca'
    simp only [Prod.mk.injEq] at hca'
    rw [hca'.2]
    unfold twoSided
    congr

theorem initSlacks_re {σ : Equiv.Perm (Fin m)} (ns : ℕ) (hσ : ∀ i : Fin m, m - ns ≤ i → σ i = i) (sqrt : K → K) (ce ub : List K) :
    initSlacks sqrt ns (reorder σ ce) ub = initSlacks sqrt ns ce ub := by
  by_cases hl : ce.length = m
  · unfold initSlacks
    congr 1
    funext i
    rw [reorder_length]
    have : (reorder σ ce)[ce.length - ns + i]? = ce[ce.length - ns + i]? := by
      have := congrArg (fun l => l[i]?) (reorder_drop σ (m - ns) hσ ce hl)
      simp only [List.getElem?_drop] at this
      rw [hl]
      exact this
    rw [this]
  · unfold reorder; rw [dif_neg hl]

theorem firstCe_re (σ : Equiv.Perm (Fin m)) (U : User (List K) K) (hC : Counts U m) (x0 : List K) (nx : K) (N : ℕ) (Δ D : K)
    (ev : EvSt (List K) K) (h : initLoop U x0 nx N Δ emptyEv = .done D ev) : firstCe (evRe σ ev) = reorder σ (firstCe ev) := by
  have h2 := initLoop_cols U m hC x0 nx N Δ D emptyEv ev h
  unfold firstCe
  rw [show (evRe σ ev).ceX = ev.ceX.map (reorder σ) from rfl]
  cases hce : ev.ceX with
  | nil => exact (List.eq_nil_of_length_eq_zero (reorder_length σ ([] : List K))).symm
  | cons c cs =>
    have hcol := (h2 c (by rw [hce]; simp)).2
    have key : ∀ l : List (Fl K), (∀ v ∈ l, ∃ q, v = Fl.fin q) → ∃ k : List K, l = k.map Fl.fin := by
      intro l
      induction l with
      | nil => intro _; exact ⟨[], rfl⟩
      | cons v l ih =>
        intro h
        obtain ⟨q, rfl⟩ := h v List.mem_cons_self
        obtain ⟨k, rfl⟩ := ih fun w hw => h w (List.mem_cons_of_mem _ hw)
        exact ⟨q :: k, rfl⟩
    obtain ⟨k, rfl⟩ := key c hcol
    simp only [List.map_cons, reorder_map, List.filterMap_map]
    have : ∀ l : List K, l.filterMap ((fun v : Fl K => match v with | .fin q => some q | _ => none) ∘ Fl.fin) = l := by
      intro l
      induction l with
      | nil => rfl
      | cons q l ih => rw [List.filterMap_cons]; simp only [Function.comp]; congr 1
    exact (this _).trans (congrArg (reorder σ) (this _).symm)

theorem ceRows_re (σ : Equiv.Perm (Fin m)) (ev : EvSt (List K) K) : ceRows (evRe σ ev) = ceRows ev := by
  unfold ceRows
  rw [show (evRe σ ev).ceX = ev.ceX.map (reorder σ) from rfl]
  cases ev.ceX with
  | nil => rfl
  | cons c cs => exact reorder_length σ c

theorem prelimRaise_re (σ : Equiv.Perm (Fin m)) (ex : Extra) (i : MainIn K) : prelimRaise ex (inRe σ i) = prelimRaise ex i := by
  unfold prelimRaise
  rw [show (inRe σ i).ev = evRe σ i.ev from rfl, ceRows_re]
  rfl

theorem envOf_re (k : Kernels K F) (U : User (List K) K) (σ : Equiv.Perm (Fin m)) (ex : Extra) (i : MainIn K) :
    envOf k (reorderUser σ U) ex (inRe σ i) = (envOf k U ex i).map (reorderEnv σ) := by
  unfold envOf
  rw [show (inRe σ i).opts = i.opts from rfl, show (inRe σ i).ev = evRe σ i.ev from rfl, ceRows_re]
  split
  · rfl
  · rfl

theorem envOf_ns {k : Kernels K F} {U : User (List K) K} {ex : Extra} {i : MainIn K} {e : Env K F} (h : envOf k U ex i = some e) :
    e.ns = i.nbrSlacks := by
  unfold envOf at h
  split at h
  · cases h; rfl
  · cases h

theorem evRe_one {P : Type} (s : EvSt P K) : evRe (1 : Equiv.Perm (Fin m)) s = s := by
  unfold evRe
  rw [show (reorder (1 : Equiv.Perm (Fin m)) : List (Fl K) → List (Fl K)) = id from funext reorder_one, List.map_id]

/-- **C116, whole calls.** For a constraint function with `m` values: a call with these values in another order (those with slacks, which
come last, stay in place; the norm does not depend on the order) ends in the same way as the original call - same status and calls after an
early return, same exception, or same returned point and same recorded data with the constraint values in the other order. -/
theorem C116_call (k : Kernels K F) (U : User (List K) K) (hC : Counts U m) (σ : Equiv.Perm (Fin m)) (fuel : ℕ) (os : List (Orc K F))
    (a : Args K) (hw : WellFormed a) (ex : Extra) (g : Globals K)
    (hnrm : ∀ l : List K, l.length = m → k.nrm (reorder σ l) = k.nrm l)
    (hσ : ∀ i : Fin m, m - slackNumber a g ≤ i → σ i = i) :
    (call k U fuel os a ex g).Both (ReorderedBy σ) (call k (reorderUser σ U) fuel os a ex g) := by
  have hs : setup (reorderUser σ U) k.sqrt k.nrm fuel a g =
      { setup U k.sqrt k.nrm fuel a g with res := (setup U k.sqrt k.nrm fuel a g).res.re σ } := by
    rw [setup_via, setup_via, ← setupVia_re]
    · congr 1
      funext x D
      have h := initLoop_re σ U x (k.nrm x) fuel D emptyEv
      rw [show evRe σ (emptyEv : EvSt (List K) K) = emptyEv from rfl] at h
      exact h
    · intro x D D' s ub hd r c x0 l u g' hca
      rw [firstCe_re σ U hC _ _ _ _ _ _ hd, initSlacks_re _ (by rw [checkArgs_slacks hw hca]; exact hσ)]
  unfold call
  rw [hs]
  dsimp only
  cases hi : (setup U k.sqrt k.nrm fuel a g).res with
  | ret fl => exact ⟨rfl, rfl⟩
  | crash => trivial
  | running => trivial
  | go i =>
    obtain ⟨⟨x, D, D', hd⟩, r, c, x0, l, u, g', hca, hns⟩ := setup_init U _ _ _ _ _ i hi
    show (runMain k U ex os i).Both (ReorderedBy σ) (runMain k (reorderUser σ U) ex os (inRe σ i))
    unfold runMain
    rw [envOf_re, prelimRaise_re]
    cases prelimRaise ex i with
    | some r => trivial
    | none =>
      dsimp only
      cases he : envOf k U ex i with
      | none => trivial
      | some e =>
        simp only [Option.map_some]
        obtain ⟨-, -, -, -, -, -, -, -, e2, e3, -⟩ := envOf_some he
        have hO : OrderOk σ e := by
          refine ⟨by rw [e2]; exact ceRows_eq k U m hC _ _ _ _ _ _ hd, ?_, by rw [e3]; exact hnrm⟩
          rw [envOf_ns he, hns, checkArgs_slacks hw hca]
          exact hσ
        have h1 := mainInit_re σ e i.Δ i.slacks i.ev
        have h2 := mainInit_re (1 : Equiv.Perm (Fin m)) (reorderEnv σ e) i.Δ i.slacks (evRe σ i.ev)
        rw [bareRe_one, evRe_one, h1] at h2
        rw [show (inRe σ i).Δ = i.Δ from rfl, show (inRe σ i).slacks = i.slacks from rfl, show (inRe σ i).ev = evRe σ i.ev from rfl]
        cases h0 : mainInit e i.Δ i.slacks i.ev with
        | none =>
          rw [h0] at h2
          cases ht0 : mainInit (reorderEnv σ e) i.Δ i.slacks (evRe σ i.ev) with
          | none => trivial
          | some t0 => rw [ht0] at h2; cases h2
        | some s0 =>
          rw [h0] at h2
          cases ht0 : mainInit (reorderEnv σ e) i.Δ i.slacks (evRe σ i.ev) with
          | none => rw [ht0] at h2; cases h2
          | some t0 =>
            rw [ht0] at h2
            simp only [Option.map_some, Option.some.injEq] at h2
            dsimp only
            have hl := (mainLoop_reordered hO os s0 t0 h2.symm).mono fun _ _ h => reordered_of_bare h
            cases hr : mainLoop e os s0 <;> cases hr' : mainLoop (reorderEnv σ e) os t0 <;> rw [hr, hr'] at hl <;>
              simp only [MainRes.Both] at hl
            · rename_i s t
              dsimp only
              rw [hl.points, hl.ixbest]
              cases s.ev.X[s.ixbest]? with
              | none => rfl
              | some x => exact ⟨rfl, hl⟩
            · exact hl
            · trivial

/-! ### Kernels -/

/-- Sums over pairs do not depend on the order. -/
theorem sum_re {α β : Type} (σ : Equiv.Perm (Fin m)) (f : α → β → K) (a : List α) (b : List β) (h : a.length = b.length) :
    (List.zipWith f (reorder σ a) (reorder σ b)).sum = (List.zipWith f a b).sum := by
  rw [← reorder_zipWith σ f a b h]
  exact (reorder_perm σ _).sum_eq

/-- **C116, restoration and multipliers.** With the rows of the Jacobian and the constraint values in another order, the length of `A v + c` -
minimised by the restoration step over any set of steps - is the same for every step, and with the multipliers in this order the gradient
of the Lagrangian is the same. -/
theorem C116_step (σ : Equiv.Perm (Fin m)) (A : List (List K)) :
    (∀ c v : List K, A.length = c.length → sqResid (reorder σ A) (reorder σ c) v = sqResid A c v) ∧
    ∀ (g l : List K) (j : ℕ), A.length = l.length → lagrEntry g (reorder σ A) (reorder σ l) j = lagrEntry g A l j := by
  refine ⟨fun c v h => sum_re σ _ A c h, fun g l j h => ?_⟩
  unfold lagrEntry
  rw [sum_re σ _ A l h]

/-- Norms that do not depend on the order: the Euclidean norm, as used by the code, and the maximum norm. -/
theorem C116_norms (σ : Equiv.Perm (Fin m)) (l : List ℝ) :
    Real.sqrt (((reorder σ l).map (· ^ 2)).sum) = Real.sqrt ((l.map (· ^ 2)).sum) ∧
      ((reorder σ l).map fun v => |v|).foldr max 0 = (l.map fun v => |v|).foldr max 0 := by
  constructor
  · rw [((reorder_perm σ l).map _).sum_eq]
  · exact ((reorder_perm σ l).map _).foldr_eq _

namespace Ex

/-- Two constraints `x - 1` and `3 x - 6`, objective `-x`; the constraint values are cut off at `±1e6`. -/
def twoEq : Env ℚ Unit :=
  { env ⟨fun _ x => .num (.fin (-x.sum)),
      some fun _ x => .nums [.fin (max (-10 ^ 6) (min (10 ^ 6) (x.sum - 1))), .fin (max (-10 ^ 6) (min (10 ^ 6) (3 * x.sum - 6)))]⟩ .pinf .pinf with
    me := 2
    model := fun _ _ _ ceY => ⟨[1], [ceY.map fun c => c.getD 0 0, ceY.map fun c => c.getD 1 0]⟩ }

/-- The exchange of the two. -/
def exch : Equiv.Perm (Fin 2) := Equiv.swap 0 1

theorem nrm1_re (σ : Equiv.Perm (Fin m)) (l : List ℚ) : nrm1 (reorder σ l) = nrm1 l := ((reorder_perm σ l).map _).sum_eq

theorem exch_two (a b : α) : reorder exch [a, b] = [b, a] := rfl

theorem twoEq_ok : OrderOk exch twoEq := ⟨rfl, fun i h => absurd i.2 (by simp only [twoEq, env] at h; omega), fun l _ => nrm1_re exch l⟩

theorem twoEq_tame : twoEq.Tame := by
  have hb : ∀ q : ℚ, |max (-10 ^ 6) (min (10 ^ 6) q)| < 10 ^ 25 := by
    intro q
    rw [abs_lt]
    exact ⟨lt_of_lt_of_le (by norm_num) (le_max_left _ _), lt_of_le_of_lt (max_le (by norm_num) (min_le_left _ _)) (by norm_num : (10 : ℚ) ^ 6 < _)⟩
  refine ⟨by decide, ?_⟩
  intro c hc w y vs hv v hm
  simp only [twoEq, env, Option.some.injEq] at hc
  subst hc
  simp only [COut.nums.injEq] at hv
  subst hv
  simp only [List.mem_cons, List.not_mem_nil, or_false] at hm
  rcases hm with rfl | rfl
  · exact Or.inr ⟨_, rfl, hb _⟩
  · exact Or.inr ⟨_, rfl, hb _⟩

theorem twoEq_constr : twoEq.Constr := by
  refine ⟨fun h => (by cases h), ?_⟩
  intro c hc w y vs hv
  simp only [twoEq, env, Option.some.injEq] at hc
  subst hc
  simp only [COut.nums.injEq] at hv
  subst hv
  rfl

/-- C116 is not void: the runs for the constraints in both orders, with a rejected and an accepted step. -/
example : OrderOk exch twoEq ∧
    look twoEq [0] [stepC [5] 1, stepC [1] 1] none (fun _ => none) (fun t => some (t.x, t.infoCe, t.ev.ceX)) (fun _ => none) =
      some ([1], [0, -3],
        [[.fin (-1), .fin (-6)], [.fin (-2), .fin (-9)], [.fin 4, .fin 9], [.fin 0, .fin (-3)]]) ∧
    look (reorderEnv exch twoEq) [0] [stepC [5] 1, stepC [1] 1] none (fun _ => none) (fun t => some (t.x, t.infoCe, t.ev.ceX))
        (fun _ => none) =
      some ([1], [-3, 0],
        [[.fin (-6), .fin (-1)], [.fin (-9), .fin (-2)], [.fin 9, .fin 4], [.fin (-3), .fin 0]]) :=
  ⟨twoEq_ok, by decide +kernel, by decide +kernel⟩

/-- The hypotheses of `C116_kernels` hold for models computed row by row and kernels that use lengths of vectors. -/
example : ∃ s0, Starts twoEq [0] 1 1 [] s0 ∧ twoEq.Tame ∧ OrderOk exch twoEq ∧
    (∀ (Y : List (List ℚ)) (x : List ℚ) (fY : List ℚ) (ceY : List (List ℚ)), fY.length = Y.length → ceY.length = Y.length →
      (∀ c ∈ ceY, c.length = 2) → Y[0]? = some x →
      twoEq.model (twoEq.build Y) x fY (ceY.map (reorder exch)) = reorderG exch (twoEq.model (twoEq.build Y) x fY ceY)) ∧
    ∀ s t : MSt ℚ Unit, ReorderedBy exch s t → t.infoG = reorderG exch s.infoG →
      stepC (s.x.map (· + 1 / nrm1 s.infoCe)) (nrm1 (s.infoG.a.map nrm1)) = stepC (t.x.map (· + 1 / nrm1 t.infoCe)) (nrm1 (t.infoG.a.map nrm1)) := by
  have h : (start twoEq [0]).isSome = true := by decide +kernel
  obtain ⟨s0, hs⟩ := Option.isSome_iff_exists.1 h
  refine ⟨s0, ⟨⟨nrm1_nonneg, descOrder_sorted⟩, twoEq_constr, rfl, one_pos, hs⟩, twoEq_tame, twoEq_ok, ?_, ?_⟩
  · intro Y x fY ceY _ _ hc _
    show (⟨[1], [(ceY.map (reorder exch)).map fun c => c.getD 0 0, (ceY.map (reorder exch)).map fun c => c.getD 1 0]⟩ : Grads ℚ) =
      ⟨[1], reorder exch [ceY.map fun c => c.getD 0 0, ceY.map fun c => c.getD 1 0]⟩
    rw [exch_two, List.map_map, List.map_map]
    have h2 : ∀ c ∈ ceY, ∃ a b, c = [a, b] := fun c h => List.length_eq_two.1 (hc c h)
    congr 2
    · refine List.map_congr_left fun c h => ?_
      obtain ⟨a, b, rfl⟩ := h2 c h
      rfl
    · congr 1
      refine List.map_congr_left fun c h => ?_
      obtain ⟨a, b, rfl⟩ := h2 c h
      rfl
  · intro s t h hg
    rw [h.x, h.infoCe, hg, nrm1_re]
    simp only [reorderG, ← reorder_map, nrm1_re]

/-- Constraint values `(x, 4)` with a slack for the second one, objective `-x`. -/
def ordEnv : Env ℚ Unit :=
  { env ⟨fun _ x => .num (.fin (-x.sum)), some fun _ x => .nums [.fin x.sum, .fin 4]⟩ .pinf .pinf with me := 2, ns := 1 }

/-- The point after one pass with slacks. -/
def ordRun (e : Env ℚ Unit) (sl slplus : List ℚ) (x : List ℚ) : Option (List ℚ) :=
  match startState e [0] 1 1 sl with
  | none => none
  | some s => match mainLoop e [{ stepC x 1 with slplus := slplus }] s with
    | .running t => some t.x
    | _ => none

/-- Constraints with slacks must stay in place: with the values of `ordEnv` exchanged, a step is accepted that is not accepted otherwise. -/
theorem C116_slacks_stay : ordRun ordEnv [2] [2] [1] = some [0] ∧ ordRun (reorderEnv exch ordEnv) [2] [2] [1] = some [1] :=
  ⟨by decide +kernel, by decide +kernel⟩

/-- Arguments with two equality constraints. -/
def twoArgs : Args ℚ := { Ex.wArgs Ex.wThree with me := 2, c := .fn }

/-- A call with two equality constraints, in both orders: the hypotheses of `C116_call` are met, and the calls return a point. -/
example (os : List (Orc ℚ Unit)) :
    (call Ex.wKern twoEq.U 1 os twoArgs Ex.wPlain .fresh).Both (ReorderedBy exch) (call Ex.wKern (reorderUser exch twoEq.U) 1 os twoArgs Ex.wPlain .fresh) := by
  have hw := Ex.wArgs_wellFormed _ Ex.wThree_typed
  refine C116_call Ex.wKern twoEq.U ⟨twoEq_constr.none, twoEq_constr.some⟩ exch 1 os twoArgs
    ⟨hw.f, (by intro h; cases h), hw.opts, (by intro l h; cases h), (by intro l h; cases h), hw.data, hw.lb, hw.ub⟩ Ex.wPlain .fresh
    (fun l _ => nrm1_re exch l) fun i h => ?_
  exact absurd i.2 (by simp only [slackNumber, twoArgs, Ex.wArgs, Globals.fresh, if_true] at h; omega)

example : Ex.wSummary (call Ex.wKern twoEq.U 1 ([1, 2, 3, 4].map fun j => stepC [j] 1) twoArgs Ex.wPlain .fresh) = some (5, 3, 5, [2]) ∧
    Ex.wSummary (call Ex.wKern (reorderUser exch twoEq.U) 1 ([1, 2, 3, 4].map fun j => stepC [j] 1) twoArgs Ex.wPlain .fresh) =
      some (5, 3, 5, [2]) := by decide +kernel

end Ex
end Sqpdfo

#print axioms Sqpdfo.C116_loop
#print axioms Sqpdfo.C116_kernels
#print axioms Sqpdfo.C116_call
#print axioms Sqpdfo.C116_step
#print axioms Sqpdfo.C116_norms
#print axioms Sqpdfo.Ex.C116_slacks_stay
