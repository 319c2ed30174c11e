import Verif.Lemmas.MainSigns
import Verif.Props.C116_Order

/-! # C121: the sign of the equality constraints does not matter -/

set_option linter.unusedSectionVars false

namespace Sqpdfo
open Spec
variable {K F : Type} [Field K] [LinearOrder K] [IsStrictOrderedRing K] {m : ℕ}

theorem calm_of {e : Env K F} {x0 : List K} {fuel : ℕ} {Δ : K} {sl : List K} {s0 : MSt K F} (H : Starts e x0 fuel Δ sl s0) (hT : e.Tame)
    (ε : List Bool) (os : List (Orc K F)) (t : MSt K F) (h : mainLoop e os s0 = .running t) : CalmSt ε e t := by
  have hp : ∀ o s, (Inv e [] s ∧ Ce e [] s) → (pass e o s).Sat (fun s => Inv e [] s ∧ Ce e [] s) (fun _ => True) (fun _ => True) := by
    rintro o s ⟨hI, hc⟩
    exact ((pass_sat e H.ok o s hI).and (pass_ce H.ok H.constr hT o s hc hI)).mono
      (fun _ h => ⟨h.1.1, h.2⟩) (fun _ _ => trivial) (fun _ _ => trivial)
  have key := mainLoop_induct e _ _ _ hp os s0 ⟨H.started.1, startState_ce H.constr hT x0 fuel Δ sl s0 H.state⟩
  rw [h] at key
  exact Or.inr ⟨H.ok, H.constr, hT, key.2, key.1⟩

/-- **C121, main loop.** With the same kernel results, the run for constraints some of which have the other sign (none with a slack; the norm
does not depend on signs) passes through the same points, decisions, counters, radii, penalty parameters, slacks and statuses, with the marked
constraint values of the other sign, and ends in the same way.  (This includes the initial sampling.)

The full property is without `e.Tame`, that is with constraint values of size `1e25` and more.  `C121_huge_false` shows that it is false. -/
theorem C121_loop_partial {e : Env K F} {x0 : List K} {fuel : ℕ} {Δ : K} {sl : List K} {s0 : MSt K F} (H : Starts e x0 fuel Δ sl s0)
    (hT : e.Tame) (ε : List Bool) (h : SignOk ε e) :
    ∃ t0, startState (signEnv ε e) x0 fuel Δ sl = some t0 ∧
      ∀ os : List (Orc K F), (mainLoop e os s0).Both (SignedBy ε) (mainLoop (signEnv ε e) os t0) := by
  obtain ⟨t0, ht, h0⟩ := (startState_signed ε e ⟨H.constr, hT⟩ x0 fuel Δ sl).2 s0 H.state
  exact ⟨t0, ht, fun os => (mainLoop_signed h os s0 t0 (calm_of H hT ε [] s0 rfl) h0).mono fun _ _ h => signed_of_bare h⟩

/-- **C121, start.** If the initial sampling does not lead to the main loop, it does not with the other signs either. -/
theorem C121_start (e : Env K F) (hC : e.Constr) (hT : e.Tame) (ε : List Bool) (x0 : List K) (fuel : ℕ) (Δ : K) (sl : List K)
    (h : startState e x0 fuel Δ sl = none) : startState (signEnv ε e) x0 fuel Δ sl = none :=
  (startState_signed ε e ⟨hC, hT⟩ x0 fuel Δ sl).1 h

/-- **C121, kernels.** The same with kernels that are functions of the state: if values of the other sign give constraint gradients of the
other sign and the other kernels do not depend on the signs, the two runs stay together, with the marked gradients of the other sign. -/
theorem C121_kernels {e : Env K F} {x0 : List K} {fuel : ℕ} {Δ : K} {sl : List K} {s0 : MSt K F} (H : Starts e x0 fuel Δ sl s0)
    (hT : e.Tame) (ε : List Bool) (h : SignOk ε e)
    (hmodel : ∀ (Y : List (List K)) (x : List K) (fY : List K) (ceY : List (List K)), fY.length = Y.length → ceY.length = Y.length →
      (∀ c ∈ ceY, c.length = e.me) → Y[0]? = some x →
      e.model (e.build Y) x fY (ceY.map (signed ε)) = signG ε (e.model (e.build Y) x fY ceY))
    (kern : MSt K F → Orc K F)
    (hk : ∀ s t, SignedBy ε s t → t.infoG = signG ε s.infoG → kern t = kern s) :
    ∃ t0, startState (signEnv ε e) x0 fuel Δ sl = some t0 ∧
      ∀ n, (play e kern n s0).Both (fun s t => SignedBy ε s t ∧ t.infoG = signG ε s.infoG) (play (signEnv ε e) kern n t0) := by
  obtain ⟨t0, ht0, h0⟩ := (startState_signed ε e ⟨H.constr, hT⟩ x0 fuel Δ sl).2 s0 H.state
  refine ⟨t0, ht0, ?_⟩
  have hgrad : ∀ (os : List (Orc K F)) (s t : MSt K F), (mainLoop e os s0 = .running s ∨ mainLoop e os s0 = .done s) →
      (mainLoop (signEnv ε e) os t0 = .running t ∨ mainLoop (signEnv ε e) os t0 = .done t) → SignedBy ε s t →
      t.infoG = signG ε s.infoG := by
    intro os s t hs ht h'
    obtain ⟨g1, g2, g3, g4, -⟩ := C72_gradients H os s hs
    obtain ⟨c1, c2⟩ := ce_shape H hT os s hs
    have hf := mainLoop_fresh (signEnv ε e) os t0 (startState_fresh (signEnv ε e) x0 fuel Δ sl t0 ht0) t ht
    rw [hf.info, hf.gx, h'.fac, h'.x, h'.fY, h'.ceY, g1, g3]
    exact hmodel _ _ _ _ g4 c1 c2 g2
  have key : ∀ (n : ℕ) (os : List (Orc K F)) (s t : MSt K F), mainLoop e os s0 = .running s →
      mainLoop (signEnv ε e) os t0 = .running t → stSg [] t = stSg ε s →
      (play e kern n s).Both (fun s t => SignedBy ε s t ∧ t.infoG = signG ε s.infoG) (play (signEnv ε e) kern n t) := by
    intro n
    induction n with
    | zero => intro os s t hs ht h'; exact ⟨signed_of_bare h', hgrad os s t (Or.inl hs) (Or.inl ht) (signed_of_bare h')⟩
    | succ n ih =>
      intro os s t hs ht h'
      have hg := hgrad os s t (Or.inl hs) (Or.inl ht) (signed_of_bare h')
      have hp := mainLoop_signed h [kern s] s t (calm_of H hT ε os s hs) h'
      have hs' := mainLoop_snoc e os (kern s) s0 s hs
      have ht' := mainLoop_snoc (signEnv ε e) os (kern s) t0 t ht
      simp only [mainLoop] at hs' ht' hp
      simp only [play, hk s t (signed_of_bare h') hg]
      cases hr : pass e (kern s) s <;> cases hr' : pass (signEnv ε e) (kern s) t <;>
        rw [hr, hr'] at hp <;> simp only [MainRes.Both] at hp <;> rw [hr] at hs' <;> rw [hr'] at ht'
      · exact ih _ _ _ hs' ht' hp
      · exact ⟨signed_of_bare hp, hgrad _ _ _ (Or.inr hs') (Or.inr ht') (signed_of_bare hp)⟩
      · exact hp
  exact fun n => key n [] s0 t0 rfl rfl h0

/-! ### Whole calls -/

/-- The data for the main part with constraint values with other signs. -/
def inSg (ε : List Bool) (i : MainIn K) : MainIn K := { i with ev := evSg ε i.ev }

/-- The result of the set-up with constraint values with other signs. -/
def SetupRes.sg (ε : List Bool) : SetupRes K → SetupRes K
  | .go i => .go (inSg ε i)
  | r => r

theorem setupVia_sg (ε : List Bool) (I : List K → K → InitRes K) (sqrt : K → K) (a : Args K) (g : Globals K)
    (hI : ∀ x D D' s ub, I x D = .done D' s → ∀ r c x0 l u g', checkArgs a g = (.ok r c x0 l u, g') →
      initSlacks sqrt g'.nbrSlacks (firstCe (evSg ε s)) ub = initSlacks sqrt g'.nbrSlacks (firstCe s) ub) :
    setupVia (fun x Δ => (I x Δ).map (evSg ε)) sqrt a g =
      { setupVia I sqrt a g with res := (setupVia I sqrt a g).res.sg ε } := by
  unfold setupVia
  split
  · rfl
  · rfl
  · rename_i r c x0 l u g' hca
    split
    · rfl
    · rfl
    · dsimp only
      split
      · rfl
      split
      · rfl
      split
      · split
        · rfl
        · rfl
        · rename_i D ys hb
          split
          · rfl
          cases hr : I (ys.map (·.1)) D with
          | crash => rfl
          | running => rfl
          | failed s => rfl
          | stalled s => rfl
          | done D s =>
            simp only [InitRes.map]
            split
            · rw [hI _ _ _ _ _ hr _ _ _ _ _ _ hca]
              split
              · rfl
              · rfl
            · rfl
      · rfl

theorem evSg_nil {P : Type} (s : EvSt P K) : evSg [] s = s := by
  unfold evSg
  rw [map_signed_nil]

theorem initSlacks_sg {ε : List Bool} (ns : ℕ) (hε : ∀ i, ε[i]? = some true → i + ns < ε.length) (sqrt : K → K) (ce ub : List K) :
    initSlacks sqrt ns (signed ε ce) ub = initSlacks sqrt ns ce ub := by
  unfold initSlacks
  congr 1
  funext i
  rw [signed_length]
  have : (signed ε ce)[ce.length - ns + i]? = ce[ce.length - ns + i]? := by
    rw [signed_get]
    cases ce[ce.length - ns + i]? with
    | none => rfl
    | some v =>
      rw [Option.map_some, if_neg]
      rintro ⟨h1, h2⟩
      have := hε _ h2
      omega
  rw [this]

theorem firstCe_sg (ε : List Bool) (U : User (List K) K) (hC : Counts U m) (x0 : List K) (nx : K) (N : ℕ) (Δ D : K)
    (ev : EvSt (List K) K) (h : initLoop U x0 nx N Δ emptyEv = .done D ev) : firstCe (evSg ε ev) = signed ε (firstCe ev) := by
  have h2 := initLoop_cols U m hC x0 nx N Δ D emptyEv ev h
  unfold firstCe
  rw [show (evSg ε ev).ceX = ev.ceX.map (signed ε) from rfl]
  cases hce : ev.ceX with
  | nil => exact (List.eq_nil_of_length_eq_zero (signed_length ε ([] : List K))).symm
  | cons c cs =>
    have hcol := (h2 c (by rw [hce]; simp)).2
    have key : ∀ l : List (Fl K), (∀ v ∈ l, ∃ q, v = Fl.fin q) → ∃ k : List K, l = k.map Fl.fin := by
      intro l
      induction l with
      | nil => intro _; exact ⟨[], rfl⟩
      | cons v l ih =>
        intro h
        obtain ⟨q, rfl⟩ := h v List.mem_cons_self
        obtain ⟨k, rfl⟩ := ih fun w hw => h w (List.mem_cons_of_mem _ hw)
        exact ⟨q :: k, rfl⟩
    obtain ⟨k, rfl⟩ := key c hcol
    have hk : signed ε (k.map Fl.fin) = (signed ε k).map Fl.fin := signed_map Fl.fin (fun _ => rfl) ε k
    simp only [List.map_cons, hk, List.filterMap_map]
    have : ∀ l : List K, l.filterMap ((fun v : Fl K => match v with | .fin q => some q | _ => none) ∘ Fl.fin) = l := by
      intro l
      induction l with
      | nil => rfl
      | cons q l ih => rw [List.filterMap_cons]; simp only [Function.comp]; congr 1
    exact (this _).trans (congrArg (signed ε) (this _).symm)

theorem ceRows_sg (ε : List Bool) (ev : EvSt (List K) K) : ceRows (evSg ε ev) = ceRows ev := by
  unfold ceRows
  rw [show (evSg ε ev).ceX = ev.ceX.map (signed ε) from rfl]
  cases ev.ceX with
  | nil => rfl
  | cons c cs => exact signed_length ε c

theorem prelimRaise_sg (ε : List Bool) (ex : Extra) (i : MainIn K) : prelimRaise ex (inSg ε i) = prelimRaise ex i := by
  unfold prelimRaise
  rw [show (inSg ε i).ev = evSg ε i.ev from rfl, ceRows_sg]
  rfl

theorem envOf_sg (k : Kernels K F) (U : User (List K) K) (ε : List Bool) (ex : Extra) (i : MainIn K) :
    envOf k (signUser ε U) ex (inSg ε i) = (envOf k U ex i).map (signEnv ε) := by
  unfold envOf
  rw [show (inSg ε i).opts = i.opts from rfl, show (inSg ε i).ev = evSg ε i.ev from rfl, ceRows_sg]
  split
  · rfl
  · rfl

/-- **C121, whole calls.** For a constraint function with `m` values smaller than `1e25`: a call with the other sign of some of them (none
with a slack; the norm does not depend on signs) ends in the same way as the original call - same status and calls after an early return,
same exception, or same returned point and same recorded data with the other sign of the marked constraint values. -/
theorem C121_call_partial (k : Kernels K F) (hn : ∀ v, 0 ≤ k.nrm v) (ho : ∀ d, SortedDesc d (k.order d)) (U : User (List K) K) (hm : 0 < m)
    (hC : Counts U m) (hsmall : ∀ c, U.c = some c → ∀ w y vs, c w y = .nums vs → ∀ v ∈ vs, v = .nan ∨ ∃ q : K, v = .fin q ∧ |q| < 10 ^ 25)
    (ε : List Bool) (fuel : ℕ) (os : List (Orc K F)) (a : Args K) (hw : WellFormed a) (ex : Extra) (g : Globals K)
    (hnrm : ∀ l : List K, k.nrm (signed ε l) = k.nrm l)
    (hε : ∀ i, ε[i]? = some true → i + slackNumber a g < m ∧ ε.length = m) :
    (call k U fuel os a ex g).Both (SignedBy ε) (call k (signUser ε U) fuel os a ex g) := by
  have hs : setup (signUser ε U) k.sqrt k.nrm fuel a g =
      { setup U k.sqrt k.nrm fuel a g with res := (setup U k.sqrt k.nrm fuel a g).res.sg ε } := by
    rw [setup_via, setup_via, ← setupVia_sg]
    · congr 1
      funext x D
      have h := initLoop_sg ε (bareEnv k U m) (Or.inr ⟨⟨hC.none, hC.some⟩, hm, hsmall⟩) x (k.nrm x) fuel D emptyEv rfl
      rw [show evSg ε (emptyEv : EvSt (List K) K) = emptyEv from rfl] at h
      exact h
    · intro x D D' s ub hd r c x0 l u g' hca
      rw [firstCe_sg ε U hC _ _ _ _ _ _ hd, initSlacks_sg _ fun i hi => by
        obtain ⟨h1, h2⟩ := hε i hi
        rw [checkArgs_slacks hw hca, h2]; exact h1]
  unfold call
  rw [hs]
  dsimp only
  cases hi : (setup U k.sqrt k.nrm fuel a g).res with
  | ret fl => exact ⟨rfl, rfl⟩
  | crash => trivial
  | running => trivial
  | go i =>
    obtain ⟨⟨x, D, D', hd⟩, r, c, x0, l, u, g', hca, hns⟩ := setup_init U _ _ _ _ _ i hi
    show (runMain k U ex os i).Both (SignedBy ε) (runMain k (signUser ε U) ex os (inSg ε i))
    unfold runMain
    rw [envOf_sg, prelimRaise_sg]
    cases prelimRaise ex i with
    | some r => trivial
    | none =>
      dsimp only
      cases he : envOf k U ex i with
      | none => trivial
      | some e =>
        simp only [Option.map_some]
        obtain ⟨-, -, -, -, -, -, -, -, e2, e3, -, e5, -⟩ := envOf_some he
        have hme : e.me = m := by rw [e2]; exact ceRows_eq k U m hC _ _ _ _ _ _ hd
        have hO : SignOk ε e := by
          refine ⟨?_, by rw [e3]; exact hnrm⟩
          rw [envOf_ns he, hns, checkArgs_slacks hw hca, hme]
          exact hε
        have h1 := mainInit_sg ε e i.Δ i.slacks i.ev
        have h2 := mainInit_sg [] (signEnv ε e) i.Δ i.slacks (evSg ε i.ev)
        rw [bareSg_nil, evSg_nil, h1] at h2
        rw [show (inSg ε i).Δ = i.Δ from rfl, show (inSg ε i).slacks = i.slacks from rfl, show (inSg ε i).ev = evSg ε i.ev from rfl]
        cases h0 : mainInit e i.Δ i.slacks i.ev with
        | none =>
          rw [h0] at h2
          cases ht0 : mainInit (signEnv ε e) i.Δ i.slacks (evSg ε i.ev) with
          | none => trivial
          | some t0 => rw [ht0] at h2; cases h2
        | some s0 =>
          rw [h0] at h2
          cases ht0 : mainInit (signEnv ε e) i.Δ i.slacks (evSg ε i.ev) with
          | none => rw [ht0] at h2; cases h2
          | some t0 =>
            rw [ht0] at h2
            simp only [Option.map_some, Option.some.injEq] at h2
            dsimp only
            obtain ⟨x', Δ', H, -⟩ := call_starts k hn ho U m hC fuel a ex g hw i hi e he s0 h0
            have hcalm : CalmSt ε e s0 := calm_of H ⟨by rw [hme]; exact hm, by rw [e5]; exact hsmall⟩ ε [] s0 rfl
            have hl := (mainLoop_signed hO os s0 t0 hcalm h2.symm).mono fun _ _ h => signed_of_bare h
            cases hr : mainLoop e os s0 <;> cases hr' : mainLoop (signEnv ε e) os t0 <;> rw [hr, hr'] at hl <;>
              simp only [MainRes.Both] at hl
            · rename_i s t
              dsimp only
              rw [hl.points, hl.ixbest]
              cases s.ev.X[s.ixbest]? with
              | none => rfl
              | some x => exact ⟨rfl, hl⟩
            · exact hl
            · trivial

/-! ### Kernels -/

/-- **C121, restoration and multipliers.** With rows of the Jacobian and constraint values of the other sign, the length of `A v + c` -
minimised by the restoration step over any set of steps - is the same for every step, and with these multipliers of the other sign the
gradient of the Lagrangian is the same. -/
theorem C121_step (ε : List Bool) (G : Grads K) :
    (∀ c v : List K, G.a.length = c.length → sqResid (signG ε G).a (signed ε c) v = sqResid G.a c v) ∧
    ∀ (l : List K) (j : ℕ), G.a.length = l.length → lagrEntry G.g (signG ε G).a (signed ε l) j = lagrEntry G.g G.a l j := by
  have hneg : ∀ r v : List K, (List.zipWith (· * ·) (r.map (- ·)) v).sum = -(List.zipWith (· * ·) r v).sum := by
    intro r
    induction r with
    | nil => intro v; simp
    | cons q r ih =>
      intro v
      cases v with
      | nil => simp
      | cons w v =>
        simp only [List.map_cons, List.zipWith_cons_cons, List.sum_cons, ih]
        ring
  have key : ∀ (f : List K → K → K), (∀ r q, f (r.map (- ·)) (-q) = f r q) → ∀ (A : List (List K)) (c : List K) (ε : List Bool),
      (List.zipWith f (List.zipWith (fun b r => if b then r.map (- ·) else r) ε A)
        (List.zipWith (fun b v => if b then -v else v) ε c)) = List.zipWith f (A.take ε.length) (c.take ε.length) := by
    intro f hf A
    induction A with
    | nil => intro c ε; simp
    | cons r A ih =>
      intro c ε
      cases ε with
      | nil => simp
      | cons b ε =>
        cases c with
        | nil => simp
        | cons q c =>
          simp only [List.zipWith_cons_cons, List.length_cons, List.take_succ_cons, ih]
          congr 1
          cases b
          · rfl
          · exact hf r q
  have main : ∀ (f : List K → K → K), (∀ r q, f (r.map (- ·)) (-q) = f r q) → ∀ c : List K, G.a.length = c.length →
      List.zipWith f (signG ε G).a (signed ε c) = List.zipWith f G.a c := by
    intro f hf c hc
    unfold signG signed
    dsimp only
    by_cases h : G.a.length = ε.length
    · rw [if_pos h, if_pos (hc ▸ h), key f hf, ← h, List.take_length, hc, List.take_length]
    · rw [if_neg h, if_neg (hc ▸ h)]
  refine ⟨fun c v h => ?_, fun l j h => ?_⟩
  · unfold sqResid
    rw [main _ _ c h]
    intro r q
    rw [hneg]; ring
  · unfold lagrEntry
    rw [main _ _ l h]
    intro r q
    rw [List.getD_eq_getElem?_getD, List.getElem?_map, List.getD_eq_getElem?_getD]
    cases r[j]? <;> simp

/-- Norms that do not depend on signs: the Euclidean norm, as used by the code, and the maximum norm. -/
theorem C121_norms (ε : List Bool) (l : List ℝ) :
    Real.sqrt (((signed ε l).map (· ^ 2)).sum) = Real.sqrt ((l.map (· ^ 2)).sum) ∧
      ((signed ε l).map fun v => |v|).foldr max 0 = (l.map fun v => |v|).foldr max 0 := by
  have key : ∀ f : ℝ → ℝ, (∀ v, f (-v) = f v) → (signed ε l).map f = l.map f := by
    intro f hf
    refine List.ext_getElem? fun i => ?_
    rw [List.getElem?_map, List.getElem?_map, signed_get]
    cases l[i]? with
    | none => rfl
    | some v =>
      simp only [Option.map_some]
      split
      · rw [hf]
      · rfl
  exact ⟨by rw [key _ fun v => by ring], by rw [key _ abs_neg]⟩

namespace Ex

theorem nrm1_sg (ε : List Bool) (l : List ℚ) : nrm1 (signed ε l) = nrm1 l := by
  unfold nrm1
  congr 1
  refine List.ext_getElem? fun i => ?_
  rw [List.getElem?_map, List.getElem?_map, signed_get]
  cases l[i]? with
  | none => rfl
  | some v =>
    simp only [Option.map_some]
    split
    · rw [abs_neg]
    · rfl

theorem twoEq_signs : SignOk [false, true] twoEq := by
  refine ⟨fun i h => ?_, nrm1_sg _⟩
  rcases i with _ | _ | i
  · cases h
  · exact ⟨by decide, rfl⟩
  · simp at h

/-- C121 is not void: the runs for the constraints `x - 1`, `3 x - 6` and `x - 1`, `6 - 3 x`, with a rejected and an accepted step. -/
example : (∃ s0, Starts twoEq [0] 1 1 [] s0) ∧ twoEq.Tame ∧ SignOk [false, true] twoEq ∧
    look twoEq [0] [stepC [5] 1, stepC [1] 1] none (fun _ => none) (fun t => some (t.x, t.infoCe, t.ev.ceX)) (fun _ => none) =
      some ([1], [0, -3],
        [[.fin (-1), .fin (-6)], [.fin (-2), .fin (-9)], [.fin 4, .fin 9], [.fin 0, .fin (-3)]]) ∧
    look (signEnv [false, true] twoEq) [0] [stepC [5] 1, stepC [1] 1] none (fun _ => none) (fun t => some (t.x, t.infoCe, t.ev.ceX))
        (fun _ => none) =
      some ([1], [0, 3],
        [[.fin (-1), .fin 6], [.fin (-2), .fin 9], [.fin 4, .fin (-9)], [.fin 0, .fin 3]]) := by
  have h : (start twoEq [0]).isSome = true := by decide +kernel
  obtain ⟨s0, hs⟩ := Option.isSome_iff_exists.1 h
  exact ⟨⟨s0, ⟨nrm1_nonneg, descOrder_sorted⟩, twoEq_constr, rfl, one_pos, hs⟩, twoEq_tame, twoEq_signs, by decide +kernel, by decide +kernel⟩

/-- The hypotheses of `C121_kernels` hold for models computed row by row and kernels that use lengths of vectors. -/
example : (∀ (Y : List (List ℚ)) (x : List ℚ) (fY : List ℚ) (ceY : List (List ℚ)), fY.length = Y.length → ceY.length = Y.length →
      (∀ c ∈ ceY, c.length = twoEq.me) → Y[0]? = some x →
      twoEq.model (twoEq.build Y) x fY (ceY.map (signed [false, true])) = signG [false, true] (twoEq.model (twoEq.build Y) x fY ceY)) ∧
    ∀ s t : MSt ℚ Unit, SignedBy [false, true] s t → t.infoG = signG [false, true] s.infoG →
      stepC (t.x.map (· + 1 / nrm1 t.infoCe)) (nrm1 t.infoG.g) = stepC (s.x.map (· + 1 / nrm1 s.infoCe)) (nrm1 s.infoG.g) := by
  constructor
  · intro Y x fY ceY _ _ hc _
    show (⟨[1], [(ceY.map (signed [false, true])).map fun c => c.getD 0 0, (ceY.map (signed [false, true])).map fun c => c.getD 1 0]⟩ : Grads ℚ) =
      ⟨[1], [ceY.map fun c => c.getD 0 0, (ceY.map fun c => c.getD 1 0).map (- ·)]⟩
    rw [List.map_map, List.map_map, List.map_map]
    have h2 : ∀ c ∈ ceY, ∃ a b, c = [a, b] := fun c h => List.length_eq_two.1 (hc c h)
    congr 2
    · refine List.map_congr_left fun c h => ?_
      obtain ⟨a, b, rfl⟩ := h2 c h
      rfl
    · congr 1
      refine List.map_congr_left fun c h => ?_
      obtain ⟨a, b, rfl⟩ := h2 c h
      rfl
  · intro s t h hg
    rw [h.x, h.infoCe, hg, nrm1_sg]
    rfl

/-- A call with two equality constraints and the second of the other sign: the hypotheses of `C121_call_partial` are met, and the calls
return a point. -/
example (os : List (Orc ℚ Unit)) :
    (call Ex.wKern twoEq.U 1 os twoArgs Ex.wPlain .fresh).Both (SignedBy [false, true])
      (call Ex.wKern (signUser [false, true] twoEq.U) 1 os twoArgs Ex.wPlain .fresh) := by
  have hw := Ex.wArgs_wellFormed _ Ex.wThree_typed
  refine C121_call_partial (m := 2) Ex.wKern nrm1_nonneg descOrder_sorted twoEq.U (by decide) ⟨twoEq_constr.none, twoEq_constr.some⟩ twoEq_tame.small
    [false, true] 1 os twoArgs
    ⟨hw.f, (by intro h; cases h), hw.opts, (by intro l h; cases h), (by intro l h; cases h), hw.data, hw.lb, hw.ub⟩ Ex.wPlain .fresh
    (nrm1_sg _) fun i h => ?_
  have hz : slackNumber twoArgs (Globals.fresh : Globals ℚ) = 0 := by simp [slackNumber, twoArgs, Ex.wArgs, Globals.fresh]
  rw [hz]
  exact twoEq_signs.free i h

example : Ex.wSummary (call Ex.wKern twoEq.U 1 ([1, 2, 3, 4].map fun j => stepC [j] 1) twoArgs Ex.wPlain .fresh) = some (5, 3, 5, [2]) ∧
    Ex.wSummary (call Ex.wKern (signUser [false, true] twoEq.U) 1 ([1, 2, 3, 4].map fun j => stepC [j] 1) twoArgs Ex.wPlain .fresh) =
      some (5, 3, 5, [2]) := by decide +kernel

/-- Two constraints, the first violated beyond `1e25` at `1` and nowhere else, the second `x - 2`; objective `-x`. -/
def hugeEq : Env ℚ Unit :=
  { env ⟨fun _ x => .num (.fin (-x.sum)), some fun _ x => .nums [if x.sum = 1 then .pinf else .fin 0, .fin (x.sum - 2)]⟩ .pinf .pinf with me := 2 }

theorem hugeEq_signs : SignOk [false, true] hugeEq := ⟨fun i h => twoEq_signs.free i h, nrm1_sg _⟩

theorem hugeEq_constr : hugeEq.Constr := by
  refine ⟨fun h => (by cases h), ?_⟩
  intro c hc w y vs hv
  simp only [hugeEq, env, Option.some.injEq] at hc
  subst hc
  simp only [COut.nums.injEq] at hv
  subst hv
  rfl

end Ex

/-- **C121 is false for huge values.** A value of `1e25` and more is replaced by ten times the largest smaller value of all constraints, which
depends on the signs: with `x - 2` the step to `1` is accepted (the violation there counts as 0), with `2 - x` it is not (it counts as 30). -/
theorem C121_huge_false : ¬ ∀ (e : Env ℚ Unit) (ε : List Bool) (s0 t0 : MSt ℚ Unit), SignOk ε e → Starts e [0] 1 1 [] s0 →
    startState (signEnv ε e) [0] 1 1 [] = some t0 → ∀ os, (mainLoop e os s0).Both (SignedBy ε) (mainLoop (signEnv ε e) os t0) := by
  intro h
  have h1 : (Ex.start Ex.hugeEq [0]).isSome = true := by decide +kernel
  have h2 : (Ex.start (signEnv [false, true] Ex.hugeEq) [0]).isSome = true := by decide +kernel
  obtain ⟨s0, hs⟩ := Option.isSome_iff_exists.1 h1
  obtain ⟨t0, ht⟩ := Option.isSome_iff_exists.1 h2
  have key := h Ex.hugeEq [false, true] s0 t0 Ex.hugeEq_signs ⟨⟨Ex.nrm1_nonneg, Ex.descOrder_sorted⟩, Ex.hugeEq_constr, rfl, one_pos, hs⟩ ht [Ex.stepC [1] 1]
  have e1 : Ex.look Ex.hugeEq [0] [Ex.stepC [1] 1] none (fun _ => none) (fun t => some t.x) (fun _ => none) = some [1] := by decide +kernel
  have e2 : Ex.look (signEnv [false, true] Ex.hugeEq) [0] [Ex.stepC [1] 1] none (fun _ => none) (fun t => some t.x) (fun _ => none) = some [0] := by
    decide +kernel
  unfold Ex.look at e1 e2
  rw [hs] at e1
  rw [ht] at e2
  cases hr : mainLoop Ex.hugeEq [Ex.stepC [1] 1] s0 <;> cases hr' : mainLoop (signEnv [false, true] Ex.hugeEq) [Ex.stepC [1] 1] t0 <;>
    simp only [hr, hr'] at e1 e2 key <;> simp only [MainRes.Both, reduceCtorEq, Option.some.injEq] at e1 e2 key
  have := key.x
  rw [e1, e2] at this
  exact absurd this (by decide)

end Sqpdfo

#print axioms Sqpdfo.C121_loop_partial
#print axioms Sqpdfo.C121_start
#print axioms Sqpdfo.C121_kernels
#print axioms Sqpdfo.C121_call_partial
#print axioms Sqpdfo.C121_step
#print axioms Sqpdfo.C121_norms
#print axioms Sqpdfo.C121_huge_false
