import Verif.Lemmas.MainImprove

/-! # Invariants of the main loop: the step -/

set_option linter.unusedSectionVars false

namespace Sqpdfo
open Spec
variable {K F : Type} [Field K] [LinearOrder K] [IsStrictOrderedRing K]

/-! ### Putting the trial point into the set -/

theorem setOrAppend_spec {α : Type} (l : List α) (pos : ℕ) (a : α) (h : pos ≤ l.length) :
    (setOrAppend l pos a)[pos]? = some a ∧
      (∀ k, k ≠ pos → (setOrAppend l pos a)[k]? = l[k]?) ∧
      (setOrAppend l pos a).length = max l.length (pos + 1) := by
  unfold setOrAppend
  by_cases hp : pos < l.length
  · rw [if_pos hp]
    refine ⟨by simp [hp], fun k hk => by rw [List.getElem?_set_ne (Ne.symm hk)], ?_⟩
    rw [List.length_set, max_eq_left (by omega)]
  · rw [if_neg hp]
    have hpl : pos = l.length := by omega
    subst hpl
    refine ⟨by simp, fun k hk => ?_, by simp⟩
    rcases Nat.lt_or_gt_of_ne hk with h1 | h1
    · rw [List.getElem?_append_left h1]
    · rw [List.getElem?_eq_none_iff.2 (by simp; omega), List.getElem?_eq_none_iff.2 (by omega)]

/-- The set `S` is the set of `s` with the point `x` (value `f`, index `m`) at `pos`. -/
structure Placed (e : Env K F) (s : MSt K F) (x : List K) (f : K) (pos cur : ℕ)
    (S : IntSet (List K) (List K) F K) : Prop where
  lt : pos < cur
  old : ∀ k, k < cur → k ≠ pos → k < s.cur
  sized : Sized cur S
  ciY : S.ciY = []
  ceY0 : e.me = 0 → S.ceY = []
  ceY1 : 0 < e.me → S.ceY.length = cur
  Yp : S.Y[pos]? = some x
  ip : S.ind[pos]? = some s.m
  fp : S.fY[pos]? = some f
  Yo : ∀ k, k ≠ pos → S.Y[k]? = s.set.Y[k]?
  io : ∀ k, k ≠ pos → S.ind[k]? = s.set.ind[k]?
  fo : ∀ k, k ≠ pos → S.fY[k]? = s.set.fY[k]?

/-- The trial point has been evaluated and is the last one of the history. -/
structure Tried (s : MSt K F) (x : List K) (f : K) : Prop where
  X : s.ev.X[s.m]? = some x
  fX : s.ev.fX[s.m]? = some (.fin f)

theorem Placed.linked {e : Env K F} {s : MSt K F} {x : List K} {f : K} {pos cur : ℕ}
    {S : IntSet (List K) (List K) F K} (h : Placed e s x f pos cur S) (hs : Core e [] s)
    (ht : Tried s x f) {t : MSt K F} (hS : t.set = S) (hX : t.ev.X = s.ev.X)
    (hf : t.ev.fX = s.ev.fX) (j : ℕ) (hj : j < cur) : Linked t j := by
  subst hS
  by_cases hp : j = pos
  · subst hp
    exact ⟨s.m, x, f, h.ip, h.Yp, h.fp, by rw [hX]; exact ht.X, by rw [hf]; exact ht.fX⟩
  · obtain ⟨i, y, g, b1, b2, b3, b4, b5⟩ := hs.link j (h.old j hj hp) (by simp)
    exact ⟨i, y, g, by rw [h.io j hp, b1], by rw [h.Yo j hp, b2], by rw [h.fo j hp, b3],
      by rw [hX, b4], by rw [hf, b5]⟩

/-- What the decision about the trial point does not change. -/
structure Kept (s t : MSt K F) : Prop where
  niter : t.niter = s.niter
  m : t.m = s.m
  sigma : t.sigma = s.sigma
  eps : t.epsCur = s.epsCur
  X : t.ev.X = s.ev.X
  fX : t.ev.fX = s.ev.fX
  ceX : t.ev.ceX = s.ev.ceX
  w : t.ev.w = s.ev.w
  nsimul : t.ev.nsimul = s.ev.nsimul
  flag : t.ev.flag = s.ev.flag
  merit0 : t.merit0 = s.merit0
  f0 : t.f0 = s.f0

/-- A state with a new set, base point at position 0, is a good state. -/
theorem Inv.ofSet {e : Env K F} {s t : MSt K F} (h : Inv e [] s) (k : Kept s t)
    (hsz : Sized t.cur t.set) (hci : t.set.ciY = []) (hc0 : e.me = 0 → t.set.ceY = [])
    (hc1 : 0 < e.me → t.set.ceY.length = t.cur) (hlo : s.cur ≤ t.cur) (hhi : t.cur ≤ e.cap)
    (hl : ∀ j, j < t.cur → Linked t j) (h0 : t.set.ind[0]? = some t.ixbest)
    (h1 : t.set.Y[0]? = some t.x) (h2 : t.set.fY[0]? = some t.fx)
    (hi : ∃ q, t.ev.infoF = .fin q) (hd : 0 < t.delta) : Inv e [] t where
  Xlen := by rw [k.X, k.m]; exact h.Xlen
  Ylen := hsz.Y
  indlen := hsz.ind
  flen := hsz.fY
  ciY := hci
  ceY0 := hc0
  ceY1 := hc1
  lo := le_trans h.lo hlo
  hi := hhi
  link := fun j hj _ => hl j hj
  ind0 := h0
  Y0 := h1
  f0 := h2
  log := by rw [k.X, k.w]; exact h.log
  count := by rw [k.nsimul, k.w]; exact h.count
  hist := by rw [k.X, k.w, k.fX]; exact h.hist
  fXlen := by rw [k.fX, k.m]; exact h.fXlen
  cXlen := by rw [k.ceX, k.m]; exact h.cXlen
  fin := by rw [k.fX]; exact h.fin
  infoF := hi
  flag := by rw [k.flag]; exact h.flag
  delta := hd
  eps := by rw [k.eps]; exact h.eps
  sigma := by rw [k.sigma]; exact h.sigma

/-- The swap to position 0 of the placed point. -/
theorem Placed.swap {e : Env K F} {s : MSt K F} {x : List K} {f : K} {pos cur : ℕ}
    {S : IntSet (List K) (List K) F K} (h : Placed e s x f pos cur S) (hs : Core e [] s)
    (ht : Tried s x f) :
    ∃ S', swapInY e.build 0 pos S = some S' ∧ Sized cur S' ∧ S'.ciY = [] ∧
      (e.me = 0 → S'.ceY = []) ∧ (0 < e.me → S'.ceY.length = cur) ∧
      S'.ind[0]? = some s.m ∧ S'.Y[0]? = some x ∧ S'.fY[0]? = some f ∧
      ∀ t : MSt K F, t.set = S' → t.ev.X = s.ev.X → t.ev.fX = s.ev.fX → ∀ j, j < cur → Linked t j := by
  have h0 : 0 < cur := by have := h.lt; omega
  obtain ⟨S', e1, hsz, x1, x2, x3, x4, x5, -⟩ := C24_swap e.build S cur 0 pos h.sized h0 h.lt
  refine ⟨S', e1, hsz, ?_, ?_, ?_, ?_, ?_, ?_, ?_⟩
  · rw [h.ciY] at x4; exact Exchanged.nil_of_nil x4
  · intro hm; rw [h.ceY0 hm] at x5; exact Exchanged.nil_of_nil x5
  · intro hm; exact x5.1.trans (h.ceY1 hm)
  · rw [x2.2, Equiv.swap_apply_left]; exact h.ip
  · rw [x1.2, Equiv.swap_apply_left]; exact h.Yp
  · rw [x3.2, Equiv.swap_apply_left]; exact h.fp
  · intro t hS hX hf j hj
    subst hS
    refine Linked.exchange (s := { t with set := S }) rfl rfl x1 x2 x3 ?_
    exact h.linked (t := { t with set := S }) hs ht rfl hX hf _ (swap_lt h0 h.lt hj)

/-- Relation between the state before and after the decision. -/
structure Decided (s t : MSt K F) : Prop where
  niter : t.niter = s.niter
  sigma : t.sigma = s.sigma
  nsimul : t.ev.nsimul = s.ev.nsimul
  lo : s.cur ≤ t.cur
  hi : t.cur ≤ s.cur + 1

theorem cDeltamax_pos : (0 : K) < cDeltamax := by unfold cDeltamax; positivity

theorem succDelta_pos (rho : K) (a : Bool) (norms delta : K) (hd : 0 < delta) :
    0 < succDelta rho a norms delta := by
  have h1 : 0 < min (max (2 * norms) delta) cDeltamax :=
    lt_min (lt_max_of_lt_right hd) cDeltamax_pos
  unfold succDelta
  split
  · split
    · positivity
    · exact h1
  · split
    · positivity
    · exact h1

theorem halved_pos (delta : K) (hd : 0 < delta) :
    0 < (if delta > cEps then cGamma2 * delta else delta) := by
  split
  · have : (0 : K) < cGamma2 := by unfold cGamma2; positivity
    positivity
  · exact hd

/-- Crashes in the decision. -/
theorem accepted_sat (e : Env K F) (o : Orc K F) (fxplus rho norms : K) (pos : ℕ) (s t : MSt K F)
    (h : Inv e [] s) (ht : Tried s o.xnew fxplus) (k : Kept s t) (hd : t.delta = s.delta)
    (hlo : s.cur ≤ t.cur) (hhi : t.cur ≤ s.cur + 1) (hcap : t.cur ≤ e.cap)
    (hinfo : t.ev.infoF = s.ev.infoF)
    (hY : t.set.Y.length = t.cur) (hYp : t.set.Y[pos]? = some o.xnew)
    (hYo : ∀ k, k ≠ pos → t.set.Y[k]? = s.set.Y[k]?) (hind : t.set.ind = s.set.ind)
    (hfY : t.set.fY = s.set.fY) (hci : t.set.ciY = s.set.ciY) (hce : t.set.ceY = s.set.ceY)
    (hpos : pos < s.cur ∧ t.cur = s.cur ∨ pos = s.cur ∧ t.cur = s.cur + 1) :
    (accepted e o fxplus rho norms pos t).Sat
      (fun u => Inv e [] u ∧ Decided s u ∧ u.rejected = false)
      (fun _ => False) Outside := by
  unfold accepted
  simp only
  by_cases hcs : e.me > 0 ∧ t.ceplus.length ≠ e.me
  · rw [if_pos hcs]; exact Or.inr (Or.inr rfl)
  rw [if_neg hcs]
  have hp : pos ≤ s.cur := by rcases hpos with h1 | h1 <;> omega
  have hmax : max s.cur (pos + 1) = t.cur := by rcases hpos with h1 | h1 <;> omega
  have hind' := setOrAppend_spec s.set.ind pos s.m (by rw [h.indlen]; exact hp)
  have hfY' := setOrAppend_spec s.set.fY pos fxplus (by rw [h.flen]; exact hp)
  have hpl : ∀ S : IntSet (List K) (List K) F K, S = (if e.me > 0 then
      { t.set with
        ind := setOrAppend t.set.ind pos t.m
        fY := setOrAppend t.set.fY pos fxplus
        ceY := setOrAppend t.set.ceY pos t.ceplus }
      else { t.set with
        ind := setOrAppend t.set.ind pos t.m
        fY := setOrAppend t.set.fY pos fxplus }) → Placed e s o.xnew fxplus pos t.cur S := by
    intro S hS
    have g1 : S.Y = t.set.Y := by rw [hS]; split <;> rfl
    have g2 : S.ind = setOrAppend s.set.ind pos s.m := by rw [hS, ← hind, ← k.m]; split <;> rfl
    have g3 : S.fY = setOrAppend s.set.fY pos fxplus := by rw [hS, ← hfY]; split <;> rfl
    have g4 : S.ciY = [] := by rw [← h.ciY, ← hci, hS]; split <;> rfl
    have g5 : e.me = 0 → S.ceY = [] := by
      intro h0; rw [hS, if_neg (by omega)]; show t.set.ceY = []; rw [hce]; exact h.ceY0 h0
    have g6 : 0 < e.me → S.ceY.length = t.cur := by
      intro h0; rw [hS, if_pos h0]
      show (setOrAppend t.set.ceY pos t.ceplus).length = _
      rw [hce, (setOrAppend_spec s.set.ceY pos t.ceplus (by rw [h.ceY1 h0]; exact hp)).2.2,
        h.ceY1 h0, hmax]
    exact {
      lt := by rcases hpos with h1 | h1 <;> omega
      old := by intro j h1 h2; rcases hpos with h3 | h3 <;> omega
      sized := ⟨by rw [g1, hY], by rw [g2, hind'.2.2, h.indlen, hmax],
        by rw [g3, hfY'.2.2, h.flen, hmax], Or.inl g4, by
          rcases Nat.eq_zero_or_pos e.me with h0 | h0
          · exact Or.inl (g5 h0)
          · exact Or.inr (g6 h0)⟩
      ciY := g4
      ceY0 := g5
      ceY1 := g6
      Yp := by rw [g1, hYp]
      ip := by rw [g2, hind'.1]
      fp := by rw [g3, hfY'.1]
      Yo := by intro j hj; rw [g1, hYo j hj]
      io := by intro j hj; rw [g2, hind'.2.1 j hj]
      fo := by intro j hj; rw [g3, hfY'.2.1 j hj] }
  obtain ⟨S', e1, hsz, i1, i2, i3, i4, i5, i6, i7⟩ := (hpl _ rfl).swap h.toCore ht
  rw [e1]
  simp only [i5]
  refine ⟨Inv.ofSet (s := s) h ?_ hsz i1 i2 i3 hlo hcap
    (i7 _ rfl k.X k.fX) ?_ i5 i6 ?_ ?_, ⟨k.niter, k.sigma, k.nsimul, hlo, hhi⟩, rfl⟩
  · exact ⟨k.niter, k.m, k.sigma, k.eps, k.X, k.fX, k.ceX, k.w, k.nsimul, k.flag, k.merit0, k.f0⟩
  · show S'.ind[0]? = some t.m
    rw [i4, k.m]
  · show ∃ q, t.ev.infoF = _
    rw [hinfo]; exact h.infoF
  · apply succDelta_pos; rw [hd]; exact h.delta

theorem replaceAt_sat (e : Env K F) (o : Orc K F) (fxplus rho norms : K) (pos : ℕ) (s t : MSt K F)
    (h : Inv e [] s) (ht : Tried s o.xnew fxplus) (k : Kept s t) (hd : t.delta = s.delta)
    (hcur : t.cur = s.cur) (hinfo : t.ev.infoF = s.ev.infoF) (hx : t.x = s.x) (hfx : t.fx = s.fx)
    (hix : t.ixbest = s.ixbest)
    (hY : t.set.Y.length = t.cur) (hYp : t.set.Y[pos]? = some o.xnew)
    (hYo : ∀ k, k ≠ pos → t.set.Y[k]? = s.set.Y[k]?) (hind : t.set.ind = s.set.ind)
    (hfY : t.set.fY = s.set.fY) (hci : t.set.ciY = s.set.ciY) (hce : t.set.ceY = s.set.ceY)
    (hpos : pos < s.cur) (hp0 : rho < cEta1 → pos ≠ 0) :
    (replaceAt e o fxplus rho norms pos t).Sat
      (fun u => Inv e [] u ∧ Decided s u ∧ u.rejected = t.rejected)
      (fun _ => False) Outside := by
  unfold replaceAt
  by_cases hcs : e.me > 0 ∧ t.ceplus.length ≠ e.me
  · rw [if_pos hcs]; exact Or.inr (Or.inr rfl)
  rw [if_neg hcs]
  simp only
  have hpl : Placed e s o.xnew fxplus pos s.cur { t.set with
      ind := t.set.ind.set pos t.m
      fY := t.set.fY.set pos fxplus
      ceY := if e.me > 0 then t.set.ceY.set pos t.ceplus else t.set.ceY } := by
    have g5 : e.me = 0 → (if e.me > 0 then t.set.ceY.set pos t.ceplus else t.set.ceY) = [] := by
      intro h0; rw [if_neg (by omega), hce]; exact h.ceY0 h0
    have g6 : 0 < e.me →
        (if e.me > 0 then t.set.ceY.set pos t.ceplus else t.set.ceY).length = s.cur := by
      intro h0; rw [if_pos h0, List.length_set, hce]; exact h.ceY1 h0
    exact {
      lt := hpos
      old := fun j h1 _ => h1
      sized := ⟨hY.trans hcur, by simp [hind, h.indlen], by simp [hfY, h.flen],
        Or.inl (hci.trans h.ciY), by
          rcases Nat.eq_zero_or_pos e.me with h0 | h0
          · exact Or.inl (g5 h0)
          · exact Or.inr (g6 h0)⟩
      ciY := hci.trans h.ciY
      ceY0 := g5
      ceY1 := g6
      Yp := hYp
      ip := by
        show (t.set.ind.set pos t.m)[pos]? = _
        rw [hind, k.m, List.getElem?_set_self (by rw [h.indlen]; exact hpos)]
      fp := by
        show (t.set.fY.set pos fxplus)[pos]? = _
        rw [hfY, List.getElem?_set_self (by rw [h.flen]; exact hpos)]
      Yo := hYo
      io := by
        intro j hj
        show (t.set.ind.set pos t.m)[j]? = _
        rw [List.getElem?_set_ne (Ne.symm hj), hind]
      fo := by
        intro j hj
        show (t.set.fY.set pos fxplus)[j]? = _
        rw [List.getElem?_set_ne (Ne.symm hj), hfY] }
  have hcap : s.cur ≤ e.cap := h.hi
  by_cases hrho : rho ≥ cEta1
  · rw [if_pos hrho]
    obtain ⟨S', e1, hsz, i1, i2, i3, i4, i5, i6, i7⟩ := hpl.swap h.toCore ht
    rw [e1]
    simp only [i5, MSt.newGx]
    refine ⟨Inv.ofSet (s := s) h ?_ ?_ i1 i2 ?_ hcur.ge ?_ ?_ ?_ i5 i6 ⟨_, rfl⟩ ?_,
      ⟨k.niter, k.sigma, k.nsimul, hcur.ge, by rw [show _ = s.cur from hcur]; omega⟩, rfl⟩
    · exact ⟨k.niter, k.m, k.sigma, k.eps, k.X, k.fX, k.ceX, k.w, k.nsimul, k.flag, k.merit0, k.f0⟩
    · show Sized t.cur S'
      rw [hcur]; exact hsz
    · intro h0; show S'.ceY.length = t.cur
      rw [hcur]; exact i3 h0
    · show t.cur ≤ _
      rw [hcur]; exact hcap
    · intro j hj
      have hj : j < t.cur := hj
      rw [hcur] at hj
      refine i7 _ ?_ ?_ ?_ j hj
      · rfl
      · exact k.X
      · exact k.fX
    · show S'.ind[0]? = some t.m
      rw [i4, k.m]
    · show 0 < min (max (2 * norms) t.delta) cDeltamax
      rw [hd]
      exact lt_min (lt_max_of_lt_right h.delta) cDeltamax_pos
  · rw [if_neg hrho]
    have hne : (0 : ℕ) ≠ pos := Ne.symm (hp0 (not_le.1 hrho))
    unfold MSt.newGx
    refine ⟨Inv.ofSet (s := s) h ?_ ?_ (hci.trans h.ciY) hpl.ceY0 ?_ hcur.ge ?_ ?_ ?_ ?_ ?_ ?_ ?_,
      ⟨k.niter, k.sigma, k.nsimul, hcur.ge, by rw [show _ = s.cur from hcur]; omega⟩, rfl⟩
    · exact ⟨k.niter, k.m, k.sigma, k.eps, k.X, k.fX, k.ceX, k.w, k.nsimul, k.flag, k.merit0, k.f0⟩
    · dsimp only; rw [hcur]; exact hpl.sized
    · intro h0; dsimp only; rw [hcur]; exact hpl.ceY1 h0
    · dsimp only; rw [hcur]; exact hcap
    · intro j hj
      dsimp only at hj; rw [hcur] at hj
      refine hpl.linked h.toCore ht ?_ ?_ ?_ j hj
      · rfl
      · exact k.X
      · exact k.fX
    · have := hpl.io 0 hne
      dsimp only at this ⊢
      rw [this, hix]; exact h.ind0
    · dsimp only; rw [hYo 0 hne, hx]; exact h.Y0
    · have := hpl.fo 0 hne
      dsimp only at this ⊢
      rw [this, hfx]; exact h.f0
    · dsimp only; rw [hinfo]; exact h.infoF
    · dsimp only; rw [hd]; exact halved_pos _ h.delta

/-- `info.f = f0` keeps the invariant. -/
theorem Inv.restoreF {e : Env K F} {s : MSt K F} (h : Inv e [] s) : Inv e [] s.restoreF :=
  { h with link := fun j hj hp => h.link j hj hp, infoF := ⟨_, rfl⟩ }

theorem fmin_fin (a b : K) : (Fl.fin a).fmin (.fin b) = .fin (min a b) := by
  by_cases h : a ≤ b
  · simp [Fl.fmin, Fl.isNan, Fl.le, h]
  · simp [Fl.fmin, Fl.isNan, Fl.le, h, min_eq_right (not_le.1 h).le]

theorem fmax_fin (a b : K) : (Fl.fin a).fmax (.fin b) = .fin (max a b) := by
  by_cases h : b ≤ a
  · simp [Fl.fmax, Fl.isNan, Fl.le, h]
  · simp [Fl.fmax, Fl.isNan, Fl.le, h, max_eq_right (not_le.1 h).le]

theorem redDelta_bounds (g : Fl K) (delta norms : K) :
    ∃ c : K, 1 / 100 ≤ c ∧ c ≤ 1 / 2 ∧ redDelta g delta norms = c * min delta norms := by
  have h12 : (1 / 100 : K) ≤ 1 / 2 := by norm_num
  have key : ∀ q : K, Fl.fmin g (.fin cGamma2) = .fin q → q ≤ 1 / 2 →
      ∃ c : K, 1 / 100 ≤ c ∧ c ≤ 1 / 2 ∧ redDelta g delta norms = c * min delta norms := by
    intro q hq hle
    refine ⟨max (1 / 100) q, le_max_left _ _, max_le h12 hle, ?_⟩
    simp only [redDelta, hq, fmax_fin]
    rfl
  cases g with
  | nan => exact key (1 / 2) rfl (le_refl _)
  | pinf => exact key (1 / 2) rfl (le_refl _)
  | ninf => exact ⟨1 / 100, le_refl _, h12, rfl⟩
  | fin q => exact key (min q (1 / 2)) (by rw [fmin_fin]; rfl) (min_le_right _ _)

end Sqpdfo
