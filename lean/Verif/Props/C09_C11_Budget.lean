import Verif.Lemmas.MainExample
import Mathlib.Algebra.Order.Archimedean.Basic

/-! # C09-C11: budgets and termination of the main loop -/

set_option linter.unusedSectionVars false

namespace Sqpdfo
open Spec
variable {K F : Type} [Field K] [LinearOrder K] [IsStrictOrderedRing K]

/-- A run: kernels as assumed, a start point of the right dimension, a positive radius, and a
complete initial sampling that leads to `s0`.  The kernel results of the passes are
arbitrary. -/
structure Starts (e : Env K F) (x0 : List K) (fuel : ℕ) (Δ : K) (sl : List K) (s0 : MSt K F) :
    Prop where
  ok : e.Ok
  constr : e.Constr
  dim : x0.length = e.n
  radius : 0 < Δ
  state : startState e x0 fuel Δ sl = some s0

theorem Starts.started {e : Env K F} {x0 : List K} {fuel : ℕ} {Δ : K} {sl : List K}
    {s0 : MSt K F} (h : Starts e x0 fuel Δ sl s0) : Started e s0 :=
  startState_ok e h.constr x0 h.dim fuel Δ h.radius sl s0 h.state

theorem fl_le_false {M : K} {k : ℕ} (h : (Fl.fin M).le (.fin (k : K)) = false) : (k : K) < M := by
  simpa [Fl.le] using h

theorem fl_le_true {M : K} {k : ℕ} (h : (Fl.fin M).le (.fin (k : K)) = true) : M ≤ (k : K) := by
  simpa [Fl.le] using h

/-- Counting passes against a counter `g` that every pass increases and that is below `M` in every
pass that continues. -/
theorem passes_lt (e : Env K F) (he : e.Ok) (g : MSt K F → ℕ) (M : K)
    (hg : ∀ o s t, Inv e [] s → pass e o s = .cont t → g s + 1 ≤ g t ∧ (g s : K) < M) :
    ∀ (os : List (Orc K F)) (s t : MSt K F), Inv e [] s → mainLoop e os s = .running t →
      os = [] ∨ ((g s + os.length : ℕ) : K) < M + 1 := by
  intro os
  induction os with
  | nil => intro s t _ _; exact Or.inl rfl
  | cons o os ih =>
    intro s t hI h
    right
    simp only [mainLoop] at h
    cases hp : pass e o s with
    | ret u => rw [hp] at h; cases h
    | crash c => rw [hp] at h; cases h
    | cont u =>
      rw [hp] at h
      obtain ⟨h1, h2⟩ := hg o s u hI hp
      have hu : Inv e [] u := by
        have := pass_sat e he o s hI; rw [hp] at this; exact this.1
      rcases ih u t hu h with rfl | h3
      · push_cast [List.length_cons, List.length_nil]; linarith
      · have h1' : ((g s : ℕ) : K) + 1 ≤ (g u : K) := by exact_mod_cast h1
        push_cast [List.length_cons] at h3 ⊢
        linarith

theorem pass_niter (e : Env K F) (he : e.Ok) (M : K) (hM : e.miter = .fin M) (o : Orc K F)
    (s t : MSt K F) (hI : Inv e [] s) (h : pass e o s = .cont t) :
    s.niter + 1 ≤ t.niter ∧ (s.niter : K) < M := by
  have := pass_sat e he o s hI
  rw [h] at this
  obtain ⟨-, h1, h2, -⟩ := this
  rw [hM] at h2
  exact ⟨h1.niter0, fl_le_false h2⟩

theorem pass_nsimul (e : Env K F) (he : e.Ok) (M : K) (hM : e.msimul = .fin M) (o : Orc K F)
    (s t : MSt K F) (hI : Inv e [] s) (h : pass e o s = .cont t) :
    s.ev.nsimul + 1 ≤ t.ev.nsimul ∧ (s.ev.nsimul : K) < M := by
  have := pass_sat e he o s hI
  rw [h] at this
  obtain ⟨-, h1, -, h2⟩ := this
  rw [hM] at h2
  exact ⟨h1.nsimul0, fl_le_false h2⟩

/-- C09, for an iteration limit `M` that need not be an integer. -/
theorem C09_iteration_budget_real {e : Env K F} {x0 : List K} {fuel : ℕ} {Δ : K} {sl : List K}
    {s0 : MSt K F} (H : Starts e x0 fuel Δ sl s0) (M : K) (hM : e.miter = .fin M) (h0 : 0 ≤ M)
    (os : List (Orc K F)) :
    match mainLoop e os s0 with
    | .running t => (os.length : K) < M + 1 ∧ (t.niter : K) < M + 2
    | .done t => (t.niter : K) < M + 2 ∧ (t.ev.flag = 5 → M ≤ (t.niter : K))
    | .crash _ => True := by
  have hs := H.started
  have key := mainLoop_induct e (fun s => Inv e [] s ∧ (s.niter : K) < M + 2)
    (fun t => (t.niter : K) < M + 2 ∧ (t.ev.flag = 5 → M ≤ (t.niter : K))) (fun _ => True)
    (by
      rintro o s ⟨hI, hb⟩
      refine (pass_sat e H.ok o s hI).mono ?_ ?_ (fun _ _ => trivial)
      · rintro t ⟨h1, h2, h3, -⟩
        rw [hM] at h3
        have h3 := fl_le_false h3
        have : (t.niter : K) ≤ s.niter + 2 := by exact_mod_cast h2.niter1
        exact ⟨h1, by linarith⟩
      · rintro t ⟨h1, h2, h3⟩
        refine ⟨?_, fun h5 => ?_⟩
        · rcases h3 with ⟨h3, -⟩ | ⟨h3, -⟩
          · rw [h3]; exact hb
          · rw [hM] at h3
            have h3 := fl_le_false h3
            have : (t.niter : K) ≤ s.niter + 2 := by exact_mod_cast h2.1
            linarith
        · have := h1.miter h5
          rw [hM] at this
          exact fl_le_true this) os s0 ⟨hs.inv, by rw [hs.niter]; push_cast; linarith⟩
  have hlen := passes_lt e H.ok (fun s => s.niter) M (fun o s t => pass_niter e H.ok M hM o s t) os s0
  cases hr : mainLoop e os s0 with
  | done t => rw [hr] at key; exact key
  | crash c => trivial
  | running t =>
    rw [hr] at key
    refine ⟨?_, key.2⟩
    rcases hlen t hs.inv hr with rfl | h
    · simp only [List.length_nil]; push_cast; linarith
    · simpa [hs.niter] using h

/-- **C09.** With `options.miter = M` at most `M` passes are carried through (the pass after them
only returns), the reported number of iterations is at most `M + 1`, and status 5 is returned
only if the number of iterations has reached `M`. -/
theorem C09_iteration_budget {e : Env K F} {x0 : List K} {fuel : ℕ} {Δ : K} {sl : List K}
    {s0 : MSt K F} (H : Starts e x0 fuel Δ sl s0) (M : ℕ) (hM : e.miter = .fin (M : K))
    (os : List (Orc K F)) :
    match mainLoop e os s0 with
    | .running t => os.length ≤ M ∧ t.niter ≤ M + 1
    | .done t => t.niter ≤ M + 1 ∧ (t.ev.flag = 5 → M ≤ t.niter)
    | .crash _ => True := by
  have h := C09_iteration_budget_real H (M : K) hM (Nat.cast_nonneg M) os
  cases hr : mainLoop e os s0 with
  | crash c => trivial
  | done t =>
    rw [hr] at h
    refine ⟨?_, fun h5 => by exact_mod_cast h.2 h5⟩
    have : t.niter < M + 2 := by exact_mod_cast h.1
    omega
  | running t =>
    rw [hr] at h
    have h1 : os.length < M + 1 := by exact_mod_cast h.1
    have h2 : t.niter < M + 2 := by exact_mod_cast h.2
    constructor <;> omega

/-- C10, main part: with `options.msimul = M` (not necessarily an integer) the number of
evaluations is at most the number used by the initial sampling, or less than `M + p`, where `p` is
the largest size of the interpolation set; the counter is the number of calls of the objective;
status 6 is returned only if it has reached `M`. -/
theorem C10_evaluation_budget_real {e : Env K F} {x0 : List K} {fuel : ℕ} {Δ : K} {sl : List K}
    {s0 : MSt K F} (H : Starts e x0 fuel Δ sl s0) (M : K) (hM : e.msimul = .fin M)
    (os : List (Orc K F)) :
    match mainLoop e os s0 with
    | .running t => t.ev.w.logF.length = t.ev.nsimul ∧
        (t.ev.nsimul ≤ s0.ev.nsimul ∨ (t.ev.nsimul : K) < M + e.cap)
    | .done t => t.ev.w.logF.length = t.ev.nsimul ∧
        (t.ev.nsimul ≤ s0.ev.nsimul ∨ (t.ev.nsimul : K) < M + e.cap) ∧
        (t.ev.flag = 6 → M ≤ (t.ev.nsimul : K))
    | .crash _ => True := by
  have hs := H.started
  have key := mainLoop_induct e
    (fun s => Inv e [] s ∧ (s.ev.nsimul ≤ s0.ev.nsimul ∨ (s.ev.nsimul : K) < M + e.cap))
    (fun t => Ret e t ∧ (t.ev.nsimul ≤ s0.ev.nsimul ∨ (t.ev.nsimul : K) < M + e.cap) ∧
      (t.ev.flag = 6 → M ≤ (t.ev.nsimul : K))) (fun _ => True)
    (by
      rintro o s ⟨hI, hb⟩
      have hcap : (s.cur : K) ≤ e.cap := by exact_mod_cast hI.hi
      refine (pass_sat e H.ok o s hI).mono ?_ ?_ (fun _ _ => trivial)
      · rintro t ⟨h1, h2, -, h3⟩
        rw [hM] at h3
        have h3 := fl_le_false h3
        have : (t.ev.nsimul : K) ≤ s.ev.nsimul + s.cur := by exact_mod_cast h2.nsimul1
        exact ⟨h1, Or.inr (by linarith)⟩
      · rintro t ⟨h1, h2, h3⟩
        refine ⟨h1, ?_, fun h6 => ?_⟩
        · rcases h3 with ⟨-, h3⟩ | ⟨-, h3⟩
          · rw [h3]; exact hb
          · rw [hM] at h3
            have h3 := fl_le_false h3
            have : (t.ev.nsimul : K) ≤ s.ev.nsimul + s.cur := by exact_mod_cast h2.2.1
            exact Or.inr (by linarith)
        · have := h1.msimul h6
          rw [hM] at this
          exact fl_le_true this) os s0 ⟨hs.inv, Or.inl (le_refl _)⟩
  cases hr : mainLoop e os s0 with
  | crash c => trivial
  | done t => rw [hr] at key; exact ⟨key.1.core.count.symm, key.2⟩
  | running t => rw [hr] at key; exact ⟨key.1.count.symm, key.2⟩

/-- The number of evaluations of the initial sampling is `n + 1` if the objective never returns a
finite value below `-1e25`. -/
theorem start_nsimul {e : Env K F} {x0 : List K} {fuel : ℕ} {Δ : K} {sl : List K}
    {s0 : MSt K F} (H : Starts e x0 fuel Δ sl s0)
    (hU : ∀ w y q, e.U.f w y = .num (.fin q) → -10 ^ 25 ≤ q) : s0.ev.nsimul = e.n + 1 := by
  have hlo := H.started.nsimul
  have h := H.state
  cases fuel with
  | zero => simp [startState, initLoop] at h
  | succ k =>
    have hone := C48_one_pass_partial e.U x0 (e.nrm x0) Δ emptyEv hU
    have hsame : initLoop e.U x0 (e.nrm x0) (k + 1) Δ emptyEv =
        initLoop e.U x0 (e.nrm x0) 1 Δ emptyEv := by
      have h1 := hone.1
      simp only [initLoop] at h1 ⊢
      split
      · rfl
      · rfl
      · rfl
      · rename_i t ht
        rw [ht] at h1
        simp only at h1
        split
        · rfl
        · rename_i c hc
          rw [hc] at h1
          simp only at h1
          split
          · rfl
          · rename_i c' hc'
            rw [hc'] at h1
            simp only at h1
            split
            · rfl
            · rename_i hst
              rw [if_neg hst] at h1
              exact absurd rfl h1
    unfold startState at h
    rw [hsame] at h
    cases hi : initLoop e.U x0 (e.nrm x0) 1 Δ emptyEv with
    | crash => rw [hi] at h; cases h
    | failed t => rw [hi] at h; cases h
    | stalled t => rw [hi] at h; cases h
    | running => rw [hi] at h; cases h
    | done D ev =>
      rw [hi] at h
      simp only at h
      have h2 := hone.2 ev (by rw [hi]; rfl)
      have h3 : s0.ev.nsimul = ev.nsimul := by
        unfold mainInit at h
        split at h
        · split at h
          · cases h
          · simp only [Option.some.injEq] at h; subst h; rfl
        · cases h
      rw [H.dim] at h2
      have : (emptyEv : EvSt (List K) K).nsimul = 0 := rfl
      omega

/-- **C10** for objectives without finite values below `-1e25` (otherwise the initial sampling is
repeated, see `C10_restart_exceeds_budget`): at most `max (n+1) (M - 1 + p)` evaluations, and
status 6 only if the count has reached `M`.  `p` is `n+1`, `2n+1` or `(n+1)(n+2)/2`, twice that
for regression models. -/
theorem C10_evaluation_budget_partial {e : Env K F} {x0 : List K} {fuel : ℕ} {Δ : K} {sl : List K}
    {s0 : MSt K F} (H : Starts e x0 fuel Δ sl s0) (M : ℕ) (hM : e.msimul = .fin (M : K))
    (h1 : 1 ≤ M)
    (hU : ∀ w y q, e.U.f w y = .num (.fin q) → -10 ^ 25 ≤ q)
    (p : ℕ) (hp : p = (if e.regression then 2 else 1) * (match e.finalDeg with
      | .linear => e.n + 1
      | .diagonal => 2 * e.n + 1
      | .quadratic => (e.n + 1) * (e.n + 2) / 2))
    (os : List (Orc K F)) :
    match mainLoop e os s0 with
    | .running t => t.ev.w.logF.length ≤ max (e.n + 1) (M - 1 + p)
    | .done t => t.ev.w.logF.length ≤ max (e.n + 1) (M - 1 + p) ∧
        t.ev.nsimul = t.ev.w.logF.length ∧ (t.ev.flag = 6 → M ≤ t.ev.w.logF.length)
    | .crash _ => True := by
  have h := C10_evaluation_budget_real H (M : K) hM os
  have hcap : e.cap = p := by
    rw [hp]; unfold Env.cap Env.pfinal; split <;> cases e.finalDeg <;> simp [two_mul]
  rw [start_nsimul H hU, hcap] at h
  cases hr : mainLoop e os s0 with
  | crash c => trivial
  | done t =>
    rw [hr] at h
    obtain ⟨c, h, h6⟩ := h
    refine ⟨?_, c.symm, fun h' => by rw [c]; exact_mod_cast h6 h'⟩
    rw [c]
    rcases h with h | h
    · exact le_max_of_le_left h
    · have : t.ev.nsimul < M + p := by exact_mod_cast h
      exact le_max_of_le_right (by omega)
  | running t =>
    rw [hr] at h
    obtain ⟨c, h⟩ := h
    show t.ev.w.logF.length ≤ _
    rw [c]
    rcases h with h | h
    · exact le_max_of_le_left h
    · have : t.ev.nsimul < M + p := by exact_mod_cast h
      exact le_max_of_le_right (by omega)

/-- **C11**, statuses: every way in which the loop returns reports 0, 3, 5, 6, 15 or 30; status 8
does not occur.  Exceptions that escape come from the user's functions (a non-number, a failure at
an improvement point) or from the shapes of the constraint values, never from the bookkeeping of
the interpolation set. -/
theorem C11_statuses {e : Env K F} {x0 : List K} {fuel : ℕ} {Δ : K} {sl : List K}
    {s0 : MSt K F} (H : Starts e x0 fuel Δ sl s0) (os : List (Orc K F)) :
    match mainLoop e os s0 with
    | .running t => t.ev.flag = 0
    | .done t => t.ev.flag ∈ [0, 3, 5, 6, 15, 30]
    | .crash c => c = .nonNumber ∨ c = .improvementFailed ∨ c = .ceShape := by
  have key := mainLoop_induct e (Inv e []) (Ret e) Outside
    (fun o s hI => (pass_sat e H.ok o s hI).mono (fun _ h => h.1) (fun _ h => h.1) (fun _ h => h))
    os s0 H.started.inv
  cases hr : mainLoop e os s0 with
  | crash c => rw [hr] at key; exact key
  | done t => rw [hr] at key; have := key.flags; simp; tauto
  | running t => rw [hr] at key; exact key.flag

/-- **C11**, termination.  The full statement (*the loop always ends*) is false if both limits are
infinite (`C11_endless`); with one finite limit there is a number of passes after which the loop
has ended, whatever the kernels return. -/
theorem C11_terminates_partial [Archimedean K] {e : Env K F} {x0 : List K} {fuel : ℕ} {Δ : K}
    {sl : List K} {s0 : MSt K F} (H : Starts e x0 fuel Δ sl s0) (M : K)
    (hM : e.miter = .fin M ∨ e.msimul = .fin M) :
    ∃ N : ℕ, ∀ os : List (Orc K F), N ≤ os.length → ∀ t, mainLoop e os s0 ≠ .running t := by
  obtain ⟨N, hN⟩ := exists_nat_ge (M + 1)
  refine ⟨N + 1, fun os hos t hr => ?_⟩
  have hN' : M + 1 ≤ ((os.length : ℕ) : K) := by
    have : ((N : ℕ) : K) ≤ (os.length : ℕ) := by exact_mod_cast (by omega : N ≤ os.length)
    linarith
  have fin : ∀ k : ℕ, (os = [] ∨ ((k + os.length : ℕ) : K) < M + 1) → False := by
    rintro k (rfl | h)
    · simp at hos
    · push_cast at h
      have : (0 : K) ≤ (k : K) := Nat.cast_nonneg _
      linarith
  rcases hM with hM | hM
  · exact fin _ (passes_lt e H.ok (fun s => s.niter) M (fun o s t => pass_niter e H.ok M hM o s t)
      os s0 t H.started.inv hr)
  · exact fin _ (passes_lt e H.ok (fun s => s.ev.nsimul) M
      (fun o s t => pass_nsimul e H.ok M hM o s t) os s0 t H.started.inv hr)

/-! ### Concrete cases and counterexamples -/

open Ex

theorem Ex.starts {f : World (List ℚ) → List ℚ → FOut ℚ} {a b : Fl ℚ} {x0 : List ℚ}
    {s : MSt ℚ Unit} (hx : x0.length = 1) (h : start (env ⟨f, none⟩ a b) x0 = some s) :
    Starts (env ⟨f, none⟩ a b) x0 1 1 [] s :=
  ⟨env_ok _ _ _, env_constr _ _ _, hx, one_pos, h⟩

/-- Three accepted steps, then the iteration limit: the hypotheses of C09-C11 are met by a run
that really iterates. -/
example : look (env down (.fin 3) (.fin 100)) [0]
    [orc [1] 1, orc [2] 1, orc [3] 1, orc [4] 1, orc [5] 1] false
    (fun t => decide (t.ev.flag = 5 ∧ t.niter = 3 ∧ t.ev.nsimul = 5 ∧ t.x = [3] ∧ t.fx = -3))
    (fun _ => false) (fun _ => false) = true := by decide +kernel

example : ∃ s, Starts (env down (.fin 3) (.fin 100)) [0] 1 1 [] s := by
  have h : (start (env down (.fin 3) (.fin 100)) [0]).isSome = true := by decide +kernel
  obtain ⟨s, hs⟩ := Option.isSome_iff_exists.1 h
  exact ⟨s, Ex.starts rfl hs⟩

/-- The evaluation limit. -/
example : look (env down (.fin 30) (.fin 4)) [0] [orc [1] 1, orc [2] 1, orc [3] 1, orc [4] 1] false
    (fun t => decide (t.ev.flag = 6 ∧ t.niter = 2 ∧ t.ev.nsimul = 4))
    (fun _ => false) (fun _ => false) = true := by decide +kernel

/-- An objective that is very negative at one of the first sampling points. -/
def Ex.steep1 : User (List ℚ) ℚ :=
  ⟨fun _ x => if x = [0] then .num (.fin (-2 * 10 ^ 25)) else .num (.fin 1), none⟩

theorem Ex.look2_done (e : Env ℚ Unit) (x0 : List ℚ) (fuel : ℕ) (os : List (Orc ℚ Unit))
    (p : MSt ℚ Unit → Bool)
    (h : (match startState e x0 fuel 1 [] with
      | none => false
      | some s => match mainLoop e os s with
        | .done t => p t
        | _ => false) = true) :
    ∃ s, startState e x0 fuel 1 [] = some s ∧ ∃ t, mainLoop e os s = .done t ∧ p t = true := by
  cases h1 : startState e x0 fuel 1 [] with
  | none => rw [h1] at h; simp at h
  | some s =>
    rw [h1] at h
    simp only at h
    cases h2 : mainLoop e os s with
    | done t => rw [h2] at h; exact ⟨s, rfl, t, h2, h⟩
    | crash c => rw [h2] at h; simp at h
    | running t => rw [h2] at h; simp at h

/-- Negation of C10 as stated: a value below `-1e25` at the second sampling point makes the initial
sampling start again; it uses 4 evaluations, although `n + 1 = 2` and `msimul - 1 + p = 2`. -/
theorem C10_restart_exceeds_budget :
    ∃ s, startState (env Ex.steep1 (.fin 10) (.fin 1)) [1] 2 1 [] = some s ∧
      ∃ t, mainLoop (env Ex.steep1 (.fin 10) (.fin 1)) [orc [1] 1] s = .done t ∧
        t.ev.w.logF.length = 4 ∧ max (1 + 1) (1 - 1 + 2) = 2 := by
  obtain ⟨s, hs, t, ht, h⟩ := look2_done (env Ex.steep1 (.fin 10) (.fin 1)) [1] 2 [orc [1] 1]
    (fun t => decide (t.ev.w.logF.length = 4)) (by decide +kernel)
  exact ⟨s, hs, t, ht, by simpa using h, rfl⟩
/-- The states of a run on the objective `-x` in which every step `x -> x + 1` is accepted. -/
structure Ex.Descends (e : Env ℚ Unit) (s : MSt ℚ Unit) (v : ℚ) : Prop where
  inv : Inv e [] s
  rej : s.rejected = false
  x : s.x = [v]
  infoF : s.ev.infoF = .fin (-v)
  lo : 1 ≤ s.delta
  hi : s.delta ≤ 2
  sigma : s.sigma = 1
  pred : s.pred ≠ -1
  v0 : 0 ≤ v
  cur : s.cur = 2
  infoCe : s.infoCe = []
  ceplus : s.ceplus = []
  ceX : s.ev.ceX = []

/-- `env` without limits. -/
abbrev Ex.envInf : Env ℚ Unit := env down .pinf .pinf

theorem Ex.descends_step (s : MSt ℚ Unit) (v : ℚ) (h : Descends envInf s v) :
    ∃ t, pass envInf (orc [v + 1] 1) s = .cont t ∧ Descends envInf t (v + 1) := by
  -- up to the decision
  have hbig : ¬ ((10 : ℚ) ^ 25 ≤ -(v + 1)) := by have := h.v0; norm_num; linarith
  have hd1 : ¬ s.delta < 1 / 10 ^ 10 := by have := h.lo; norm_num; linarith
  have hfl : s.ev.fX.length = s.m + 1 := h.inv.fXlen
  have hXl : s.ev.X.length = s.m + 1 := h.inv.Xlen
  obtain ⟨u, w, hp, hu, hux, hud, hus, huf, hum, hucur, huY, hum0, hucp, huce, huic, hwx, hui⟩ :
      ∃ u w : MSt ℚ Unit, pass envInf (orc [v + 1] 1) s =
        decideStep envInf (orc [v + 1] 1) (stepNorm envInf (orc [v + 1] 1) w) u ∧
        Inv envInf [] u ∧ u.ev.X[u.m]? = some [v + 1] ∧ u.delta = s.delta ∧ u.sigma = 1 ∧
        u.ev.fX[u.m]? = some (.fin (-(v + 1))) ∧ u.m = s.m + 1 ∧ u.cur = 2 ∧
        u.set = s.set ∧ u.merit0 = -v ∧ u.ceplus = [] ∧ u.ev.ceX = [] ∧ u.infoCe = [] ∧
        w.x = [v] ∧ u.ev.infoF = .fin (-(v + 1)) := by
    have hev : augmX down (.fin big) [v + 1] (s.m + 1) { s.ev with flag := 0 } = some { s.ev with
        flag := 0
        X := s.ev.X ++ [[v + 1]]
        fX := s.ev.fX ++ [.fin (-(v + 1))]
        nsimul := s.ev.nsimul + 1
        infoF := .fin (-(v + 1))
        w := { s.ev.w with logF := s.ev.w.logF ++ [[v + 1]] } } := by
      simp [augmX, sqpdfoFunc, down, Fl.isNan, Fl.isInf, setOrAppend, hfl, hXl, Fl.fmin, Fl.le, big]
      intro hb; exact absurd (by simpa using hb) (by norm_num at hbig ⊢; linarith)
    let w : MSt ℚ Unit := { s with
      glagn := 1
      feasn := 0
      compl := 0
      ev := { s.ev with flag := 0 }
      f0 := -v
      ce0n := 0
      merit0 := -v
      niter := s.niter + 1 }
    have hw : Inv envInf [] w :=
      { h.inv with link := fun j hj hp => h.inv.link j hj hp, flag := rfl }
    let u : MSt ℚ Unit := { w with
      m := s.m + 1
      ev := { s.ev with
        flag := 0
        X := s.ev.X ++ [[v + 1]]
        fX := s.ev.fX ++ [.fin (-(v + 1))]
        nsimul := s.ev.nsimul + 1
        infoF := .fin (-(v + 1))
        w := { s.ev.w with logF := s.ev.w.logF ++ [[v + 1]] } } }
    have heval : evalTrial envInf (orc [v + 1] 1) w = .cont u := by
      have hev' : augmX envInf.U (.fin big) (orc [v + 1] 1).xnew (w.m + 1) w.ev = some u.ev := hev
      have hce : (finVals u.ev.ceX).any (fun v => decide (v ≠ 0)) = false := by
        show (finVals s.ev.ceX).any _ = false
        rw [h.ceX]; rfl
      unfold evalTrial
      simp only [hev']
      rw [if_neg (by simp [u]), if_neg (by rw [hce]; simp)]
    have hglob : globalise envInf { s with
        glagn := 1
        feasn := 0
        compl := 0
        ev := { s.ev with flag := 0 } } = .cont { w with niter := s.niter } := by
      simp [globalise, h.rej, h.infoF, Fl.val?, Env.resNorm, resid, env, h.infoCe, nrm1, w]
    have hpass : pass envInf (orc [v + 1] 1) s =
        decideStep envInf (orc [v + 1] 1) (stepNorm envInf (orc [v + 1] 1) w) u := by
      have h1 : pass envInf (orc [v + 1] 1) s = stepStage envInf (orc [v + 1] 1) { s with
          glagn := 1
          feasn := 0
          compl := 0
          ev := { s.ev with flag := 0 } } := by
        unfold pass
        rw [if_neg (by simp [env, Fl.le]), if_neg (by simp [env, Fl.le]), if_neg (by simp [orc])]
        simp only
        rw [if_neg]
        · rfl
        · rintro (h0 | h0 | h0)
          · have := h0.1; simp only [MSt.measure, orc, env] at this; norm_num at this
          · exact hd1 h0
          · exact h.pred h0
      rw [h1]
      unfold stepStage
      rw [hglob]
      simp only [PassRes.bind]
      rw [if_neg (by simp [orc])]
      have hpen : penalty (orc [v + 1] 1) w = .cont w := by
        unfold penalty
        rw [if_neg]
        simp [sigmab, orc, w, h.sigma]
      have : ({ ({ w with niter := s.niter } : MSt ℚ Unit) with niter := s.niter + 1 } : MSt ℚ Unit)
        = w := rfl
      simp only [w] at hpen heval ⊢
      rw [hpen]
      simp only
      rw [heval]
    have hs := evalTrial_sat envInf (orc [v + 1] 1) w hw
    rw [heval] at hs
    refine ⟨u, w, hpass, hs.1, hs.2.1, rfl, h.sigma, ?_, rfl, h.cur, rfl, rfl, h.ceplus, h.ceX,
      h.infoCe, h.x, rfl⟩
    show (s.ev.fX ++ [_])[s.m + 1]? = _
    rw [← hfl]; simp
  -- the decision
  have hsat := decideStep_sat envInf (orc [v + 1] 1) (stepNorm envInf (orc [v + 1] 1) w) u hu hux
  have hnorm : stepNorm envInf (orc [v + 1] 1) w = 1 := by
    simp [stepNorm, env, orc, hwx, nrm1]
  have hpred : newPred (orc [v + 1] 1) u.sigma = 1 := by
    simp [newPred, orc]
  have hform : ∃ pos Y', decideStep envInf (orc [v + 1] 1) 1 u =
      accepted envInf (orc [v + 1] 1) (-(v + 1)) 1 1 pos
        { u with pred := 1, set := { u.set with Y := Y', fac := () } } := by
    unfold decideStep
    rw [huf]
    simp only [Option.bind_some, Fl.val?, hpred]
    have hres : envInf.resNorm u.ceplus (orc [v + 1] 1).slplus = some 0 := by
      rw [hucp]; simp [Env.resNorm, resid, env, nrm1]
    rw [hres]
    simp only [hus, hum0]
    rw [if_neg (by norm_num)]
    have hrho : ((if (1 : ℚ) = -1 then -1 else (-v - (-(v + 1) + 1 * 0)) / 1 : ℚ)) = 1 := by
      rw [if_neg (by norm_num)]; ring
    rw [hrho, if_pos (by unfold cEta1; norm_num), if_neg (by linarith),
      if_neg (by rw [hucur]; simp [growable, Env.pfinal, env])]
    split
    · rename_i pos _
      exact ⟨pos, _, rfl⟩
    · rename_i hnone
      exfalso
      have hcrit := C26_include envInf.dist envInf.build (orc [v + 1] 1).lval1 (List.range u.cur)
        (1 / 10 ^ 10) (by norm_num) .distance [v + 1] [v + 1] u.set.Y u.set.fac
        (fun j => match u.set.Y[j]? with | some y => envInf.dist y [v + 1] | none => 0)
        (by intro j y hy; simp only [hy])
      generalize hinc : includeInY envInf.dist envInf.build (orc [v + 1] 1).lval1
        (List.range u.cur) (1 / 10 ^ 10) .distance [v + 1] [v + 1] u.set.Y u.set.fac = inc at hcrit
      have hnone' : inc.1 = none := by rw [← hinc]; exact hnone
      obtain ⟨i1, i2, i3⟩ := inc
      simp only at hnone'
      subst hnone'
      have := hcrit.2.2 0 (by rw [hucur]; simp) (by rw [hu.Ylen, hucur]; norm_num)
        (by simp [orc]; norm_num)
      have hY0 : u.set.Y[0]? = some [v] := by rw [huY, h.inv.Y0, h.x]
      rw [hY0] at this
      simp [Env.dist, env, nrm1] at this
      norm_num at this
  rw [hp, hnorm]
  rw [hnorm] at hsat
  obtain ⟨pos, Y', hdec⟩ := hform
  rw [hdec] at hsat ⊢
  generalize hr : accepted envInf (orc [v + 1] 1) (-(v + 1)) 1 1 pos
    { u with pred := 1, set := { u.set with Y := Y', fac := () } } = r at hsat ⊢
  unfold accepted at hr
  simp only at hr
  rw [if_neg (by simp [env])] at hr
  split at hr
  · subst hr; rcases hsat with h0 | h0 | h0 <;> cases h0
  · rename_i S hS
    split at hr
    · subst hr; rcases hsat with h0 | h0 | h0 <;> cases h0
    · rename_i x0 hx0
      subst hr
      obtain ⟨c1, c2⟩ := hsat
      refine ⟨_, rfl, ?_⟩
      have hdelta : succDelta (1 : ℚ) (orc [v + 1] 1).active 1 u.delta = 2 := by
        have h2 := h.hi
        unfold succDelta
        rw [if_pos (by unfold cEta2; norm_num), if_neg (by simp [orc]), hud, max_eq_left (by linarith)]
        unfold cDeltamax; norm_num
      have hx : x0 = [v + 1] := by
        obtain ⟨i, y, f, b1, b2, b3, b4, b5⟩ := c1.link 0 (by show 0 < u.cur; rw [hucur]; norm_num)
          (by simp)
        have hi := c1.ind0
        rw [b1] at hi
        simp only [Option.some.injEq] at hi
        have hy := c1.Y0
        rw [b2] at hy
        simp only [Option.some.injEq] at hy
        subst hi hy
        have b4' : u.ev.X[u.m]? = some y := b4
        rw [hux] at b4'
        simpa using b4'.symm
      exact {
        inv := c1
        rej := rfl
        x := hx
        infoF := hui
        lo := by show (1 : ℚ) ≤ succDelta _ _ _ _; rw [hdelta]; norm_num
        hi := by show succDelta _ _ _ _ ≤ (2 : ℚ); rw [hdelta]
        sigma := hus
        pred := by show (1 : ℚ) ≠ -1; norm_num
        v0 := by have := h.v0; linarith
        cur := hucur
        infoCe := huic
        ceplus := hucp
        ceX := huce }

/-- Negation of C11: without finite limits the run on the objective `-x` never ends, although every
kernel call returns. -/
theorem C11_endless : ∃ s0, Starts envInf [0] 1 1 [] s0 ∧
    ∀ N : ℕ, ∃ os : List (Orc ℚ Unit), os.length = N ∧ ∃ t, mainLoop envInf os s0 = .running t := by
  have h : (start envInf [0]).isSome = true := by decide +kernel
  obtain ⟨s, hs⟩ := Option.isSome_iff_exists.1 h
  have hst : Starts envInf [0] 1 1 [] s := Ex.starts rfl hs
  refine ⟨s, hst, ?_⟩
  have h0 : ∃ v, Descends envInf s v := by
    have hd : (match start envInf [0] with
      | none => false
      | some s => decide (s.rejected = false ∧ s.x = [0] ∧ s.ev.infoF.val? = some 0 ∧ s.delta = 1 ∧
          s.sigma = 1 ∧ s.pred = 0 ∧ s.cur = 2 ∧ s.infoCe = [] ∧ s.ceplus = [] ∧
          s.ev.ceX.length = 0)) = true := by decide +kernel
    rw [hs] at hd
    simp only [decide_eq_true_eq] at hd
    obtain ⟨d1, d2, d3, d4, d5, d6, d7, d8, d9, d10⟩ := hd
    refine ⟨0, hst.started.inv, d1, d2, ?_, by rw [d4], by rw [d4]; norm_num, d5,
      by rw [d6]; norm_num, le_refl _, d7, d8, d9, List.length_eq_zero_iff.1 d10⟩
    cases hq : s.ev.infoF with
    | fin q => rw [hq] at d3; simp only [Fl.val?, Option.some.injEq] at d3; rw [d3]; simp
    | nan => rw [hq] at d3; cases d3
    | pinf => rw [hq] at d3; cases d3
    | ninf => rw [hq] at d3; cases d3
  intro N
  clear hst hs h
  induction N generalizing s with
  | zero => exact ⟨[], rfl, s, rfl⟩
  | succ N ih =>
    obtain ⟨v, hv⟩ := h0
    obtain ⟨t, ht, hd⟩ := Ex.descends_step s v hv
    obtain ⟨os, hos, u, hu⟩ := ih t ⟨_, hd⟩
    exact ⟨orc [v + 1] 1 :: os, by simp [hos], u, by simp only [mainLoop, ht]; exact hu⟩

#print axioms C09_iteration_budget_real
#print axioms C09_iteration_budget
#print axioms C10_evaluation_budget_real
#print axioms C10_evaluation_budget_partial
#print axioms C10_restart_exceeds_budget
#print axioms C11_statuses
#print axioms C11_terminates_partial
#print axioms C11_endless

end Sqpdfo
