import Verif.Spec.Entry
import Verif.Lemmas.InitSet
import Verif.Props.C01_C02_Options

/-! # Lemmas on the set-up -/

set_option linter.unusedSectionVars false

namespace Sqpdfo
open Spec
variable {K : Type} [Field K] [LinearOrder K] [IsStrictOrderedRing K]

theorem dict_eq (a : OptArg) : a.dict = userOpts a := by cases a <;> rfl

/-- The slack count as a number. -/
theorem slackCount_some (li ui : List K) (p : ℕ → Bool)
    (hp : ∀ i l u, li[i]? = some l → ui[i]? = some u →
      (p i = true ↔ l < u ∧ -10 ^ 7 < l ∧ u < 10 ^ 7)) :
    ∀ (k acc : ℕ), k ≤ li.length → k ≤ ui.length →
    (List.range k).foldlM (fun acc i => do
      let l ← li[i]?
      let u ← ui[i]?
      return if l < u then (if l > -10 ^ 7 ∧ u < 10 ^ 7 then acc + 1 else acc) else acc) acc
      = some (acc + (List.range k).countP p) := by
  intro k
  induction k with
  | zero => intro acc _ _; simp
  | succ k ih =>
    intro acc h1 h2
    rw [List.range_succ, List.foldlM_append, ih acc (by omega) (by omega)]
    have e1 : li[k]? = some li[k] := List.getElem?_eq_getElem (by omega)
    have e2 : ui[k]? = some ui[k] := List.getElem?_eq_getElem (by omega)
    have := hp k _ _ e1 e2
    simp only [Option.bind_eq_bind, Option.bind_some, List.foldlM_cons, e1, e2, List.foldlM_nil,
      List.countP_append, List.countP_singleton]
    by_cases hk : p k = true
    · obtain ⟨g1, g2, g3⟩ := this.1 hk
      simp [hk, g1, g2, g3, add_assoc]
    · have h3 : ¬ (li[k] < ui[k] ∧ -10 ^ 7 < li[k] ∧ ui[k] < 10 ^ 7) := fun h => hk (this.2 h)
      have h4 : p k = false := by simpa using hk
      by_cases g1 : li[k] < ui[k]
      · have g2 : ¬ (-10 ^ 7 < li[k] ∧ ui[k] < 10 ^ 7) := fun h => h3 ⟨g1, h⟩
        simp [h4, g1, g2]
      · simp [h4, g1]

theorem slackCount_ex (mi me : ℕ) (li ui : List K) (h1 : mi + me ≤ li.length)
    (h2 : mi + me ≤ ui.length) : ∃ k, slackCount mi me li ui = some k := by
  classical
  refine ⟨_, slackCount_some li ui (fun i => decide (TwoSided li ui i)) ?_ (mi + me) mi h1 h2⟩
  intro i l u hl hu
  simp only [decide_eq_true_eq, TwoSided, hl, hu, Option.some.injEq]
  constructor
  · rintro ⟨l', u', rfl, rfl, h⟩; exact h
  · intro h; exact ⟨l, u, rfl, rfl, h⟩

/-- A failed pass reports status 3. -/
theorem samplePass_failed {P : Type} (U : User P K) :
    ∀ (ys : List P) (i : ℕ) (s s' : EvSt P K), samplePass U ys i s = .failed s' →
      s.flag = 0 → s'.flag = 3 := by
  intro ys
  induction ys with
  | nil => intro i s s' h; simp [samplePass] at h
  | cons y ys ih =>
    intro i s s' h h0
    simp only [samplePass] at h
    split at h
    · cases h
    · rename_i t ht
      obtain ⟨-, -, -, g⟩ := augmX_count U y i s t ht
      split at h
      · rename_i hfl
        cases h
        rcases g with ⟨g, _⟩ | ⟨g, _⟩
        · exact g
        · exact absurd (g.trans h0) hfl
      · rename_i hfl
        split at h
        · cases h
        · split at h
          · cases h
          · exact ih _ _ _ h (by simpa using hfl)

theorem initLoop_failed (U : User (List K) K) (x0 : List K) (nx : K) :
    ∀ (N : ℕ) (Δ : K) (s s' : EvSt (List K) K), initLoop U x0 nx N Δ s = .failed s' →
      s.flag = 0 → s'.flag = 3 := by
  intro N
  induction N with
  | zero => intro Δ s s' h; simp [initLoop] at h
  | succ N ih =>
    intro Δ s s' h h0
    simp only [initLoop] at h
    cases hp : samplePass U (simplex x0 Δ) 0
        ({ s with X := [], fX := [], ceX := [] } : EvSt (List K) K) with
    | crash => rw [hp] at h; simp at h
    | failed t => rw [hp] at h; cases h; exact samplePass_failed U _ _ _ _ hp h0
    | full t =>
      rw [hp] at h
      simp only at h
      split at h
      · cases h
      · split at h <;> cases h
    | broke t =>
      rw [hp] at h
      simp only at h
      have hflt : t.flag = 0 := samplePass_broke_flag U _ _ _ _ hp
      split at h
      · cases h
      · split at h
        · cases h
        · split at h
          · cases h
          · exact ih _ _ _ h (by exact hflt)

end Sqpdfo

namespace Sqpdfo
open Spec
variable {K : Type} [Field K] [LinearOrder K] [IsStrictOrderedRing K]

theorem normBnd_ok {r c : ℕ} {v : K} {b : BndArg K} (h : BndOk r c b) :
    ∃ L, normBnd r c v b = .col L ∧
      (r * c ≠ 0 → (r = 1 ∨ c = 1) → L = meant v (r * c) b ∧ L.length = r * c) := by
  have hmax : r * c ≠ 0 → (r = 1 ∨ c = 1) → max r c = r * c := by
    intro h0 h1
    have hr : 1 ≤ r := Nat.one_le_iff_ne_zero.2 (fun h => by simp [h] at h0)
    have hc : 1 ≤ c := Nat.one_le_iff_ne_zero.2 (fun h => by simp [h] at h0)
    rcases h1 with rfl | rfl
    · simp [hc]
    · simp [hr]
  rcases h with ⟨rfl, rfl⟩ | rfl | ⟨l, rfl, hl⟩
  · exact ⟨List.replicate c v, by simp [normBnd, defaultBnd], fun _ _ => by simp [meant]⟩
  · exact ⟨List.replicate (max r c) v, rfl, fun h0 h1 => by simp [meant, hmax h0 h1]⟩
  · cases l with
    | nil => exact ⟨List.replicate (max r c) v, rfl, fun h0 h1 => by simp [meant, hmax h0 h1]⟩
    | cons a as => exact ⟨a :: as, rfl, fun _ _ => ⟨rfl, hl⟩⟩

/-- What the argument checks hand over for well-formed arguments. -/
theorem checkArgs_ok {a : Args K} (hw : WellFormed a) (g : Globals K) (hf : a.f = .fn)
    (hc : ¬ (a.c = .missing ∧ 0 < a.me + a.mi)) {r c : ℕ} {d : List K}
    (hx : a.x0 = .mat r c d) :
    ∃ L V e1 e2 g', checkArgs a g =
        (.ok (if r = 1 ∧ c > 1 then c else r) (if r = 1 ∧ c > 1 then r else c) d
          (.col (L ++ e1)) (.col (V ++ e2)), g') ∧
      (r * c ≠ 0 → (r = 1 ∨ c = 1) →
        L = meant (-10 ^ 20) d.length a.lb ∧ V = meant (10 ^ 20) d.length a.ub ∧
        L.length = d.length ∧ V.length = d.length) := by
  have hd := hw.data _ _ _ hx
  obtain ⟨L, hL, hL'⟩ := normBnd_ok (v := (-10 ^ 20 : K)) (hw.lb _ _ _ hx)
  obtain ⟨V, hV, hV'⟩ := normBnd_ok (v := (10 ^ 20 : K)) (hw.ub _ _ _ hx)
  have hfin : r * c ≠ 0 → (r = 1 ∨ c = 1) →
        L = meant (-10 ^ 20) d.length a.lb ∧ V = meant (10 ^ 20) d.length a.ub ∧
        L.length = d.length ∧ V.length = d.length := by
    intro h0 h1
    rw [hd]
    exact ⟨(hL' h0 h1).1, (hV' h0 h1).1, (hL' h0 h1).2, (hV' h0 h1).2⟩
  have hc' : ¬ (a.c = .missing ∧ a.me + a.mi > 0) := hc
  unfold checkArgs
  simp only [hf, hc', hw.c, if_false, hx, hL, hV]
  have hsplit : (if r = 1 ∧ c > 1 then (c, r) else (r, c)) =
      (if r = 1 ∧ c > 1 then c else r, if r = 1 ∧ c > 1 then r else c) := by
    split_ifs <;> rfl
  rw [hsplit]
  by_cases hmi : a.mi = 0
  · refine ⟨L, V, [], [], g, ?_, hfin⟩
    simp [hmi]
  · simp only [hmi, if_false, ciBounds]
    have hli : a.mi + a.me ≤ (a.li.getD (List.replicate (a.mi + a.me) (-10 ^ 9))).length := by
      cases h : a.li with
      | none => simp
      | some l => simpa using hw.li l h
    have hui : a.mi + a.me ≤ (a.ui.getD (List.replicate (a.mi + a.me) (10 ^ 9))).length := by
      cases h : a.ui with
      | none => simp
      | some l => simpa using hw.ui l h
    obtain ⟨k, hk⟩ := slackCount_ex a.mi a.me _ _ hli hui
    refine ⟨L, V, List.replicate k 0, List.replicate k (10 ^ 20),
      ⟨k, List.replicate k 0⟩, ?_, hfin⟩
    rw [hk]
    simp [extendBnd]

theorem boundsPart_eq (d L V e1 e2 : List K) (hL : L.length = d.length)
    (hV : V.length = d.length) :
    boundsPart d.length d (L ++ e1) (V ++ e2) =
      some (checkBounds (List.zipWith (fun b x => ⟨b.1, b.2, x⟩) (List.zip L V) d)) := by
  have h1 : List.zip (List.zip (L ++ e1) (V ++ e2)) d = List.zip (List.zip L V) d := by
    apply List.ext_getElem
    · simp; omega
    · intro i h1 h2
      simp only [List.length_zip, List.length_append] at h1 h2
      simp only [List.getElem_zip]
      rw [List.getElem_append_left (by omega), List.getElem_append_left (by omega)]
  have h2 : ((List.zip (List.zip L V) d).map fun p => (⟨p.1.1, p.1.2, p.2⟩ : Var K)) =
      List.zipWith (fun b x => ⟨b.1, b.2, x⟩) (List.zip L V) d := by
    rw [List.zip_eq_zipWith, List.map_zipWith]
  have h3 : (List.zipWith (fun (b : K × K) x => (⟨b.1, b.2, x⟩ : Var K)) (List.zip L V) d).length
      = d.length := by simp; omega
  unfold boundsPart
  simp only [h1, h2]
  rw [List.take_of_length_le (by omega)]
  rw [if_neg (by omega)]

end Sqpdfo
