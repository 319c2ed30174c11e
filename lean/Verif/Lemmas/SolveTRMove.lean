import Verif.Spec.Translate
import Mathlib.Tactic.Ring

/-! # The step solver for moved variables -/

set_option linter.unusedSectionVars false

namespace Sqpdfo
open Matrix
variable {K : Type} [Field K] [LinearOrder K] [IsStrictOrderedRing K] {n m q : ℕ}

open Spec

/-- The state of the loop with its point moved by `a`. -/
def moveST (a : Fin n → K) (S : STState K n m q) : STState K n m q := { S with x := S.x + a }

variable (a : Fin n → K)

theorem elim_move (x : Fin n → K) (sl : Fin q → K) (v : VS n q) :
    Sum.elim (x + a) sl v = Sum.elim x sl v + Sum.elim a (fun _ => 0) v := by
  cases v <;> simp

theorem restIn_move (k : STKer K n m q) (I : STIn K n m q) (S : STState K n m q) :
    restIn (moveKer a k) (moveIn a I) (moveST a S) = restIn k I S := by
  unfold restIn moveKer moveIn moveST
  simp only [elim_move, add_sub_add_right_eq_sub]

theorem restoration_move (k : STKer K n m q) (I : STIn K n m q) (S : STState K n m q) :
    restoration (moveKer a k) (moveIn a I) (moveST a S) = restoration k I S := by
  unfold restoration
  rw [restIn_move]
  rfl

theorem trialSlack_move (I : STIn K n m q) (S : STState K n m q) (r t : VS n q → K) :
    trialSlack (moveIn a I) (moveST a S) r t = trialSlack I S r t := by
  unfold trialSlack moveIn moveST
  simp only [Sum.elim_inr, add_zero]

theorem scan_move (I : STIn K n m q) (y : Fin n → K) : ∀ l act, scan (moveIn a I) (y + a) l act = scan I y l act := by
  intro l
  induction l with
  | nil => intro act; rfl
  | cons i l ih =>
    intro act
    simp only [scan, ih]
    simp only [moveIn, Pi.add_apply, Sum.elim_inl, add_sub_add_right_eq_sub]

theorem minRatio_move (I : STIn K n m q) (xr t : VS n q → K) :
    minRatio (moveIn a I) (fun v => xr v + Sum.elim a (fun _ => 0) v) t = minRatio I xr t := by
  have : ratios (moveIn a I) (fun v => xr v + Sum.elim a (fun _ => 0) v) t = ratios I xr t := by
    unfold ratios
    simp only [moveIn, add_sub_add_right_eq_sub, neg_add]
  unfold minRatio
  rw [this]

theorem trialX_move (S : STState K n m q) (r t : VS n q → K) : trialX (moveST a S) r t = trialX S r t + a := by
  funext i
  simp only [trialX, moveST, Pi.add_apply]
  ring

theorem shorten_move (k : STKer K n m q) (I : STIn K n m q) (r t : VS n q → K) (S : STState K n m q) :
    shorten (moveKer a k) (moveIn a I) r t (moveST a S) = moveST a (shorten k I r t S) := by
  have h : minRatio (moveIn a I) (Sum.elim (moveST a S).x (moveIn a I).sl + r) t = minRatio I (Sum.elim S.x I.sl + r) t := by
    rw [← minRatio_move a I (Sum.elim S.x I.sl + r) t]
    congr 1
    funext v
    show Sum.elim (S.x + a) I.sl v + r v = _
    rw [elim_move, Pi.add_apply, add_right_comm]
  unfold shorten
  simp only [h]
  unfold moveST
  congr 1
  funext i
  simp only [Pi.add_apply]
  ring

theorem zeroStep_move (k : STKer K n m q) (x : Fin n → K) (act : List (Fin n)) (S : STState K n m q) :
    zeroStep (moveKer a k) (x + a) act (moveST a S) = (moveST a (zeroStep k x act S).1, (zeroStep k x act S).2) := by
  unfold zeroStep
  have h : (moveKer a k).mult (x + a) = k.mult x := by simp only [moveKer, add_sub_cancel_right]
  rw [h]
  by_cases h1 : S.fix = []
  · rw [if_pos h1, if_pos (show (moveST a S).fix = [] from h1)]
  · rw [if_neg h1, if_neg (show ¬ (moveST a S).fix = [] from h1)]
    dsimp only
    by_cases h2 : (minPos (k.mult x).1 S.fix).2 < 0
    · rw [if_pos h2, if_pos (show (minPos (k.mult x).1 (moveST a S).fix).2 < 0 from h2)]
      by_cases h3 : act.length = S.fix.length ∧ act.insertionSort (· ≤ ·) = S.fix.insertionSort (· ≤ ·)
      · rw [if_pos h3, if_pos (show act.length = (moveST a S).fix.length ∧ act.insertionSort (· ≤ ·) = (moveST a S).fix.insertionSort (· ≤ ·) from h3)]
        rfl
      · rw [if_neg h3, if_neg (show ¬ (act.length = (moveST a S).fix.length ∧ act.insertionSort (· ≤ ·) = (moveST a S).fix.insertionSort (· ≤ ·)) from h3)]
        rfl
    · rw [if_neg h2, if_neg (show ¬ (minPos (k.mult x).1 (moveST a S).fix).2 < 0 from h2)]
      rfl

theorem stEnd_move (k : STKer K n m q) (I : STIn K n m q) (r t : VS n q → K) (actR actT : Bool) (x : Fin n → K)
    (act : List (Fin n)) (viol : Option (Fin n)) (S : STState K n m q) :
    stEnd (moveKer a k) (moveIn a I) r t actR actT (x + a) act viol (moveST a S) =
      (stEnd k I r t actR actT x act viol S).map (moveOut a) (moveST a) := by
  unfold stEnd
  dsimp only
  rw [zeroStep_move]
  have hu : ∀ S : STState K n m q, (if viol.isSome = true then shorten (moveKer a k) (moveIn a I) r t (moveST a S) else moveST a S) =
      moveST a (if viol.isSome = true then shorten k I r t S else S) := by
    intro S
    split
    · exact shorten_move a k I r t S
    · rfl
  simp only [hu]
  have hn : ((moveKer a k).nrm fun i : Fin n => r (.inl i) + t (.inl i)) = k.nrm fun i : Fin n => r (.inl i) + t (.inl i) := rfl
  have hi : (moveST a S).iter = S.iter := rfl
  have hδ : (moveST a S).δ = S.δ := rfl
  rw [hn, hi, hδ]
  by_cases h1 : k.nrm (fun i : Fin n => r (.inl i) + t (.inl i)) ≤ 1 / 10 ^ 16
  · simp only [if_pos h1]
    by_cases h2 : S.iter ≥ 10 * n ∨ S.δ < 1 / 10 ^ 8
    · simp only [if_pos h2]; rfl
    · simp only [if_neg h2]
      by_cases h3 : (zeroStep k x act S).2 = true
      · simp only [if_pos h3]; rfl
      · simp only [if_neg h3]; rfl
  · simp only [if_neg h1]
    by_cases h4 : viol.isSome = true
    · simp only [if_pos h4]; rfl
    · simp only [if_neg h4]; rfl

theorem stPass_move (k : STKer K n m q) (I : STIn K n m q) (S : STState K n m q) :
    stPass (moveKer a k) (moveIn a I) (moveST a S) = (stPass k I S).map (Sum.map (moveOut a) (moveST a)) := by
  unfold stPass
  rw [restoration_move]
  cases restoration k I S with
  | none => rfl
  | some p =>
    obtain ⟨r, actR, rpred⟩ := p
    simp only [Option.map_some, Option.some.injEq]
    have ht : tangent (moveKer a k) (moveIn a I) (moveST a S) r = tangent k I S r := rfl
    rw [ht, trialX_move, scan_move, ← stEnd_move]
    congr 1
    unfold afterScan
    rw [trialSlack_move]
    rfl

theorem stLoop_move (k : STKer K n m q) (I : STIn K n m q) : ∀ f S,
    stLoop (moveKer a k) (moveIn a I) f (moveST a S) = (stLoop k I f S).map (moveOut a) := by
  intro f
  induction f with
  | zero => intro S; rfl
  | succ f ih =>
    intro S
    simp only [stLoop, stPass_move]
    cases stPass k I S with
    | none => rfl
    | some r =>
      cases r with
      | inl o => rfl
      | inr S => exact ih { S with iter := S.iter + 1 }

theorem stStart_move (I : STIn K n m q) : stStart (moveIn a I) = moveST a (stStart I) := by
  have hg : gradLag (moveIn a I) = gradLag I := by
    funext i
    simp only [gradLag, moveIn, Pi.add_apply, Sum.elim_inl, add_sub_add_right_eq_sub]
  have ha : activeRows (moveIn a I) = activeRows I := by
    unfold activeRows
    rw [hg]
    simp only [moveIn, Pi.add_apply, Sum.elim_inl, add_sub_add_right_eq_sub]
    simp only [add_sub_right_comm, add_le_add_iff_right, ge_iff_le]
  unfold stStart
  rw [ha]
  rfl

theorem solveTR_move (k : STKer K n m q) (I : STIn K n m q) : solveTR (moveKer a k) (moveIn a I) = (solveTR k I).map (moveOut a) := by
  unfold solveTR
  rw [stStart_move, stLoop_move]

end Sqpdfo
