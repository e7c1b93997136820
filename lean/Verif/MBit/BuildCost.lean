/-
`build` of MultiBitVector once more, this time counting the accesses to array cells (words read, entries of
the rank tips written), and the proof that it returns what the function of the model returns.
-/
import Verif.MBit.Lemmas
import Verif.IArr.Cost
import Verif.Wave.BuildCost

namespace Verif.MBit
open Verif.Bits Verif.IArr Verif.Reads

/-- `operator[]`, MultiBitVector.hpp:136-138. -/
def getC (S : Nat) (v : MBV) (i : Nat) : M Nat := do
  let w ← acc v.words[absI S i]?
  pure ((w >>> relI S i) &&& kMask S).toNat

/-- `num_types`, MultiBitVector.hpp:204-206. -/
def numTypesC (S : Nat) (v : MBV) : (n i m : Nat) → M Nat
  | 0, _, m => pure m
  | n + 1, i, m => do
    let x ← getC S v i
    numTypesC S v n (i + 1) (max m (x + 1))

/-- The count after word `index`, MultiBitVector.hpp:221-223: a word is read if there is one. -/
def countC (S : Nat) (ws : List W64) (t index count : Nat) : M Nat :=
  match ws[index]? with
  | some w => acc (some (count + popT S t w))
  | none => pure count

/-- The inner loop of `build`, MultiBitVector.hpp:218-224: one entry of `L2` is written in every round, and a
word is read if there is one. -/
def tipInnerC (S : Nat) (ws : List W64) (t L1 : Nat) : (n index count : Nat) → M (List Nat × Nat)
  | 0, _, count => pure ([], count)
  | n + 1, index, count => do
    let _ ← ticks 1
    let count' ← countC S ws t index count
    let r ← tipInnerC S ws t L1 n (index + 1) count'
    pure ((count - L1) % 256 :: r.1, r.2)

/-- The loop over tips, MultiBitVector.hpp:215-225. -/
def tipLoopC (S : Nat) (ws : List W64) (t : Nat) : (n i count : Nat) → M (List Tip)
  | 0, _, _ => pure []
  | n + 1, i, count => do
    let _ ← ticks 1
    let r ← tipInnerC S ws t count (tipSize S) (i * tipSize S) count
    let l ← tipLoopC S ws t n (i + 1) r.2
    pure ((count, r.1) :: l)

/-- The loop over types, MultiBitVector.hpp:210-226. -/
def typeLoopC (S : Nat) (ws : List W64) (size : Nat) : (n t : Nat) → List (List Tip) → M (List (List Tip))
  | 0, _, tips => pure tips
  | n + 1, t, tips => do
    let l ← tipLoopC S ws t size 0 0
    let tips ← acc (wr tips (t - 1) l)
    typeLoopC S ws size n (t + 1) tips

/-- `build`, MultiBitVector.hpp:200-227. -/
def buildC (S : Nat) (v : MBV) : M MBV :=
  if v.words.length = 0 then pure v
  else do
    let num ← numTypesC S v (v.words.length * bitsInType S / S) 0 0
    let size := (v.words.length + tipSize S - 1) / tipSize S
    let tips ← typeLoopC S v.words size (num - 1) 1 v.tips
    pure { v with tips := tips }

/-! ### Same results, and bounds on the counts -/

theorem get_costs (S : Nat) (v : MBV) (i : Nat) : Costs (getC S v i) (v.get S i) 1 :=
  Costs.bind (Costs.acc _) fun _ => Costs.pure _

theorem numTypes_costs (S : Nat) (v : MBV) : ∀ (n i m : Nat), Costs (numTypesC S v n i m) (numTypes S v n i m) n := by
  intro n
  induction n with
  | zero => intro i m; exact Costs.pure _
  | succ n ih =>
    intro i m
    exact (Costs.bind (get_costs S v i) fun x => ih _ _).mono (by omega)

theorem count_costs (S : Nat) (ws : List W64) (t index count : Nat) : Costs (countC S ws t index count)
    (some (match ws[index]? with
      | some w => count + popT S t w
      | none => count)) 1 := by
  unfold countC
  cases ws[index]? with
  | none => exact (Costs.pure _).mono (by omega)
  | some w => exact Costs.acc _

theorem tipInner_costs (S : Nat) (ws : List W64) (t L1 : Nat) : ∀ (n index count : Nat),
    Costs (tipInnerC S ws t L1 n index count) (some (tipInner S ws t L1 n index count)) (2 * n) := by
  intro n
  induction n with
  | zero => intro index count; exact Costs.pure _
  | succ n ih =>
    intro index count
    have h := Costs.bind (g := fun c => some ((count - L1) % 256 :: (tipInner S ws t L1 n (index + 1) c).1, (tipInner S ws t L1 n (index + 1) c).2))
      (count_costs S ws t index count) fun c =>
        Costs.bind (g := fun r => some ((count - L1) % 256 :: r.1, r.2)) (ih (index + 1) c) fun r => Costs.pure ((count - L1) % 256 :: r.1, r.2)
    exact (Costs.bind (g := fun _ => some (tipInner S ws t L1 (n + 1) index count)) (Costs.ticks 1) fun _ => h).mono (by omega)

theorem tipLoop_costs (S : Nat) (ws : List W64) (t : Nat) : ∀ (n i count : Nat),
    Costs (tipLoopC S ws t n i count) (some (tipLoop S ws t n i count)) (n * (2 * tipSize S + 1)) := by
  intro n
  induction n with
  | zero => intro i count; exact (Costs.pure _).mono (by omega)
  | succ n ih =>
    intro i count
    unfold tipLoopC tipLoop
    refine Costs.mono (Costs.bind (g := fun _ => some _) (Costs.ticks 1) fun _ => Costs.bind_some (p := some _) (g := fun r => some ((count, r.1) :: tipLoop S ws t n (i + 1) r.2)) (tipInner_costs S ws t count _ _ _) fun r hr =>
      Costs.bind (p := some _) (g := fun l => some ((count, r.1) :: l)) (ih (i + 1) r.2) fun l => Costs.pure _) ?_
    have : (n + 1) * (2 * tipSize S + 1) = n * (2 * tipSize S + 1) + (2 * tipSize S + 1) := Nat.succ_mul _ _
    omega

theorem typeLoop_costs (S : Nat) (ws : List W64) (size : Nat) : ∀ (n t : Nat) (tips : List (List Tip)),
    Costs (typeLoopC S ws size n t tips) (typeLoop S ws size n t tips) (n * (size * (2 * tipSize S + 1) + 1)) := by
  intro n
  induction n with
  | zero => intro t tips; exact (Costs.pure _).mono (by omega)
  | succ n ih =>
    intro t tips
    unfold typeLoopC typeLoop
    refine Costs.mono (Costs.bind_some (p := some _) (g := fun l => do
        let tips ← wr tips (t - 1) l
        typeLoop S ws size n (t + 1) tips) (tipLoop_costs S ws t size 0 0) fun l hl => Costs.bind (Costs.acc _) fun tips' => ih _ _) ?_
    have : (n + 1) * (size * (2 * tipSize S + 1) + 1) = n * (size * (2 * tipSize S + 1) + 1) + (size * (2 * tipSize S + 1) + 1) := Nat.succ_mul _ _
    omega

/-- The number of types is at most `2^S`. -/
theorem numTypes_le (S : Nat) (v : MBV) : ∀ (n i m r : Nat), m ≤ 2 ^ S → numTypes S v n i m = some r → r ≤ 2 ^ S := by
  intro n
  induction n with
  | zero => intro i m r hm e; cases e; exact hm
  | succ n ih =>
    intro i m r hm e
    unfold numTypes at e
    cases e1 : v.get S i with
    | none => simp [e1] at e
    | some x =>
      simp only [e1, Option.bind_eq_bind, Option.bind_some] at e
      refine ih _ _ _ ?_ e
      have hx : x < 2 ^ S := by
        unfold MBV.get at e1
        cases ew : v.words[absI S i]? with
        | none => simp [ew] at e1
        | some w =>
          simp only [ew, Option.bind_eq_bind, Option.bind_some, Option.pure_def, Option.some.injEq] at e1
          rw [← e1, BitVec.toNat_and]
          have hp := Nat.two_pow_pos S
          have : (kMask S).toNat ≤ 2 ^ S - 1 := by
            unfold kMask; rw [BitVec.toNat_ofNat]; exact Nat.mod_le _ _
          have := Nat.and_le_right (n := (w >>> relI S i).toNat) (m := (kMask S).toNat)
          omega
      omega

theorem build_costs (S : Nat) (v : MBV) : Costs (buildC S v) (v.build S)
    (v.words.length * bitsInType S / S + (2 ^ S - 1) * ((v.words.length + tipSize S - 1) / tipSize S * (2 * tipSize S + 1) + 1)) := by
  unfold buildC MBV.build
  by_cases h0 : v.words.length = 0
  · rw [if_pos h0, if_pos h0]; exact (Costs.pure _).mono (Nat.zero_le _)
  · rw [if_neg h0, if_neg h0]
    refine Costs.bind_some (numTypes_costs S v _ 0 0) fun num e => ?_
    have hn := numTypes_le S v _ 0 0 num (Nat.zero_le _) e
    refine (Costs.bind (typeLoop_costs S v.words _ (num - 1) 1 v.tips) fun tips => Costs.pure _).mono ?_
    exact Nat.mul_le_mul_right _ (by omega)

end Verif.MBit
