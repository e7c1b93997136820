/-
Helper facts for the bijective hash.
-/
import Verif.Hash.Model

namespace Verif.Hash

/-- The constants of the table, as a total function. -/
def cst (w k : Nat) : Nat := ((primeTable[w]?.map (·.1)).getD [])[k]?.getD 0
def icst (w k : Nat) : Nat := ((primeTable[w]?.map (·.2)).getD [])[k]?.getD 0

theorem table_inverse : ∀ w : Fin 64, ∀ k : Fin 3, cst w k * icst w k % 2 ^ w.1 = 1 % 2 ^ w.1 ∧
    (primeTable[w.1]?.bind (·.1[k.1]?)).isSome ∧ (primeTable[w.1]?.bind (·.2[k.1]?)).isSome := by decide +kernel

theorem mask_mod (w x p : Nat) (hw : w < 64) : (x * p % 2 ^ 64) &&& mask w = x * p % 2 ^ w := by
  unfold mask
  rw [if_pos hw, Nat.and_two_pow_sub_one_eq_mod, Nat.mod_mod_of_dvd _ (Nat.pow_dvd_pow 2 (by omega))]

theorem mulHash_eq (w k x : Nat) (hw : w < 64) (hk : k < 3) : mulHash w k x = some (x * cst w k % 2 ^ w) := by
  have h := (table_inverse ⟨w, hw⟩ ⟨k, hk⟩).2.1
  simp only at h
  unfold mulHash cst
  cases h1 : primeTable[w]? with
  | none => simp [h1] at h
  | some row =>
    cases h2 : row.1[k]? with
    | none => simp [h1, h2] at h
    | some p => simp [h2, mask_mod w x p hw]

theorem mulIhash_eq (w k x : Nat) (hw : w < 64) (hk : k < 3) : mulIhash w k x = some (x * icst w k % 2 ^ w) := by
  have h := (table_inverse ⟨w, hw⟩ ⟨k, hk⟩).2.2
  simp only at h
  unfold mulIhash icst
  cases h1 : primeTable[w]? with
  | none => simp [h1] at h
  | some row =>
    cases h2 : row.2[k]? with
    | none => simp [h1, h2] at h
    | some p => simp [h2, mask_mod w x p hw]

theorem mul_inv (w k x : Nat) (hw : w < 64) (hk : k < 3) (hx : x < 2 ^ w) :
    x * cst w k % 2 ^ w * icst w k % 2 ^ w = x ∧ x * icst w k % 2 ^ w * cst w k % 2 ^ w = x := by
  have h := (table_inverse ⟨w, hw⟩ ⟨k, hk⟩).1
  simp only at h
  constructor
  · rw [Nat.mod_mul_mod, Nat.mul_assoc, Nat.mul_mod, h, ← Nat.mul_mod, Nat.mul_one, Nat.mod_eq_of_lt hx]
  · rw [Nat.mod_mul_mod, Nat.mul_assoc, Nat.mul_comm (icst w k), Nat.mul_mod, h, ← Nat.mul_mod, Nat.mul_one, Nat.mod_eq_of_lt hx]

def xs (w k x : Nat) : Nat := x ^^^ (x >>> (shifts w + k))

theorem xorHash_eq (w k x : Nat) (hw : w < 64) (hk : k < 3) : xorHash w k x = some (xs w k x) := by
  unfold xorHash xs
  rw [if_pos (by unfold shifts; omega)]

theorem xs_lt (w k x : Nat) (hx : x < 2 ^ w) : xs w k x < 2 ^ w :=
  Nat.xor_lt_two_pow hx (Nat.lt_of_le_of_lt (by rw [Nat.shiftRight_eq_div_pow]; exact Nat.div_le_self _ _) hx)

theorem xs_inv (w k x : Nat) (hx : x < 2 ^ w) : xs w k (xs w k x) = x := by
  unfold xs
  apply Nat.eq_of_testBit_eq
  intro i
  simp only [Nat.testBit_xor, Nat.testBit_shiftRight]
  have : x.testBit (shifts w + k + (shifts w + k + i)) = false :=
    Nat.testBit_lt_two_pow (Nat.lt_of_lt_of_le hx (Nat.pow_le_pow_right (by omega) (by unfold shifts; omega)))
  rw [this]
  cases x.testBit i <;> cases x.testBit (shifts w + k + i) <;> rfl

def st (w k x : Nat) : Nat := xs w k x * cst w k % 2 ^ w
def ist (w k x : Nat) : Nat := xs w k (x * icst w k % 2 ^ w)

theorem step_eq (w k x : Nat) (hw : w < 64) (hk : k < 3) : step w k x = some (st w k x) := by
  simp [step, xorHash_eq w k x hw hk, mulHash_eq w k _ hw hk, st]

theorem istep_eq (w k x : Nat) (hw : w < 64) (hk : k < 3) : istep w k x = some (ist w k x) := by
  simp [istep, mulIhash_eq w k x hw hk, xorHash_eq w k _ hw hk, ist]

theorem st_lt (w k x : Nat) : st w k x < 2 ^ w := Nat.mod_lt _ (Nat.two_pow_pos w)
theorem ist_lt (w k x : Nat) : ist w k x < 2 ^ w := xs_lt w k _ (Nat.mod_lt _ (Nat.two_pow_pos w))

theorem ist_st (w k x : Nat) (hw : w < 64) (hk : k < 3) (hx : x < 2 ^ w) : ist w k (st w k x) = x := by
  unfold ist st
  rw [(mul_inv w k _ hw hk (xs_lt w k x hx)).1, xs_inv w k x hx]

theorem st_ist (w k x : Nat) (hw : w < 64) (hk : k < 3) (hx : x < 2 ^ w) : st w k (ist w k x) = x := by
  unfold ist st
  rw [xs_inv w k _ (Nat.mod_lt _ (Nat.two_pow_pos w)), (mul_inv w k x hw hk hx).2]

theorem hash_eq (w x : Nat) (hw : w < 64) : hash w x = some (st w 2 (st w 1 (st w 0 x))) := by
  simp [hash, step_eq w _ _ hw]

theorem ihash_eq (w x : Nat) (hw : w < 64) : ihash w x = some (ist w 0 (ist w 1 (ist w 2 x))) := by
  simp [ihash, istep_eq w _ _ hw]

end Verif.Hash
