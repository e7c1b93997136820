/-
C43: the bijective hash.
-/
import Verif.Hash.Lemmas

namespace Verif.Hash

/-- C43: for every width below 64, `hash` maps keys below `2 ^ width` to such numbers and `ihash` takes them back. -/
theorem C43_ihash_hash (w x : Nat) (hw : w < 64) (hx : x < 2 ^ w) : ∃ y, hash w x = some y ∧ y < 2 ^ w ∧ ihash w y = some x := by
  refine ⟨_, hash_eq w x hw, st_lt _ _ _, ?_⟩
  rw [ihash_eq w _ hw, ist_st w 2 _ hw (by omega) (st_lt _ _ _), ist_st w 1 _ hw (by omega) (st_lt _ _ _), ist_st w 0 _ hw (by omega) hx]

/-- C43: and the other way round. -/
theorem C43_hash_ihash (w y : Nat) (hw : w < 64) (hy : y < 2 ^ w) : ∃ x, ihash w y = some x ∧ x < 2 ^ w ∧ hash w x = some y := by
  refine ⟨_, ihash_eq w y hw, ist_lt _ _ _, ?_⟩
  rw [hash_eq w _ hw, st_ist w 0 _ hw (by omega) (ist_lt _ _ _), st_ist w 1 _ hw (by omega) (ist_lt _ _ _), st_ist w 2 _ hw (by omega) hy]

/-- C43: distinct keys never collide. -/
theorem C43_injective (w x y : Nat) (hw : w < 64) (hx : x < 2 ^ w) (hy : y < 2 ^ w) (h : hash w x = hash w y) : x = y := by
  obtain ⟨u, eu, _, iu⟩ := C43_ihash_hash w x hw hx
  obtain ⟨v, ev, _, iv⟩ := C43_ihash_hash w y hw hy
  rw [eu, ev] at h
  rw [Option.some.inj h, iv] at iu
  exact (Option.some.inj iu).symm

example := C43_injective 8 200 200 (by decide) (by decide) (by decide) rfl

/-- C43: each of the two building blocks is a bijection by itself: the multiplication ... -/
theorem C43_multiply (w k x : Nat) (hw : w < 64) (hk : k < 3) (hx : x < 2 ^ w) :
    (∃ y, mulHash w k x = some y ∧ y < 2 ^ w ∧ mulIhash w k y = some x) ∧ ∃ y, mulIhash w k x = some y ∧ y < 2 ^ w ∧ mulHash w k y = some x := by
  refine ⟨⟨_, mulHash_eq w k x hw hk, Nat.mod_lt _ (Nat.two_pow_pos w), ?_⟩, _, mulIhash_eq w k x hw hk, Nat.mod_lt _ (Nat.two_pow_pos w), ?_⟩
  · rw [mulIhash_eq w k _ hw hk, (mul_inv w k x hw hk hx).1]
  · rw [mulHash_eq w k _ hw hk, (mul_inv w k x hw hk hx).2]

/-- C43: ... and the xor with the shifted word, which is its own inverse, for every width and `K` that give a shift by less than 64 (the default width
64 included). -/
theorem C43_xorshift (w k x : Nat) (hk : (w + 1) / 2 + k < 64) (hx : x < 2 ^ w) :
    ∃ y, xorHash w k x = some y ∧ y < 2 ^ w ∧ xorHash w k y = some x := by
  have e : ∀ z, xorHash w k z = some (xs w k z) := fun z => if_pos hk
  refine ⟨_, e x, xs_lt w k x hx, ?_⟩
  rw [e, xs_inv w k x hx]

example := C43_xorshift 64 31 (2 ^ 64 - 1) (by decide) (by decide)

/-- C43: for any larger width or `K` the call shifts by 64 bits or more. -/
theorem C43_xorshift_domain (w k x : Nat) (hk : 64 ≤ (w + 1) / 2 + k) : xorHash w k x = none := if_neg (Nat.not_lt.2 hk)

example := C43_xorshift_domain 64 32 1 (by decide)

example := C43_ihash_hash 10 777 (by decide) (by decide)
example := C43_multiply 63 2 12345 (by decide) (by decide) (by decide)
example := C43_xorshift 63 1 12345 (by decide) (by decide)

/-- C43: the width 64, which is the default argument, reads past the end of the table. -/
theorem C43_width64_oob (x : Nat) : hash 64 x = none ∧ ihash 64 x = none := by
  have h : primeTable[64]? = none := by decide +kernel
  constructor
  · simp [hash, step, mulHash, h]
  · simp [ihash, istep, mulIhash, h]

example : (hash 10 777).bind (ihash 10) = some 777 := by decide +kernel
example : (hash 63 (2 ^ 62 + 12345)).bind (ihash 63) = some (2 ^ 62 + 12345) := by decide +kernel
example : 63 < 64 ∧ 2 ^ 62 + 12345 < 2 ^ 63 ∧ 2 < 3 := by decide

end Verif.Hash
