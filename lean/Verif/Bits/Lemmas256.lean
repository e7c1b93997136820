/-
Helper lemmas: bit swaps and 256 bit words.
-/
import Verif.Bits.Model256
import Verif.Bits.Sel

namespace Verif.Bits

theorem swap_bit (k : Nat) (mh ml x : W64) (j : Nat) (hj : j < 64)
    (hh : ∀ u, u < 64 → mh.getLsbD u = (u / k % 2 == 1))
    (hl : ∀ u, u < 64 → ml.getLsbD u = (u / k % 2 == 0))
    (hx : ∀ u, u < 64 → (u ^^^ k) = if u / k % 2 = 0 then u + k else u - k)
    (h0 : ∀ u, u < 64 → u / k % 2 = 0 → u + k < 64 ∧ (u + k) / k % 2 = 1 ∧
      (k ≤ u → (u - k) / k % 2 = 1))
    (h1 : ∀ u, u < 64 → u / k % 2 = 1 → k ≤ u ∧ (u - k) / k % 2 = 0 ∧
      (u + k < 64 → (u + k) / k % 2 = 0)) :
    (((x &&& mh) >>> k) ||| ((x &&& ml) <<< k)).getLsbD j = x.getLsbD (j ^^^ k) := by
  rw [hx j hj, BitVec.getLsbD_or, BitVec.getLsbD_ushiftRight, BitVec.getLsbD_shiftLeft,
    BitVec.getLsbD_and, BitVec.getLsbD_and, Nat.add_comm k j]
  by_cases hd : j / k % 2 = 0
  · obtain ⟨a, b, c⟩ := h0 j hj hd
    rw [if_pos hd, hh _ a, b]
    by_cases hk : k ≤ j
    · rw [hl (j - k) (by omega), c hk]; simp
    · simp [show j < k by omega]
  · have hd1 : j / k % 2 = 1 := by omega
    obtain ⟨a, b, c⟩ := h1 j hj hd1
    rw [if_neg hd, hl (j - k) (by omega), b]
    by_cases hk : j + k < 64
    · rw [hh _ hk, c hk]; simp [hj, show ¬ j < k by omega]
    · rw [BitVec.getLsbD_of_ge x (j + k) (by omega)]; simp [hj, show ¬ j < k by omega]

theorem swapPi1_bit (x : W64) (j : Nat) (hj : j < 64) : (swapPi1 x).getLsbD j = x.getLsbD (j ^^^ 1) :=
  swap_bit 1 _ _ x j hj (by decide +kernel) (by decide +kernel) (by decide +kernel) (by decide +kernel)
    (by decide +kernel)
theorem swapPi2_bit (x : W64) (j : Nat) (hj : j < 64) : (swapPi2 x).getLsbD j = x.getLsbD (j ^^^ 2) :=
  swap_bit 2 _ _ x j hj (by decide +kernel) (by decide +kernel) (by decide +kernel) (by decide +kernel)
    (by decide +kernel)
theorem swapPi4_bit (x : W64) (j : Nat) (hj : j < 64) : (swapPi4 x).getLsbD j = x.getLsbD (j ^^^ 4) :=
  swap_bit 4 _ _ x j hj (by decide +kernel) (by decide +kernel) (by decide +kernel) (by decide +kernel)
    (by decide +kernel)
theorem swapPi8_bit (x : W64) (j : Nat) (hj : j < 64) : (swapPi8 x).getLsbD j = x.getLsbD (j ^^^ 8) :=
  swap_bit 8 _ _ x j hj (by decide +kernel) (by decide +kernel) (by decide +kernel) (by decide +kernel)
    (by decide +kernel)
theorem swapPi16_bit (x : W64) (j : Nat) (hj : j < 64) : (swapPi16 x).getLsbD j = x.getLsbD (j ^^^ 16) :=
  swap_bit 16 _ _ x j hj (by decide +kernel) (by decide +kernel) (by decide +kernel) (by decide +kernel)
    (by decide +kernel)
theorem swapPi32_bit (x : W64) (j : Nat) (hj : j < 64) : (swapPi32 x).getLsbD j = x.getLsbD (j ^^^ 32) := by
  have h : swapPi32 x = ((x &&& 0xFFFFFFFF00000000#64) >>> 32) ||| ((x &&& 0x00000000FFFFFFFF#64) <<< 32) := by
    unfold swapPi32
    apply BitVec.eq_of_getLsbD_eq
    intro i hi
    have hh : ∀ u, u < 64 → (0xFFFFFFFF00000000#64).getLsbD u = decide (32 ≤ u) := by decide +kernel
    have hl : ∀ u, u < 64 → (0x00000000FFFFFFFF#64).getLsbD u = decide (u < 32) := by decide +kernel
    simp only [BitVec.getLsbD_or, BitVec.getLsbD_ushiftRight, BitVec.getLsbD_shiftLeft, BitVec.getLsbD_and]
    rw [hl (i - 32) (by omega)]
    by_cases h32 : i < 32
    · rw [hh (32 + i) (by omega)]; simp [h32]
    · rw [BitVec.getLsbD_of_ge x (32 + i) (by omega)]
      simp [show i - 32 < 32 by omega]
  rw [h]
  exact swap_bit 32 _ _ x j hj (by decide +kernel) (by decide +kernel) (by decide +kernel) (by decide +kernel)
    (by decide +kernel)

theorem W256.ext_bit (x y : W256) (h : ∀ j, j < 256 → x.bit j = y.bit j) : x = y := by
  cases x; cases y
  simp only [W256.mk.injEq]
  refine ⟨?_, ?_, ?_, ?_⟩ <;> apply BitVec.eq_of_getLsbD_eq <;> intro i hi
  · have := h i (by omega)
    simpa [W256.bit, hi] using this
  · have := h (64 + i) (by omega)
    simpa [W256.bit, show ¬ 64 + i < 64 by omega, show 64 + i < 128 by omega, show 64 + i - 64 = i by omega] using this
  · have := h (128 + i) (by omega)
    simpa [W256.bit, show ¬ 128 + i < 64 by omega, show ¬ 128 + i < 128 by omega,
      show 128 + i < 192 by omega, show 128 + i - 128 = i by omega] using this
  · have := h (192 + i) (by omega)
    simpa [W256.bit, show ¬ 192 + i < 64 by omega, show ¬ 192 + i < 128 by omega,
      show ¬ 192 + i < 192 by omega, show 192 + i - 192 = i by omega] using this

/-- Splitting a 256 bit index. -/
theorem W256.bit_split (x : W256) (q r : Nat) (hr : r < 64) :
    x.bit (64 * q + r) = (if q = 0 then x.w0 else if q = 1 then x.w1 else if q = 2 then x.w2 else x.w3).getLsbD
      (if q < 3 then r else 64 * q + r - 192) := by
  unfold W256.bit
  rcases q with _ | _ | _ | q
  · simp [hr]
  · simp [show ¬ 64 + r < 64 by omega, show 64 + r < 128 by omega, show 64 + r - 64 = r by omega]
  · simp [show ¬ 128 + r < 64 by omega, show ¬ 128 + r < 128 by omega, show 128 + r < 192 by omega,
      show 128 + r - 128 = r by omega]
  · have e1 : ¬ 64 * (q + 1 + 1 + 1) + r < 64 := by omega
    have e2 : ¬ 64 * (q + 1 + 1 + 1) + r < 128 := by omega
    have e3 : ¬ 64 * (q + 1 + 1 + 1) + r < 192 := by omega
    simp only [e1, e2, e3, if_false]
    have : ¬ q + 1 + 1 + 1 < 3 := by omega
    simp [this]

theorem map_bit (f : W64 → W64) (g : Nat → Nat) (hg : ∀ r, r < 64 → g r < 64)
    (hf : ∀ x r, r < 64 → (f x).getLsbD r = x.getLsbD (g r)) (x : W256) (q r : Nat) (hq : q < 4) (hr : r < 64) :
    (x.map f).bit (64 * q + r) = x.bit (64 * q + g r) := by
  rw [W256.bit_split _ _ _ hr, W256.bit_split _ _ _ (hg r hr)]
  have : q = 0 ∨ q = 1 ∨ q = 2 ∨ q = 3 := by omega
  rcases this with rfl | rfl | rfl | rfl <;> simp [W256.map, hf _ _ hr]

theorem xor_low (k : Nat) (hk : k < 64) (q r : Nat) (hr : r < 64) :
    (64 * q + r) ^^^ k = 64 * q + (r ^^^ k) := by
  have hrk : r ^^^ k < 2 ^ 6 := Nat.xor_lt_two_pow (by omega) (by omega)
  have e := Nat.two_pow_add_eq_or_of_lt (i := 6) (b := r) (by omega) q
  have e2 := Nat.two_pow_add_eq_or_of_lt (i := 6) hrk q
  simp only [show (2:Nat)^6 = 64 from rfl] at *
  apply Nat.eq_of_testBit_eq
  intro i
  rw [e, e2]
  simp only [Nat.testBit_xor, Nat.testBit_or]
  by_cases hi : i < 6
  · have h0 : Nat.testBit (64 * q) i = false := by
      rw [show (64:Nat) = 2 ^ 6 from rfl, Nat.testBit_two_pow_mul]
      simp; omega
    simp [h0]
  · have h1 : ∀ y, y < 64 → Nat.testBit y i = false := fun y hy =>
      Nat.testBit_lt_two_pow (Nat.lt_of_lt_of_le hy
        (Nat.le_trans (show 64 ≤ 2 ^ 6 by decide) (Nat.pow_le_pow_right (by omega) (by omega))))
    simp [h1 r hr, h1 k hk]

/-- A conditional step that permutes indices by `xor k`. -/
theorem cond_step (x y : W256) (c : Prop) [Decidable c] (k m : Nat)
    (hy : ∀ j, j < 256 → y.bit j = x.bit (j ^^^ k)) (hc : (if c then k else 0) = m) (j : Nat) (hj : j < 256) :
    (if c then y else x).bit j = x.bit (j ^^^ m) := by
  subst hc
  split
  · exact hy j hj
  · simp

theorem xor256 (j m : Nat) (hj : j < 256) (hm : m < 256) : j ^^^ m < 256 :=
  Nat.xor_lt_two_pow (n := 8) hj hm

theorem map_xor (f : W64 → W64) (k : Nat) (hk : k < 64)
    (hf : ∀ x j, j < 64 → (f x).getLsbD j = x.getLsbD (j ^^^ k)) (x : W256) (j : Nat) (hj : j < 256) :
    (x.map f).bit j = x.bit (j ^^^ k) := by
  have hr : j % 64 < 64 := Nat.mod_lt _ (by decide)
  have e : j = 64 * (j / 64) + j % 64 := (Nat.div_add_mod j 64).symm
  rw [e, xor_low k hk _ _ hr]
  exact map_bit f (· ^^^ k) (fun r hr => Nat.xor_lt_two_pow (n := 6) hr hk) hf x _ _ (by omega) hr

theorem swap64 (x : W256) (j : Nat) (hj : j < 256) :
    (W256.mk x.w1 x.w0 x.w3 x.w2).bit j = x.bit (j ^^^ 64) := by
  have hx : ∀ j, j < 256 → j ^^^ 64 = if j / 64 % 2 = 0 then j + 64 else j - 64 := by decide +kernel
  rw [hx j hj]
  unfold W256.bit
  rcases (show j / 64 = 0 ∨ j / 64 = 1 ∨ j / 64 = 2 ∨ j / 64 = 3 by omega) with h | h | h | h
  · rw [if_pos (by omega), if_pos (show j / 64 % 2 = 0 by omega), if_neg (by omega), if_pos (by omega)]
    exact congrArg (BitVec.getLsbD _) (by omega)
  · rw [if_neg (by omega), if_pos (by omega), if_neg (show ¬ j / 64 % 2 = 0 by omega), if_pos (by omega)]
  · rw [if_neg (by omega), if_neg (by omega), if_pos (by omega), if_pos (show j / 64 % 2 = 0 by omega),
      if_neg (by omega), if_neg (by omega), if_neg (by omega)]
    exact congrArg (BitVec.getLsbD _) (by omega)
  · rw [if_neg (by omega), if_neg (by omega), if_neg (by omega), if_neg (show ¬ j / 64 % 2 = 0 by omega),
      if_neg (by omega), if_neg (by omega), if_pos (by omega)]
    exact congrArg (BitVec.getLsbD _) (by omega)

theorem swap128 (x : W256) (j : Nat) (hj : j < 256) :
    (W256.mk x.w2 x.w3 x.w0 x.w1).bit j = x.bit (j ^^^ 128) := by
  have hx : ∀ j, j < 256 → j ^^^ 128 = if j / 128 % 2 = 0 then j + 128 else j - 128 := by decide +kernel
  rw [hx j hj]
  unfold W256.bit
  rcases (show j / 64 = 0 ∨ j / 64 = 1 ∨ j / 64 = 2 ∨ j / 64 = 3 by omega) with h | h | h | h
  · rw [if_pos (show j < 64 by omega), if_pos (show j / 128 % 2 = 0 by omega), if_neg (by omega), if_neg (by omega), if_pos (by omega)]
    exact congrArg (BitVec.getLsbD _) (by omega)
  · rw [if_neg (show ¬ j < 64 by omega), if_pos (show j < 128 by omega), if_pos (show j / 128 % 2 = 0 by omega), if_neg (by omega), if_neg (by omega), if_neg (by omega)]
    exact congrArg (BitVec.getLsbD _) (by omega)
  · rw [if_neg (show ¬ j < 64 by omega), if_neg (show ¬ j < 128 by omega), if_pos (show j < 192 by omega), if_neg (show ¬ j / 128 % 2 = 0 by omega), if_pos (by omega)]
  · rw [if_neg (show ¬ j < 64 by omega), if_neg (show ¬ j < 128 by omega), if_neg (show ¬ j < 192 by omega), if_neg (show ¬ j / 128 % 2 = 0 by omega), if_neg (by omega), if_pos (by omega)]
    exact congrArg (BitVec.getLsbD _) (by omega)

theorem xorMap_bit (x : W256) (mask : BitVec 8) (j : Nat) (hj : j < 256) :
    (xorMap x mask).bit j = x.bit (j ^^^ mask.toNat) := by
  have hm := mask.isLt
  have hk : ∀ m : BitVec 8, ∃ a b c d e f g h : Nat,
      (if m &&& 1#8 ≠ 0#8 then 1 else 0) = a ∧ (if m &&& 2#8 ≠ 0#8 then 2 else 0) = b ∧
      (if m &&& 4#8 ≠ 0#8 then 4 else 0) = c ∧ (if m &&& 8#8 ≠ 0#8 then 8 else 0) = d ∧
      (if m &&& 16#8 ≠ 0#8 then 16 else 0) = e ∧ (if m &&& 32#8 ≠ 0#8 then 32 else 0) = f ∧
      (if m &&& 64#8 ≠ 0#8 then 64 else 0) = g ∧ (if m &&& 128#8 ≠ 0#8 then 128 else 0) = h ∧
      (a < 256 ∧ b < 256 ∧ c < 256 ∧ d < 256 ∧ e < 256 ∧ f < 256 ∧ g < 256 ∧ h < 256) ∧
      h ^^^ g ^^^ f ^^^ e ^^^ d ^^^ c ^^^ b ^^^ a = m.toNat := by
    intro m
    refine ⟨_, _, _, _, _, _, _, _, rfl, rfl, rfl, rfl, rfl, rfl, rfl, rfl, ?_⟩
    revert m
    decide +kernel
  obtain ⟨a, b, c, d, e, f, g, h, ha, hb, hc, hd, he, hf, hg, hh, ⟨la, lb, lc, ld, le, lf, lg, lh⟩, hx⟩ := hk mask
  have hcomm : ∀ p q : W64, p ||| q = q ||| p := fun p q => BitVec.or_comm p q
  rw [← hx]
  simp only [← Nat.xor_assoc]
  unfold xorMap copy256
  simp only
  rw [cond_step _ _ _ 128 h (fun j hj => swap128 _ j hj) hh j hj]
  have j1 := xor256 j h hj lh
  rw [cond_step _ _ _ 64 g (fun j hj => swap64 _ j hj) hg _ j1]
  have j2 := xor256 _ g j1 lg
  rw [cond_step _ _ _ 32 f (fun j hj => map_xor _ 32 (by decide) (fun x j hj => by
    rw [hcomm]; exact swapPi32_bit x j hj) _ j hj) hf _ j2]
  have j3 := xor256 _ f j2 lf
  rw [cond_step _ _ _ 16 e (fun j hj => map_xor _ 16 (by decide) (fun x j hj => by
    rw [hcomm]; exact swapPi16_bit x j hj) _ j hj) he _ j3]
  have j4 := xor256 _ e j3 le
  rw [cond_step _ _ _ 8 d (fun j hj => map_xor _ 8 (by decide) (fun x j hj => by
    rw [hcomm]; exact swapPi8_bit x j hj) _ j hj) hd _ j4]
  have j5 := xor256 _ d j4 ld
  rw [cond_step _ _ _ 4 c (fun j hj => map_xor _ 4 (by decide) (fun x j hj => by
    rw [hcomm]; exact swapPi4_bit x j hj) _ j hj) hc _ j5]
  have j6 := xor256 _ c j5 lc
  rw [cond_step _ _ _ 2 b (fun j hj => map_xor _ 2 (by decide) (fun x j hj => by
    rw [hcomm]; exact swapPi2_bit x j hj) _ j hj) hb _ j6]
  have j7 := xor256 _ b j6 lb
  rw [cond_step _ _ _ 1 a (fun j hj => map_xor _ 1 (by decide) (fun x j hj => by
    rw [hcomm]; exact swapPi1_bit x j hj) _ j hj) ha _ j7]

end Verif.Bits
