/-
Property theorem C24, further: what a write does with a value that may be too wide for the element. The reference does not mask the value
(BitsReference.hpp:46-53).
-/
import Verif.Fit.Props

namespace Verif.Fit
open Verif.Bits Verif.BV

theorem wrBits_any (ws : List W64) (p w : Nat) (m : W64) (hm : IsMask m w) (h1 : 1 ≤ w) (h63 : w ≤ 63)
    (hp : p + w ≤ 64 * ws.length) (x : Nat) (hx : x < 2 ^ 64) :
    ∃ ws', wrBits ws p w m (BitVec.ofNat 64 x) = some ws' ∧ ws'.length = ws.length ∧
      ∀ q, bitAt ws' q = if p ≤ q ∧ q < p + w then x.testBit (q - p)
        else (bitAt ws q || (decide (p ≤ q ∧ q < 64 * ((p + w - 1) / 64 + 1)) && x.testBit (q - p))) := by
  have hk : p / 64 < ws.length := by omega
  have ho : p % 64 < 64 := Nat.mod_lt _ (by decide)
  have hgd : ws.getD (p / 64) 0#64 = ws[p / 64] := by simp [List.getD_eq_getElem?_getD, hk]
  have hvb : ∀ j, (BitVec.ofNat 64 x).getLsbD j = x.testBit j := by
    intro j
    rw [BitVec.getLsbD_ofNat]
    by_cases hj : j < 64
    · simp [hj]
    · rw [Nat.testBit_lt_two_pow (Nat.lt_of_lt_of_le hx (Nat.pow_le_pow_right (by decide) (by omega)))]; simp
  have hfirst : ∀ b, b < 64 → ((ws[p / 64] &&& ~~~(m <<< (p % 64))) ||| (BitVec.ofNat 64 x <<< (p % 64))).getLsbD b
      = if p % 64 ≤ b ∧ b < p % 64 + w then x.testBit (b - p % 64)
        else (ws[p / 64].getLsbD b || (decide (p % 64 ≤ b) && x.testBit (b - p % 64))) := by
    intro b hb
    rw [BitVec.getLsbD_or, BitVec.getLsbD_and, BitVec.getLsbD_not, BitVec.getLsbD_shiftLeft, BitVec.getLsbD_shiftLeft, hm, hvb]
    by_cases hlt : b < p % 64
    · have : ¬ (p % 64 ≤ b ∧ b < p % 64 + w) := by omega
      rw [if_neg this]
      simp [hb, hlt]
    · by_cases hw2 : b < p % 64 + w
      · have a : b - p % 64 < w := by omega
        rw [if_pos (by omega)]
        simp [hb, hlt, a]
      · have a : ¬ b - p % 64 < w := by omega
        rw [if_neg (by omega)]
        have hle : p % 64 ≤ b := by omega
        simp [hb, a, hlt, hle]
  unfold wrBits
  rw [List.getElem?_eq_getElem hk]
  simp only [Option.bind_eq_bind, Option.bind_some, wr_eq _ _ _ hk]
  by_cases hc : w + p % 64 > 64
  · rw [if_pos hc]
    have hE : (p + w - 1) / 64 = p / 64 + 1 := by omega
    have hk1 : p / 64 + 1 < ws.length := by omega
    have hgd1 : ws.getD (p / 64 + 1) 0#64 = ws[p / 64 + 1] := by simp [List.getD_eq_getElem?_getD, hk1]
    rw [List.getElem?_set_ne (by omega), List.getElem?_eq_getElem hk1]
    simp only [Option.bind_some]
    rw [wr_eq _ _ _ (by rw [List.length_set]; exact hk1)]
    refine ⟨_, rfl, by simp, ?_⟩
    intro q
    have hqm : q % 64 < 64 := Nat.mod_lt _ (by decide)
    unfold bitAt
    rw [getD_set' _ _ _ (by rw [List.length_set]; exact hk1), getD_set' _ _ _ hk, hE]
    by_cases hq1 : q / 64 = p / 64 + 1
    · rw [if_pos hq1, hq1, hgd1, BitVec.getLsbD_or, BitVec.getLsbD_and, BitVec.getLsbD_not, BitVec.getLsbD_ushiftRight,
        BitVec.getLsbD_ushiftRight, hm, hvb, show 64 - p % 64 + q % 64 = q - p by omega]
      by_cases hw2 : q < p + w
      · have a : q - p < w := by omega
        rw [if_pos (by omega)]
        simp [a]
      · have a : ¬ q - p < w := by omega
        have b1 : p ≤ q := by omega
        have b2 : q < 64 * (p / 64 + 1 + 1) := by omega
        rw [if_neg (by omega)]
        simp [a, hqm, b1, b2]
    · rw [if_neg hq1]
      by_cases hq0 : q / 64 = p / 64
      · rw [if_pos hq0, hfirst _ hqm, hq0, hgd]
        by_cases hin : p ≤ q
        · rw [if_pos (by omega), if_pos (by omega), show q % 64 - p % 64 = q - p by omega]
        · rw [if_neg (by omega), if_neg (by omega), decide_eq_false (by omega), decide_eq_false (by omega)]
          simp
      · rw [if_neg hq0, if_neg (by omega), decide_eq_false (by omega)]
        simp
  · rw [if_neg hc]
    have hE : (p + w - 1) / 64 = p / 64 := by omega
    refine ⟨_, rfl, by simp, ?_⟩
    intro q
    have hqm : q % 64 < 64 := Nat.mod_lt _ (by decide)
    unfold bitAt
    rw [getD_set' _ _ _ hk, hE]
    by_cases hq0 : q / 64 = p / 64
    · rw [if_pos hq0, hfirst _ hqm, hq0, hgd]
      by_cases hin : p ≤ q ∧ q < p + w
      · rw [if_pos (by omega), if_pos hin, show q % 64 - p % 64 = q - p by omega]
      · rw [if_neg (by omega), if_neg hin]
        by_cases hpq : p ≤ q
        · rw [decide_eq_true (by omega), decide_eq_true (by omega), show q % 64 - p % 64 = q - p by omega]
        · rw [decide_eq_false (by omega), decide_eq_false (by omega)]
          simp
    · rw [if_neg hq0, if_neg (by omega), decide_eq_false (by omega)]
      simp

/-- C24 for any value: the element gets the low bits of the value, the elements before it do not change, and the higher bits of the value are
or-ed into the elements behind it, up to the end of the word in which the element ends. -/
theorem C24_any_value (v : FVec) (h1 : 1 ≤ v.width) (h63 : v.width ≤ 63) (hm : widthMask v.width = some v.mask)
    (hlen : 64 * v.words.length ≥ v.size * v.width) (i x : Nat) (hi : i < v.size) (hx : x < 2 ^ 64) :
    ∃ v', v.set i x = some v' ∧ v'.size = v.size ∧ v'.width = v.width ∧ v'.get i = some (x % 2 ^ v.width) ∧
      (∀ j, j < i → ∃ y, v.get j = some y ∧ v'.get j = some y) ∧
      ∀ j, i < j → j < v.size → ∃ y, v.get j = some y ∧
        v'.get j = some (y ||| (x >>> ((j - i) * v.width)) % 2 ^ min v.width (64 * (((i + 1) * v.width - 1) / 64 + 1) - j * v.width)) := by
  obtain ⟨m, e, hb⟩ := C09_widthMask v.width (by omega)
  rw [hm] at e
  obtain rfl := Option.some.inj e
  have hsl := slot_le v.width hi
  obtain ⟨ws, e, hl, hbits⟩ := wrBits_any v.words (i * v.width) v.width v.mask hb h1 h63 (by omega) x hx
  refine ⟨{ v with words := ws }, by simp [FVec.set, e], rfl, rfl, ?_, ?_, ?_⟩
  · obtain ⟨y, e2, hy⟩ := rdBits_spec ws (i * v.width) v.width v.mask hb h1 h63 (by omega)
    have : valAt ws (i * v.width) v.width = x % 2 ^ v.width := by
      apply valAt_eq _ _ _ _ (Nat.mod_lt _ (Nat.pow_pos (by decide)))
      intro k hk
      rw [hbits, if_pos (by omega), Nat.testBit_mod_two_pow, decide_eq_true hk, Bool.true_and]
      congr 1; omega
    simp [FVec.get, e2, hy, this]
  · intro j hj
    have hsj := slot_le v.width hj
    obtain ⟨y, e2, hy⟩ := rdBits_spec v.words (j * v.width) v.width v.mask hb h1 h63 (by omega)
    obtain ⟨y', e3, hy'⟩ := rdBits_spec ws (j * v.width) v.width v.mask hb h1 h63 (by omega)
    refine ⟨y.toNat, by simp [FVec.get, e2], ?_⟩
    have : valAt ws (j * v.width) v.width = valAt v.words (j * v.width) v.width := by
      apply valAt_congr
      intro k hk
      rw [hbits, if_neg (by omega), decide_eq_false (by omega)]
      simp
    simp [FVec.get, e3, hy', this, hy]
  · intro j hij hj
    have hsj := slot_le v.width hj
    have hsi := slot_le v.width hij
    obtain ⟨y, e2, hy⟩ := rdBits_spec v.words (j * v.width) v.width v.mask hb h1 h63 (by omega)
    obtain ⟨y', e3, hy'⟩ := rdBits_spec ws (j * v.width) v.width v.mask hb h1 h63 (by omega)
    refine ⟨y.toNat, by simp [FVec.get, e2], ?_⟩
    have hd : (j - i) * v.width = j * v.width - i * v.width := Nat.sub_mul ..
    rw [show (i + 1) * v.width = i * v.width + v.width from Nat.succ_mul ..]
    generalize hE : 64 * ((i * v.width + v.width - 1) / 64 + 1) = E at *
    have : valAt ws (j * v.width) v.width = y.toNat ||| (x >>> ((j - i) * v.width)) % 2 ^ min v.width (E - j * v.width) := by
      apply Nat.eq_of_testBit_eq
      intro k
      rw [valAt_testBit, Nat.testBit_or, hy, valAt_testBit, Nat.testBit_mod_two_pow, Nat.testBit_shiftRight, hd]
      by_cases hk : k < v.width
      · rw [hbits, if_neg (by omega), decide_eq_true hk, Bool.true_and, Bool.true_and]
        rw [show j * v.width + k - i * v.width = j * v.width - i * v.width + k by omega]
        congr 2
        rw [decide_eq_decide]
        omega
      · rw [decide_eq_false hk, Bool.false_and, Bool.false_and, decide_eq_false (by omega)]
        rfl
    simp [FVec.get, e3, hy', this]

/-- A value of 20 bits written into elements of 7 bits. -/
example := C24_any_value ⟨7, 127#64, 20, [0x123456789ABCDEF0#64, 0x0FEDCBA987654321#64, 5#64]⟩ (by decide) (by decide) (by decide) (by decide) 9 (2 ^ 20 - 1)
  (by decide) (by decide)

end Verif.Fit
