/-
Property theorems C70 (MMX and AVX2 branches).
-/
import Verif.Bits.ModelVec
import Verif.Bits.Props
import Mathlib.Tactic.IntervalCases

namespace Verif.Bits.Vec
open Verif.Bits

theorem lanes16_bit (f : BitVec 16 → BitVec 16) (x : W64) (j : Nat) :
    (lanes16 f x).getLsbD j = if j < 16 then (f (x.extractLsb' 0 16)).getLsbD j else if j < 32 then (f (x.extractLsb' 16 16)).getLsbD (j - 16)
      else if j < 48 then (f (x.extractLsb' 32 16)).getLsbD (j - 32) else (f (x.extractLsb' 48 16)).getLsbD (j - 48) := by
  unfold lanes16
  rw [BitVec.getLsbD_append, BitVec.getLsbD_append, BitVec.getLsbD_append, Nat.sub_sub, Nat.sub_sub]
  by_cases h1 : j < 16
  · simp [h1]
  by_cases h2 : j < 32
  · have : j - 16 < 16 := by omega
    simp [h1, h2, this]
  by_cases h3 : j < 48
  · have a : ¬ j - 16 < 16 := by omega
    have : j - (16 + 16) < 16 := by omega
    simp [h1, h2, h3, a, this]
  · have a : ¬ j - 16 < 16 := by omega
    have : ¬ j - (16 + 16) < 16 := by omega
    simp [h1, h2, h3, a, this]

theorem lanes32_bit (f : BitVec 32 → BitVec 32) (x : W64) (j : Nat) :
    (lanes32 f x).getLsbD j = if j < 32 then (f (x.extractLsb' 0 32)).getLsbD j else (f (x.extractLsb' 32 32)).getLsbD (j - 32) := by
  unfold lanes32
  rw [BitVec.getLsbD_append]

theorem C70_swap_mmx (x : W64) : swapPi8 x = Bits.swapPi8 x ∧ swapPi16 x = Bits.swapPi16 x := by
  constructor
  · apply BitVec.eq_of_getLsbD_eq
    intro j hj
    rw [swapPi8_bit x j hj]
    unfold swapPi8 slli16 srli16
    rw [BitVec.getLsbD_or, lanes16_bit, lanes16_bit]
    interval_cases j <;> simp
  · apply BitVec.eq_of_getLsbD_eq
    intro j hj
    rw [swapPi16_bit x j hj]
    unfold swapPi16 slli32 srli32
    rw [BitVec.getLsbD_or, lanes32_bit, lanes32_bit]
    interval_cases j <;> simp

example : swapPi8 0x1122334455667788#64 = 0x2211443366558877#64 := by decide

theorem or_map (f g : W64 → W64) (x : W256) : or256 (x.map f) (x.map g) = x.map (fun w => f w ||| g w) := rfl

theorem lane_swap (w : W64) : (w.extractLsb' 0 32 ++ w.extractLsb' 32 32 : W64) = (w <<< 32) ||| (w >>> 32) := by
  apply BitVec.eq_of_getLsbD_eq
  intro j hj
  rw [BitVec.getLsbD_append, BitVec.getLsbD_or, BitVec.getLsbD_shiftLeft, BitVec.getLsbD_ushiftRight]
  by_cases h : j < 32
  · simp [h]
  · have a : j - 32 < 32 := by omega
    have b : w.getLsbD (32 + j) = false := BitVec.getLsbD_of_ge _ _ (by omega)
    simp [h, hj, a, b]

theorem C70_xorMap_avx2 (x : W256) (mask : BitVec 8) : xorMap x mask = Bits.xorMap x mask := by
  have e8 : ∀ y : W256, or256 (y.map (srli16 8)) (y.map (slli16 8)) =
      y.map (fun x => ((x &&& 0x00FF00FF00FF00FF#64) <<< 8) ||| ((x &&& 0xFF00FF00FF00FF00#64) >>> 8)) := by
    intro y
    rw [or_map]
    congr 1
    funext w
    have := (C70_swap_mmx w).1
    unfold swapPi8 Bits.swapPi8 at this
    rw [BitVec.or_comm, this, BitVec.or_comm]
  have e16 : ∀ y : W256, or256 (y.map (srli32 16)) (y.map (slli32 16)) =
      y.map (fun x => ((x &&& 0x0000FFFF0000FFFF#64) <<< 16) ||| ((x &&& 0xFFFF0000FFFF0000#64) >>> 16)) := by
    intro y
    rw [or_map]
    congr 1
    funext w
    have := (C70_swap_mmx w).2
    unfold swapPi16 Bits.swapPi16 at this
    rw [BitVec.or_comm, this, BitVec.or_comm]
  have e32 : ∀ y : W256, permutevar8x32 y 6 7 4 5 2 3 0 1 = y.map (fun x => (x <<< 32) ||| (x >>> 32)) := by
    intro y
    unfold permutevar8x32 W256.map
    simp only [← lane_swap]
    rfl
  have e64 : ∀ y : W256, permute4x64 y 0b10110001 = ⟨y.w1, y.w0, y.w3, y.w2⟩ := fun _ => rfl
  have e128 : ∀ y : W256, permute2x128 y y 0x21 = ⟨y.w2, y.w3, y.w0, y.w1⟩ := fun _ => rfl
  unfold xorMap Bits.xorMap
  simp only [e8, e16, e32, e64, e128]
  rfl

example : xorMap ⟨1#64, 0#64, 0#64, 0#64⟩ 0xC1#8 = ⟨0#64, 0#64, 0#64, 2#64⟩ := by decide

theorem C70_isZero256_avx2 (x : W256) : isZero256 x = Bits.isZero256 x := by
  have key : ∀ a b c d : Bool, (movemask8 ⟨if a then BitVec.allOnes 64 else 0, if b then BitVec.allOnes 64 else 0,
      if c then BitVec.allOnes 64 else 0, if d then BitVec.allOnes 64 else 0⟩ == 0xFFFFFFFF#32) = (a && b && c && d) := by decide +kernel
  have h := key (decide (x.w0 = 0)) (decide (x.w1 = 0)) (decide (x.w2 = 0)) (decide (x.w3 = 0))
  simp only [decide_eq_true_eq] at h
  unfold isZero256 cmpeq64 set1
  rw [h]
  unfold Bits.isZero256
  by_cases h0 : x.w0 = 0#64 <;> by_cases h1 : x.w1 = 0#64 <;> by_cases h2 : x.w2 = 0#64 <;> by_cases h3 : x.w3 = 0#64 <;> simp [h0, h1, h2, h3]

example : isZero256 ⟨0, 0, 1#64, 0⟩ = false ∧ isZero256 ⟨0, 0, 0, 0⟩ = true := by decide +kernel

theorem C70_set256_avx2 (b : Bool) : set256 b = Bits.set256 b := by
  cases b <;> rfl

end Verif.Bits.Vec
