/-
Model of the branches of bit_util.hpp and bit_util256.hpp for the vector instructions MMX and AVX2. The instructions are modelled by their definition in
the manuals, lane by lane. The AVX512 branch of `xor_map_intrinsics`, bit_util256.hpp:149-159, is not modelled: it names functions that do not exist.
`_mm256_load_si256` and `_mm256_store_si256` ask for an address that is a multiple of 32; addresses are not modelled.
-/
import Verif.Bits.Model256

namespace Verif.Bits.Vec

/-- A function on each 16 bit lane of a 64 bit word. -/
def lanes16 (f : BitVec 16 → BitVec 16) (x : W64) : W64 :=
  f (x.extractLsb' 48 16) ++ f (x.extractLsb' 32 16) ++ f (x.extractLsb' 16 16) ++ f (x.extractLsb' 0 16)

/-- A function on each 32 bit lane of a 64 bit word. -/
def lanes32 (f : BitVec 32 → BitVec 32) (x : W64) : W64 := f (x.extractLsb' 32 32) ++ f (x.extractLsb' 0 32)

/-- `_mm_slli_pi16`, `_mm256_slli_epi16` on one word. -/
def slli16 (n : Nat) (x : W64) : W64 := lanes16 (fun l => l <<< n) x
/-- `_mm_srli_pi16`, `_mm256_srli_epi16` on one word. -/
def srli16 (n : Nat) (x : W64) : W64 := lanes16 (fun l => l >>> n) x
/-- `_mm_slli_pi32`, `_mm256_slli_epi32` on one word. -/
def slli32 (n : Nat) (x : W64) : W64 := lanes32 (fun l => l <<< n) x
/-- `_mm_srli_pi32`, `_mm256_srli_epi32` on one word. -/
def srli32 (n : Nat) (x : W64) : W64 := lanes32 (fun l => l >>> n) x

/-- `swap_pi8`, MMX branch, bit_util.hpp:555-557. -/
def swapPi8 (x : W64) : W64 := slli16 8 x ||| srli16 8 x

/-- `swap_pi16`, MMX branch, bit_util.hpp:564-566. -/
def swapPi16 (x : W64) : W64 := slli32 16 x ||| srli32 16 x

/-- `_mm256_set1_epi64x`. -/
def set1 (a : W64) : W256 := ⟨a, a, a, a⟩
/-- `_mm256_and_si256`. -/
def and256 (x y : W256) : W256 := ⟨x.w0 &&& y.w0, x.w1 &&& y.w1, x.w2 &&& y.w2, x.w3 &&& y.w3⟩
/-- `_mm256_or_si256`. -/
def or256 (x y : W256) : W256 := ⟨x.w0 ||| y.w0, x.w1 ||| y.w1, x.w2 ||| y.w2, x.w3 ||| y.w3⟩
/-- `_mm256_slli_epi64`. -/
def slli64 (n : Nat) (x : W256) : W256 := x.map (fun w => w <<< n)
/-- `_mm256_srli_epi64`. -/
def srli64 (n : Nat) (x : W256) : W256 := x.map (fun w => w >>> n)

/-- Word `i` of four. -/
def word (x : W256) (i : Nat) : W64 := if i = 0 then x.w0 else if i = 1 then x.w1 else if i = 2 then x.w2 else x.w3

/-- The 32 bit lane `i` of eight. -/
def lane32 (x : W256) (i : Nat) : BitVec 32 := (word x (i / 2)).extractLsb' (32 * (i % 2)) 32

/-- `_mm256_permutevar8x32_epi32` with the indices from `_mm256_set_epi32`, highest lane first. -/
def permutevar8x32 (x : W256) (e7 e6 e5 e4 e3 e2 e1 e0 : Nat) : W256 :=
  ⟨lane32 x (e1 % 8) ++ lane32 x (e0 % 8), lane32 x (e3 % 8) ++ lane32 x (e2 % 8),
   lane32 x (e5 % 8) ++ lane32 x (e4 % 8), lane32 x (e7 % 8) ++ lane32 x (e6 % 8)⟩

/-- `_mm256_permute4x64_epi64`. -/
def permute4x64 (x : W256) (imm : Nat) : W256 :=
  ⟨word x (imm % 4), word x (imm / 4 % 4), word x (imm / 16 % 4), word x (imm / 64 % 4)⟩

/-- One half of the result of `_mm256_permute2x128_si256`. -/
def half (x y : W256) (c : Nat) : W64 × W64 :=
  if c / 8 % 2 = 1 then (0, 0)
  else if c % 4 = 0 then (x.w0, x.w1)
  else if c % 4 = 1 then (x.w2, x.w3)
  else if c % 4 = 2 then (y.w0, y.w1)
  else (y.w2, y.w3)

/-- `_mm256_permute2x128_si256`. -/
def permute2x128 (x y : W256) (imm : Nat) : W256 :=
  ⟨(half x y (imm % 16)).1, (half x y (imm % 16)).2, (half x y (imm / 16)).1, (half x y (imm / 16)).2⟩

/-- `_mm256_cmpeq_epi64`. -/
def cmpeq64 (x y : W256) : W256 :=
  ⟨if x.w0 = y.w0 then BitVec.allOnes 64 else 0, if x.w1 = y.w1 then BitVec.allOnes 64 else 0,
   if x.w2 = y.w2 then BitVec.allOnes 64 else 0, if x.w3 = y.w3 then BitVec.allOnes 64 else 0⟩

/-- `_mm256_movemask_epi8`: bit `i` of the result is the highest bit of byte `i`. -/
def movemask8 (x : W256) : BitVec 32 := BitVec.ofNat 32 ((List.range 32).map (fun i => if x.bit (8 * i + 7) then 2 ^ i else 0)).sum

/-- `is_zero256_intrinsics`, bit_util256.hpp:52-55. -/
def isZero256 (x : W256) : Bool := movemask8 (cmpeq64 x (set1 0)) == 0xFFFFFFFF#32

/-- `set256_epi1`, AVX2 branch, bit_util256.hpp:19-21. -/
def set256 (b : Bool) : W256 := set1 (if b then BitVec.allOnes 64 else 0)

/-- `xor_map_intrinsics`, bit_util256.hpp:136-148 and 160-173. -/
def xorMap (x : W256) (mask : BitVec 8) : W256 :=
  let x := if mask &&& 1#8 ≠ 0#8 then
      or256 (slli64 1 (and256 x (set1 0x5555555555555555#64))) (srli64 1 (and256 x (set1 0xAAAAAAAAAAAAAAAA#64)))
    else x
  let x := if mask &&& 2#8 ≠ 0#8 then
      or256 (slli64 2 (and256 x (set1 0x3333333333333333#64))) (srli64 2 (and256 x (set1 0xCCCCCCCCCCCCCCCC#64)))
    else x
  let x := if mask &&& 4#8 ≠ 0#8 then
      or256 (slli64 4 (and256 x (set1 0x0F0F0F0F0F0F0F0F#64))) (srli64 4 (and256 x (set1 0xF0F0F0F0F0F0F0F0#64)))
    else x
  let x := if mask &&& 8#8 ≠ 0#8 then or256 (x.map (srli16 8)) (x.map (slli16 8)) else x
  let x := if mask &&& 16#8 ≠ 0#8 then or256 (x.map (srli32 16)) (x.map (slli32 16)) else x
  let x := if mask &&& 32#8 ≠ 0#8 then permutevar8x32 x 6 7 4 5 2 3 0 1 else x
  let x := if mask &&& 64#8 ≠ 0#8 then permute4x64 x 0b10110001 else x
  let x := if mask &&& 128#8 ≠ 0#8 then permute2x128 x x 0x21 else x
  x

end Verif.Bits.Vec
