/-
Model of /repo/include/sim_ds/bit_util256.hpp: a 256 bit word is four consecutive 64 bit words.
-/
import Verif.Bits.Model

namespace Verif.Bits

/-- Four 64 bit words, least significant first (the memory behind a `uint64_t*`). -/
structure W256 where
  w0 : W64
  w1 : W64
  w2 : W64
  w3 : W64
deriving DecidableEq

/-- Bit `j` of a 256 bit word: bit `j % 64` of word `j / 64`. -/
def W256.bit (x : W256) (j : Nat) : Bool :=
  if j < 64 then x.w0.getLsbD j
  else if j < 128 then x.w1.getLsbD (j - 64)
  else if j < 192 then x.w2.getLsbD (j - 128)
  else x.w3.getLsbD (j - 192)

/-- Apply a function to each word (the `for (i = 0; i < 4; i++)` loops). -/
def W256.map (f : W64 → W64) (x : W256) : W256 := ⟨f x.w0, f x.w1, f x.w2, f x.w3⟩

/-- `set256_epi1`, bit_util256.hpp:18-27. -/
def set256 (b : Bool) : W256 :=
  let m : W64 := if b then BitVec.allOnes 64 else 0#64
  ⟨m, m, m, m⟩

/-- `copy256_epi64`, bit_util256.hpp:32-39. -/
def copy256 (x : W256) : W256 := ⟨x.w0, x.w1, x.w2, x.w3⟩

/-- `is_zero256`, bit_util256.hpp:43-49. -/
def isZero256 (x : W256) : Bool :=
  if x.w0 ≠ 0#64 then false
  else if x.w1 ≠ 0#64 then false
  else if x.w2 ≠ 0#64 then false
  else if x.w3 ≠ 0#64 then false
  else true

/-- `popcnt256`, bit_util256.hpp:61-66. -/
def popcnt256 (x : W256) : Nat :=
  0 + (popcnt64 x.w0).toNat + (popcnt64 x.w1).toNat + (popcnt64 x.w2).toNat + (popcnt64 x.w3).toNat

/-- `ctz256`, bit_util256.hpp:71-75. -/
def ctz256 (x : W256) : Nat :=
  if x.w0 ≠ 0#64 then 64 * 0 + ctz64 x.w0
  else if x.w1 ≠ 0#64 then 64 * 1 + ctz64 x.w1
  else if x.w2 ≠ 0#64 then 64 * 2 + ctz64 x.w2
  else if x.w3 ≠ 0#64 then 64 * 3 + ctz64 x.w3
  else 256

/-- `clz256`, bit_util256.hpp:77-81. -/
def clz256 (x : W256) : Nat :=
  if x.w3 ≠ 0#64 then 64 * 3 + clz64 x.w3
  else if x.w2 ≠ 0#64 then 64 * 2 + clz64 x.w2
  else if x.w1 ≠ 0#64 then 64 * 1 + clz64 x.w1
  else if x.w0 ≠ 0#64 then 64 * 0 + clz64 x.w0
  else 256

/-- `xor_map`, bit_util256.hpp:86-133 (result written to `dst_addr`; source and destination are
distinct or equal arrays, not partially overlapping). -/
def xorMap (x : W256) (mask : BitVec 8) : W256 :=
  let d := copy256 x
  let d := if mask &&& 1#8 ≠ 0#8 then
      d.map (fun x => ((x &&& 0x5555555555555555#64) <<< 1) ||| ((x &&& 0xAAAAAAAAAAAAAAAA#64) >>> 1))
    else d
  let d := if mask &&& 2#8 ≠ 0#8 then
      d.map (fun x => ((x &&& 0x3333333333333333#64) <<< 2) ||| ((x &&& 0xCCCCCCCCCCCCCCCC#64) >>> 2))
    else d
  let d := if mask &&& 4#8 ≠ 0#8 then
      d.map (fun x => ((x &&& 0x0F0F0F0F0F0F0F0F#64) <<< 4) ||| ((x &&& 0xF0F0F0F0F0F0F0F0#64) >>> 4))
    else d
  let d := if mask &&& 8#8 ≠ 0#8 then
      d.map (fun x => ((x &&& 0x00FF00FF00FF00FF#64) <<< 8) ||| ((x &&& 0xFF00FF00FF00FF00#64) >>> 8))
    else d
  let d := if mask &&& 16#8 ≠ 0#8 then
      d.map (fun x => ((x &&& 0x0000FFFF0000FFFF#64) <<< 16) ||| ((x &&& 0xFFFF0000FFFF0000#64) >>> 16))
    else d
  let d := if mask &&& 32#8 ≠ 0#8 then d.map (fun x => (x <<< 32) ||| (x >>> 32)) else d
  let d := if mask &&& 64#8 ≠ 0#8 then ⟨d.w1, d.w0, d.w3, d.w2⟩ else d
  let d := if mask &&& 128#8 ≠ 0#8 then ⟨d.w2, d.w3, d.w0, d.w1⟩ else d
  d

end Verif.Bits
