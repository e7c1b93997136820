/-
Model of /repo/include/sim_ds/bit_util.hpp (word level bit tricks).

Words are `BitVec 64`/`BitVec 32`/...; C++ unsigned arithmetic on them wraps, exactly as
`BitVec` arithmetic does.  The `#else` (portable) branches are translated literally; the
intrinsic branches are in `Hw` below, given by the documented meaning of the instruction.
-/
import Verif.Bits.Tables

namespace Verif.Bits

abbrev W64 := BitVec 64
abbrev W32 := BitVec 32

/-- `WidthMask`, bit_util.hpp:33-36.  A shift by 64 or more is undefined behaviour: `none`. -/
def widthMask (width : Nat) : Option W64 :=
  if width < 64 then some ((1#64 <<< width) - 1#64) else none

/-- `width_mask<Bits>`, bit_util.hpp:28-31 (template constant, specialised at 64;
other values of 64 or more do not compile, here 0). -/
def widthMaskT (bits : Nat) : W64 :=
  if bits = 64 then BitVec.allOnes 64 else (1#64 <<< bits) - 1#64

/-- `OffsetMask`, bit_util.hpp:41-44. Shift by 64 or more is undefined: `none`. -/
def offsetMask (offset : Nat) : Option W64 :=
  if offset < 64 then some (1#64 <<< offset) else none

/-- `popcnt8`, bit_util.hpp:68-70. The table has 256 entries, so the access is in range; the
default of `getD` is never used (`kLtCnt_length`). -/
def popcnt8 (x : BitVec 8) : Nat := kLtCnt.getD x.toNat 0

/-- `popcnt16`, bit_util.hpp:72-74. -/
def popcnt16 (x : BitVec 16) : Nat :=
  kLtCnt.getD ((x >>> 8) &&& 0xFF#16).toNat 0 + kLtCnt.getD (x &&& 0xFF#16).toNat 0

/-- `popcnt32`, portable branch, bit_util.hpp:80-82. -/
def popcnt32 (x : W32) : W32 :=
  let x := x - ((x >>> 1) &&& 0x55555555#32)
  let x := (x &&& 0x33333333#32) + ((x >>> 2) &&& 0x33333333#32)
  ((0x10101010#32 * x) >>> 28) + ((0x01010101#32 * x) >>> 28)

/-- `popcnt64`, portable branch, bit_util.hpp:90-93. -/
def popcnt64 (x : W64) : W64 :=
  let x := x - ((x >>> 1) &&& 0x5555555555555555#64)
  let x := (x &&& 0x3333333333333333#64) + ((x >>> 2) &&& 0x3333333333333333#64)
  let x := (x + (x >>> 4)) &&& 0x0F0F0F0F0F0F0F0F#64
  (0x0101010101010101#64 * x) >>> 56

/-- `cnt` for a 64 bit word, bit_util.hpp:111-114 (`popcnt` dispatches to `popcnt64`). -/
def cnt (x : W64) (len : Nat) : Option W64 := do
  let m ← widthMask len
  pure (popcnt64 (x &&& m))

/-- Shared tail of `popcnt11`/`popcnt10`, bit_util.hpp:121-123 and 132-134. -/
def popPairs (x : W64) : W64 :=
  let x := (x &&& 0x3333333333333333#64) + ((x >>> 2) &&& 0x3333333333333333#64)
  let x := (x + (x >>> 4)) &&& 0x0F0F0F0F0F0F0F0F#64
  (0x0101010101010101#64 * x) >>> 56

/-- `popcnt11`, bit_util.hpp:116-125. -/
def popcnt11 (x : W64) : W64 := popPairs ((x &&& (x >>> 1)) &&& 0x5555555555555555#64)

/-- `popcnt10`, bit_util.hpp:127-136. -/
def popcnt10 (x : W64) : W64 := popPairs ((~~~x &&& (x >>> 1)) &&& 0x5555555555555555#64)

/-- Shared tail of `popcnt111`..`popcnt100`, bit_util.hpp:143-144 (and 153-154, 163-164, 173-174). -/
def popTriples (x : W64) : W64 :=
  let x := (x + (x >>> 3)) &&& 0x30C30C30C30C30C3#64
  (((0x0041041041041041#64 * x) >>> 54) &&& 0x3F#64) + (x >>> 60)

/-- `popcnt111`, bit_util.hpp:138-146. -/
def popcnt111 (x : W64) : W64 :=
  popTriples ((x &&& (x >>> 1) &&& (x >>> 2)) &&& 0x1249249249249249#64)

/-- `popcnt110`, bit_util.hpp:148-156. -/
def popcnt110 (x : W64) : W64 :=
  popTriples ((~~~x &&& (x >>> 1) &&& (x >>> 2)) &&& 0x1249249249249249#64)

/-- `popcnt101`, bit_util.hpp:158-166. -/
def popcnt101 (x : W64) : W64 :=
  popTriples ((x &&& (~~~x >>> 1) &&& (x >>> 2)) &&& 0x1249249249249249#64)

/-- `popcnt100`, bit_util.hpp:168-176. -/
def popcnt100 (x : W64) : W64 :=
  popTriples ((~~~x &&& (~~~x >>> 1) &&& (x >>> 2)) &&& 0x1249249249249249#64)

/-- `bextr`, portable branch, bit_util.hpp:182-188. Shifts by 64 or more are undefined. -/
def bextr (x : W64) (start len : Nat) : Option W64 := do
  let m ← widthMask len
  if start < 64 then pure ((x >>> start) &&& m) else none

/-- One step of the ctz/clz cascades: `if (x & m) { x &= m; c |= b; }`,
e.g. bit_util.hpp:203-206. -/
def cascade {n : Nat} (m : BitVec n) (b : Nat) (s : BitVec n × Nat) : BitVec n × Nat :=
  if s.1 &&& m ≠ 0#n then (s.1 &&& m, s.2 ||| b) else s

/-- `ctz(uint32_t)`, portable branch, bit_util.hpp:200-223. (The last step of the C++ does not
update `x`, which is not read afterwards.) -/
def ctz32 (x : W32) : Nat :=
  if x = 0#32 then 32
  else
    let s := cascade 0x0000FFFF#32 16 (x, 0)
    let s := cascade 0x00FF00FF#32 8 s
    let s := cascade 0x0F0F0F0F#32 4 s
    let s := cascade 0x33333333#32 2 s
    let s := cascade 0x55555555#32 1 s
    s.2 ^^^ 31

/-- `ctz(uint64_t)`, portable branch, bit_util.hpp:233-260. -/
def ctz64 (x : W64) : Nat :=
  if x = 0#64 then 64
  else
    let s := cascade 0x00000000FFFFFFFF#64 32 (x, 0)
    let s := cascade 0x0000FFFF0000FFFF#64 16 s
    let s := cascade 0x00FF00FF00FF00FF#64 8 s
    let s := cascade 0x0F0F0F0F0F0F0F0F#64 4 s
    let s := cascade 0x3333333333333333#64 2 s
    let s := cascade 0x5555555555555555#64 1 s
    s.2 ^^^ 63

/-- `clz(uint32_t)`, portable branch, bit_util.hpp:274-296, including the final `^ 63`. -/
def clz32 (x : W32) : Nat :=
  if x = 0#32 then 32
  else
    let s := cascade 0xFFFF0000#32 16 (x, 0)
    let s := cascade 0xFF00FF00#32 8 s
    let s := cascade 0xF0F0F0F0#32 4 s
    let s := cascade 0xCCCCCCCC#32 2 s
    let s := cascade 0xAAAAAAAA#32 1 s
    s.2 ^^^ 63

/-- `clz(uint64_t)`, portable branch, bit_util.hpp:312-338. -/
def clz64 (x : W64) : Nat :=
  if x = 0#64 then 64
  else
    let s := cascade 0xFFFFFFFF00000000#64 32 (x, 0)
    let s := cascade 0xFFFF0000FFFF0000#64 16 s
    let s := cascade 0xFF00FF00FF00FF00#64 8 s
    let s := cascade 0xF0F0F0F0F0F0F0F0#64 4 s
    let s := cascade 0xCCCCCCCCCCCCCCCC#64 2 s
    let s := cascade 0xAAAAAAAAAAAAAAAA#64 1 s
    s.2 ^^^ 63

/-- `sel`, portable branch, bit_util.hpp:515-536.  `i` is 1-based.  The final table access is
undefined behaviour (`none`) when the remaining `i` exceeds 8. -/
def sel (x : W64) (i : Nat) : Option Nat :=
  let ret := 0
  let c := (popcnt32 (x.setWidth 32)).toNat
  let (x, ret, i) := if c < i then (x >>> 32, ret + 32, i - c) else (x, ret, i)
  let c := popcnt16 (x.setWidth 16)
  let (x, ret, i) := if c < i then (x >>> 16, ret + 16, i - c) else (x, ret, i)
  let c := popcnt8 (x.setWidth 8)
  let (x, ret, i) := if c < i then (x >>> 8, ret + 8, i - c) else (x, ret, i)
  do
    let row ← kLtSel[i]?
    let v ← row[(x &&& 0xFF#64).toNat]?
    pure (ret + v)

/-- `swap_pi1`, bit_util.hpp:542-544. -/
def swapPi1 (x : W64) : W64 :=
  ((x &&& 0xAAAAAAAAAAAAAAAA#64) >>> 1) ||| ((x &&& 0x5555555555555555#64) <<< 1)

/-- `swap_pi2`, bit_util.hpp:546-548. -/
def swapPi2 (x : W64) : W64 :=
  ((x &&& 0xCCCCCCCCCCCCCCCC#64) >>> 2) ||| ((x &&& 0x3333333333333333#64) <<< 2)

/-- `swap_pi4`, bit_util.hpp:550-552. -/
def swapPi4 (x : W64) : W64 :=
  ((x &&& 0xF0F0F0F0F0F0F0F0#64) >>> 4) ||| ((x &&& 0x0F0F0F0F0F0F0F0F#64) <<< 4)

/-- `swap_pi8`, non-MMX branch, bit_util.hpp:559. (The MMX branch shifts each 16 bit lane by
8 both ways, which is the same function.) -/
def swapPi8 (x : W64) : W64 :=
  ((x &&& 0xFF00FF00FF00FF00#64) >>> 8) ||| ((x &&& 0x00FF00FF00FF00FF#64) <<< 8)

/-- `swap_pi16`, non-MMX branch, bit_util.hpp:568. -/
def swapPi16 (x : W64) : W64 :=
  ((x &&& 0xFFFF0000FFFF0000#64) >>> 16) ||| ((x &&& 0x0000FFFF0000FFFF#64) <<< 16)

/-- `swap_pi32`, bit_util.hpp:572-574. -/
def swapPi32 (x : W64) : W64 := (x >>> 32) ||| (x <<< 32)

/-! ### Builds with hardware instructions -/
namespace Hw

/-- Number of ones, the meaning of `_mm_popcnt_u32/u64`. -/
def popcnt {n : Nat} (x : BitVec n) : Nat := (List.range n).countP (fun i => x.getLsbD i)

/-- `ctz`, `__POPCNT__` branch, bit_util.hpp:197 and 230: `popcnt((x & -x) - 1)`. -/
def ctz {n : Nat} (x : BitVec n) : Nat := popcnt ((x &&& -x) - 1#n)

/-- `clz(uint32_t)`, `__POPCNT__` branch, bit_util.hpp:267-272. -/
def clz32 (x : W32) : Nat :=
  let x := x ||| (x >>> 1)
  let x := x ||| (x >>> 2)
  let x := x ||| (x >>> 4)
  let x := x ||| (x >>> 8)
  let x := x ||| (x >>> 16)
  popcnt (~~~x)

/-- `clz(uint64_t)`, `__POPCNT__` branch, bit_util.hpp:304-310. -/
def clz64 (x : W64) : Nat :=
  let x := x ||| (x >>> 1)
  let x := x ||| (x >>> 2)
  let x := x ||| (x >>> 4)
  let x := x ||| (x >>> 8)
  let x := x ||| (x >>> 16)
  let x := x ||| (x >>> 32)
  popcnt (~~~x)

/-- Meaning of `_pdep_u64(src, mask)`: scan the mask upwards, placing successive source bits at
the ones of the mask. `k` counts the ones of the mask below position `p`. -/
def pdepBit (src mask : W64) (p : Nat) : Bool :=
  mask.getLsbD p && src.getLsbD ((List.range p).countP (fun i => mask.getLsbD i))

/-- `_pdep_u64` assembled from its bits. -/
def pdep (src mask : W64) : W64 :=
  (List.range 64).foldl (fun acc p => if pdepBit src mask p then acc ||| (1#64 <<< p) else acc) 0#64

/-- `sel`, `__BMI2__` branch, bit_util.hpp:513 (`ctz` is `_tzcnt_u64` there; the portable
`ctz64` has the same value, see `ctz64_spec`). `1ull << (i-1)` is undefined for `i = 0` or
`i > 64`. -/
def sel (x : W64) (i : Nat) : Option Nat :=
  if 1 ≤ i ∧ i ≤ 64 then some (Bits.ctz64 (pdep (1#64 <<< (i - 1)) x) + 1) else none

end Hw

end Verif.Bits
