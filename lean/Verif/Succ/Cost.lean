/-
`select` of SuccinctBitVector with counts: the rounds of the binary search over the blocks and the reads of the loop over the words of the block.
-/
import Verif.Succ.Model

namespace Verif.Succ
open Verif.Bits

/-- `bsearch` with the number of rounds, SuccinctBitVector.hpp:157-164; each reads one entry of the directory. -/
def bsearchC (blk : List Nat) (i left right cnt : Nat) : Option (Nat × Nat) :=
  if _h : left + 1 < right then
    match blk[(left + right) / 2 * 2]? with
    | none => none
    | some b => if i < b then bsearchC blk i left ((left + right) / 2) (cnt + 1) else bsearchC blk i ((left + right) / 2) right (cnt + 1)
  else some (left, cnt)
termination_by right - left

/-- `scan` with the number of reads of the second level, SuccinctBitVector.hpp:171-175. -/
def scanC (s : SBV) (left i offset cnt : Nat) : Option (Nat × Nat) :=
  if _h : offset < 8 ∧ left * 8 + offset < s.bits.size / 64 + 1 then
    match secondTip s (left * 8 + offset) with
    | none => none
    | some t => if i > t then scanC s left i (offset + 1) (cnt + 1) else some (offset, cnt + 1)
  else some (offset, cnt)
termination_by 8 - offset

/-- `select` from the range of blocks on, with the two counts, SuccinctBitVector.hpp:157-181. -/
def selectFromC (selF : W64 → Nat → Option Nat) (s : SBV) (i left right : Nat) : Option (Nat × Nat × Nat) :=
  (bsearchC s.blk i left right 0).bind fun x =>
  (s.blk[x.1 * 2]?).bind fun b =>
  if i + 1 < b then none
  else
    (scanC s x.1 (i + 1 - b) 1 0).bind fun y =>
    (secondTip s (x.1 * 8 + (y.1 - 1))).bind fun t =>
    if i + 1 - b < t then none
    else
      (s.bits.words[(x.1 * 512 + (y.1 - 1) * 64) / 64]?).bind fun w =>
      (selF w (i + 1 - b - t)).bind fun r =>
      some (x.1 * 512 + (y.1 - 1) * 64 + r - 1, x.2, y.2)

/-- `select` with the two counts, SuccinctBitVector.hpp:146-182. -/
def SBV.selectC (selF : W64 → Nat → Option Nat) (s : SBV) (i : Nat) : Option (Nat × Nat × Nat) :=
  if s.tips.length ≠ 0 then
    (s.tips[i / 512]?).bind fun a => (s.tips[i / 512 + 1]?).bind fun b => selectFromC selF s i a (b + 1)
  else selectFromC selF s i 0 s.numBlocks

end Verif.Succ
