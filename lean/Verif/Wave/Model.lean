/-
Model of `WaveletTree`, /repo/include/sim_ds/WaveletTree.hpp.

`std::vector<T>` elements are natural numbers (signed ones in PropsInt.lean); node numbers `id` are natural numbers (heights of 31 and
more, where the `int` counters overflow, are treated as faults).
-/
import Verif.Succ.Model
import Verif.Calc.Model

namespace Verif.Wave
open Verif.Bits Verif.Serial

/-- The members, WaveletTree.hpp:24-27. -/
structure WT where
  height : Nat
  leafs : Nat
  size : Nat
  nodes : List Succ.SBV
deriving DecidableEq

/-- `(value >> (height_ - 1 - depth)) & 1U`, WaveletTree.hpp:44. -/
def bitOf (h depth v : Nat) : Bool := ((v >>> (h - 1 - depth)) &&& 1) == 1

/-- The loop over depths for one value, WaveletTree.hpp:43-47: `k` levels left. -/
def insLoop (h v : Nat) : (k depth id : Nat) → List BV.BVec → Option (List BV.BVec)
  | 0, _, _, bs => some bs
  | k + 1, depth, id, bs => do
    let bit := bitOf h depth v
    let b ← bs[id - 1]?
    let b ← b.pushBack bit
    let bs ← wr bs (id - 1) b
    insLoop h v k (depth + 1) ((id <<< 1) ||| bit.toNat) bs

/-- The loop over the values, WaveletTree.hpp:40-48. -/
def insAll (h : Nat) : List Nat → List BV.BVec → Option (List BV.BVec)
  | [], bs => some bs
  | v :: vs, bs => do
    let bs ← insLoop h v h 0 1 bs
    insAll h vs bs

/-- The rank directories, WaveletTree.hpp:50-52. -/
def buildNodes : List BV.BVec → Option (List Succ.SBV)
  | [] => some []
  | b :: bs => do
    let s ← Succ.build false b
    let ss ← buildNodes bs
    pure (s :: ss)

/-- The constructor, WaveletTree.hpp:30-53. `*max_element` of an empty vector is a fault. -/
def make (vec : List Nat) : Option WT :=
  if vec = [] then none
  else do
    let maxChar := vec.foldl max 0
    let h ← Calc.sizeFitsInBits maxChar
    if h < 31 then do
      let bs ← insAll h vec (List.replicate ((1 <<< h) - 1) BV.empty)
      let ns ← buildNodes bs
      pure ⟨h, maxChar + 1, 0, ns⟩
    else none

/-- `!bit ? cbv.rank_0(idx) : cbv.rank_1(idx)`, WaveletTree.hpp:64, :77, :89, :102. -/
def rankBit (s : Succ.SBV) (bit : Bool) (i : Nat) : Option Nat := if bit = false then s.rank0 i else s.rank1 i

/-- The loop of `operator[]`, WaveletTree.hpp:60-66; `value` is a `uint8_t`. Returns `(value, id, idx)`. -/
def accLoop (t : WT) : (k depth id idx value : Nat) → Option (Nat × Nat × Nat)
  | 0, _, id, idx, value => some (value, id, idx)
  | k + 1, depth, id, idx, value => do
    let c ← t.nodes[id - 1]?
    let bit ← c.get idx
    let value := (value ||| (bit.toNat <<< (t.height - 1 - depth))) % 256
    let idx ← rankBit c bit idx
    accLoop t k (depth + 1) ((id <<< 1) ||| bit.toNat) idx value

/-- `operator[]`, WaveletTree.hpp:55-70. -/
def WT.get (t : WT) (i : Nat) : Option Nat := do
  let (value, id, idx) ← accLoop t (t.height - 1) 0 1 i 0
  let c ← t.nodes[id - 1]?
  let bit ← c.get idx
  pure ((value ||| (bit.toNat <<< (t.height - 1 - (t.height - 1)))) % 256)

/-- The loop of `rank(index)`, WaveletTree.hpp:74-79: `k` levels left. -/
def rankLoop (t : WT) : (k id idx : Nat) → Option Nat
  | 0, _, idx => some idx
  | k + 1, id, idx => do
    let c ← t.nodes[id - 1]?
    let bit ← c.get idx
    let idx ← rankBit c bit idx
    rankLoop t k ((id <<< 1) ||| bit.toNat) idx

/-- `rank(index)`, WaveletTree.hpp:72-81. -/
def WT.rank (t : WT) (i : Nat) : Option Nat := rankLoop t t.height 1 i

/-- `rank(c, index)`, WaveletTree.hpp:83-93 (release build, the assertion is not evaluated). -/
def rankCLoop (t : WT) (c : Nat) : (k depth id idx : Nat) → Option Nat
  | 0, _, _, idx => some idx
  | k + 1, depth, id, idx => do
    let cbv ← t.nodes[id - 1]?
    let bit := bitOf t.height depth c
    let idx ← rankBit cbv bit idx
    rankCLoop t c k (depth + 1) ((id <<< 1) ||| bit.toNat) idx

/-- `rank(c, index)`, WaveletTree.hpp:83-93. -/
def WT.rankC (t : WT) (c i : Nat) : Option Nat := rankCLoop t c t.height 0 1 i

/-- `AccessAndRank`, WaveletTree.hpp:95-107; `value` is an `int`, converted to `uint8_t` at the end. -/
def accRankLoop (t : WT) : (k depth id idx value : Nat) → Option (Nat × Nat)
  | 0, _, _, idx, value => some (value % 256, idx)
  | k + 1, depth, id, idx, value => do
    let c ← t.nodes[id - 1]?
    let bit ← c.get idx
    let value := value ||| (bit.toNat <<< (t.height - 1 - depth))
    let idx ← rankBit c bit idx
    accRankLoop t k (depth + 1) ((id <<< 1) ||| bit.toNat) idx value

/-- `AccessAndRank`, WaveletTree.hpp:95-107. -/
def WT.accessAndRank (t : WT) (i : Nat) : Option (Nat × Nat) := accRankLoop t t.height 0 1 i 0

/-- `size()`, WaveletTree.hpp:109-111. -/
def WT.sizeOf (t : WT) : Option Nat := do
  let s ← t.nodes[0]?
  pure s.bits.size

/-- `node_diff`, WaveletTree.hpp:113-118; the subtraction of the depths is in `size_t`. -/
def nodeDiff (node diff : Nat) : Option Nat := do
  let depth ← Calc.sizeFitsInBits node
  let ti ← widthMask depth
  let fi ← widthMask ((depth + 2 ^ 64 - diff) % 2 ^ 64)
  pure (ti - fi).toNat

/-- `Write`, WaveletTree.hpp:135-141. -/
def WT.write (t : WT) : Stream :=
  writeVal 8 t.height ++ writeVal 8 t.leafs ++ writeVal 8 t.size ++ (t.nodes.map (Succ.SBV.write false)).flatten

/-- The loop over the nodes the object already has, WaveletTree.hpp:131-132. `SuccinctBitVector::Read`
overwrites bits and directory; the select tips of a `SuccinctBitVector<false>` stay empty. -/
def readNodes : List Succ.SBV → Stream → Option (List Succ.SBV × Stream)
  | [], s => some ([], s)
  | _ :: ns, s => do
    let (x, s) ← Succ.read false s
    let (l, s) ← readNodes ns s
    pure (x :: l, s)

/-- `Read` into an existing tree, WaveletTree.hpp:127-133. -/
def WT.read (t : WT) (s : Stream) : Option (WT × Stream) := do
  let (h, s) ← readVal 8 s
  let (l, s) ← readVal 8 s
  let (n, s) ← readVal 8 s
  let (ns, s) ← readNodes t.nodes s
  pure (⟨h, l, n, ns⟩, s)

/-- `size_in_bytes`, WaveletTree.hpp:120-125. -/
def WT.sizeInBytes (t : WT) : Nat := 8 * 3 + (t.nodes.map (Succ.SBV.sizeInBytes false)).sum

end Verif.Wave
