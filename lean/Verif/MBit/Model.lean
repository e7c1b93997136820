/-
Model of /repo/include/sim_ds/MultiBitVector.hpp, for `UnitSize` 1, 2 and 3.
-/
import Verif.Common
import Verif.Bits.Model
import Verif.Serial.Model

namespace Verif.MBit
open Verif.Bits Verif.Serial

/-- `kBitsMask`, MultiBitVector.hpp:24. -/
def kMask (S : Nat) : W64 := BitVec.ofNat 64 (2 ^ S - 1)

/-- `kBitsInType`, MultiBitVector.hpp:26. -/
def bitsInType (S : Nat) : Nat := 64 - 64 % S

/-- `kBlockCapacity`, MultiBitVector.hpp:27. -/
def blockCapacity (S : Nat) : Nat := bitsInType S * 4

/-- `kBlocksInTipSize`, MultiBitVector.hpp:29 (with `kBlockSize`, 25). -/
def tipSize (S : Nat) : Nat := 0x100 * S / 0x40

/-- `RankTip`: `L1` and the array `L2`, MultiBitVector.hpp:33-36. -/
abbrev Tip := Nat × List Nat

/-- The members, MultiBitVector.hpp:32-37; `tips` has `kMaxNumTypes = 2^S` vectors. -/
structure MBV where
  words : List W64
  tips : List (List Tip)
deriving DecidableEq

/-- `abs_`, MultiBitVector.hpp:43-45. -/
def absI (S i : Nat) : Nat := i / (bitsInType S / S)

/-- `rel_`, MultiBitVector.hpp:47-49. -/
def relI (S i : Nat) : Nat := i * S % bitsInType S

/-- `popcnt_(bits, word)`, MultiBitVector.hpp:51-90, for non-zero `bits`; the result is `uint8_t`. -/
def popT (S t : Nat) (w : W64) : Nat :=
  (if S = 1 then
    if t = 0 then popcnt64 (~~~w) else popcnt64 w
  else if S = 2 then
    if t = 0 then popcnt11 (~~~w)
    else if t = 1 then popcnt10 (~~~w)
    else if t = 2 then popcnt10 w
    else popcnt11 w
  else
    if t &&& 4 ≠ 0 then
      if t &&& 2 ≠ 0 then
        if t &&& 1 ≠ 0 then popcnt111 w else popcnt110 w
      else
        if t &&& 1 ≠ 0 then popcnt101 w else popcnt100 w
    else
      if t &&& 2 ≠ 0 then
        if t &&& 1 ≠ 0 then popcnt100 (~~~w) else popcnt101 (~~~w)
      else
        if t &&& 1 ≠ 0 then popcnt110 (~~~w) else popcnt111 (~~~w)).toNat % 256

/-- Default constructor, MultiBitVector.hpp:134. -/
def empty (S : Nat) : MBV := ⟨[], List.replicate (2 ^ S) []⟩

/-- `operator[]`, MultiBitVector.hpp:136-138. -/
def MBV.get (S : Nat) (v : MBV) (i : Nat) : Option Nat := do
  let w ← v.words[absI S i]?
  pure ((w >>> relI S i) &&& kMask S).toNat

/-- `resize(index)`, MultiBitVector.hpp:159-161. -/
def MBV.resize (S : Nat) (v : MBV) (i : Nat) : MBV := { v with words := vresize v.words (absI S i + 1) 0#64 }

/-- `set`, MultiBitVector.hpp:144-150, with `ResizeCheck`, 154-157. -/
def MBV.set (S : Nat) (v : MBV) (i x : Nat) : Option MBV := do
  let v := if absI S i < v.words.length then v else v.resize S i
  let r := relI S i
  let w ← v.words[absI S i]?
  let ws ← wr v.words (absI S i) ((w &&& ~~~(kMask S <<< r)) ||| (BitVec.ofNat 64 x <<< r))
  pure { v with words := ws }

/-- The inner loop of `build`, MultiBitVector.hpp:218-224: `n` iterations left, next word `index`.
Returns the rest of `L2` and the final count. -/
def tipInner (S : Nat) (ws : List W64) (t L1 : Nat) : (n index count : Nat) → List Nat × Nat
  | 0, _, count => ([], count)
  | n + 1, index, count =>
    let count' := match ws[index]? with
      | some w => count + popT S t w
      | none => count
    let (l, c) := tipInner S ws t L1 n (index + 1) count'
    ((count - L1) % 256 :: l, c)

/-- The loop over tips, MultiBitVector.hpp:215-225. -/
def tipLoop (S : Nat) (ws : List W64) (t : Nat) : (n i count : Nat) → List Tip
  | 0, _, _ => []
  | n + 1, i, count =>
    let (l, c) := tipInner S ws t count (tipSize S) (i * tipSize S) count
    (count, l) :: tipLoop S ws t n (i + 1) c

/-- `num_types`, MultiBitVector.hpp:204-206: `n` elements left, next index `i`. -/
def numTypes (S : Nat) (v : MBV) : (n i m : Nat) → Option Nat
  | 0, _, m => some m
  | n + 1, i, m => do
    let x ← v.get S i
    numTypes S v n (i + 1) (max m (x + 1))

/-- The loop over types, MultiBitVector.hpp:210-226: `n` types left, next `t`. -/
def typeLoop (S : Nat) (ws : List W64) (size : Nat) : (n t : Nat) → List (List Tip) → Option (List (List Tip))
  | 0, _, tips => some tips
  | n + 1, t, tips => do
    let tips ← wr tips (t - 1) (tipLoop S ws t size 0 0)
    typeLoop S ws size n (t + 1) tips

/-- `build`, MultiBitVector.hpp:200-227. `std::ceil(double(n) / k)` is the exact quotient rounded up (true
for n < 2^48); indices are `int`, so fewer than 2^31 words. -/
def MBV.build (S : Nat) (v : MBV) : Option MBV :=
  if v.words.length = 0 then some v
  else do
    let num ← numTypes S v (v.words.length * bitsInType S / S) 0 0
    let size := (v.words.length + tipSize S - 1) / tipSize S
    let tips ← typeLoop S v.words size (num - 1) 1 v.tips
    pure { v with tips := tips }

/-- `rank`, MultiBitVector.hpp:186-198. -/
def MBV.rank (S : Nat) (v : MBV) (i : Nat) : Option Nat := do
  let t ← v.get S i
  if t = 0 then none
  else do
    let ts ← v.tips[t - 1]?
    let tip ← ts[i / blockCapacity S]?
    let l2 ← tip.2[absI S i % tipSize S]?
    if relI S i = 0 then pure (tip.1 + l2)
    else do
      let w ← v.words[absI S i]?
      let m ← widthMask (relI S i)
      pure (tip.1 + l2 + popT S t (w &&& m))

/-- `sizeof(RankTip) - 8 - kBlocksInTipSize`: the struct is padded to a multiple of 8 bytes,
MultiBitVector.hpp:33-36. -/
def padLen (S : Nat) : Nat := (8 - tipSize S % 8) % 8

/-- The memory of one `RankTip`; the padding bytes are unspecified, given by `pad`. -/
def writeTip (S : Nat) (pad : Byte) (t : Tip) : Stream :=
  writeVal 8 t.1 ++ (t.2.map (BitVec.ofNat 8) ++ List.replicate (padLen S) pad)

/-- `write_vec(tips, os)`, basic.hpp:109-113. -/
def writeTips (S : Nat) (pad : Byte) (ts : List Tip) : Stream :=
  writeVal 8 ts.length ++ (ts.map (writeTip S pad)).flatten

/-- `Write`, MultiBitVector.hpp:178-182. -/
def MBV.write (S : Nat) (pad : Byte) (v : MBV) : Stream :=
  writeVec 8 (v.words.map BitVec.toNat) ++ (v.tips.map (writeTips S pad)).flatten

/-- Reading one `RankTip` object. -/
def readTip (S : Nat) (s : Stream) : Option (Tip × Stream) := do
  let (l1, s) ← readVal 8 s
  let n := tipSize S + padLen S
  if n ≤ s.length then pure ((l1, (s.take (tipSize S)).map BitVec.toNat), s.drop n) else none

/-- The loop of `n` reads, in order. -/
def readMany {α : Type} (rd : Stream → Option (α × Stream)) : Nat → Stream → Option (List α × Stream)
  | 0, s => some ([], s)
  | n + 1, s => do
    let (a, s) ← rd s
    let (l, s) ← readMany rd n s
    pure (a :: l, s)

/-- `read_vec(is, tips)`, basic.hpp:88-93. -/
def readTips (S : Nat) (s : Stream) : Option (List Tip × Stream) := do
  let (n, s) ← readVal 8 s
  readMany (readTip S) n s

/-- `Read`, MultiBitVector.hpp:172-176. -/
def read (S : Nat) (s : Stream) : Option (MBV × Stream) := do
  let (ws, s) ← readVec 8 s
  let (ts, s) ← readMany (readTips S) (2 ^ S) s
  pure (⟨ws.map (BitVec.ofNat 64), ts⟩, s)

/-- `size_in_bytes`, MultiBitVector.hpp:165-170. -/
def MBV.sizeInBytes (S : Nat) (v : MBV) : Nat :=
  (8 * v.words.length + 8) + (v.tips.map (fun ts => (8 + tipSize S + padLen S) * ts.length + 8)).sum

end Verif.MBit
