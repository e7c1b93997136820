/-
Model of /repo/include/sim_ds/SuccinctBitVector.hpp.

Counts (`size_t`, `uint64_t`) are `Nat`: they never exceed the number of bits. Out of bounds
accesses give `none`.
-/
import Verif.BV.Model

namespace Verif.Succ
open Verif.Bits Verif.Serial Verif.BV

/-- The three members, SuccinctBitVector.hpp:19-25. -/
structure SBV where
  bits : BVec
  blk : List Nat
  tips : List Nat
deriving DecidableEq

/-- The loop over full words, SuccinctBitVector.hpp:95-105. `n` iterations are left, the next one
has index `i`; `*(++data)` is word `i`. Returns `(i, sum, sum_word, basic_block_)`. -/
def buildLoop (ws : List W64) : (n i sum sw : Nat) → List Nat → Option (Nat × Nat × Nat × List Nat)
  | 0, i, sum, sw, blk => some (i, sum, sw, blk)
  | n + 1, i, sum, sw, blk => do
    let (sum, sw, blk) ←
      if i % 8 = 0 then do
        let j := i / 8 * 2
        let blk ← wr blk (j - 1) sw
        let p ← blk[j - 2]?
        let blk ← wr blk j (p + sum)
        pure (0, 0, blk)
      else pure (sum, sw ||| (sum <<< (63 - 9 * (i % 8))), blk)
    let w ← ws[i]?
    buildLoop ws n (i + 1) (sum + (popcnt64 w).toNat) sw blk

/-- The rest after the loop, SuccinctBitVector.hpp:106-115. -/
def buildEnd (i sum sw : Nat) (blk : List Nat) : Option (List Nat) :=
  let j := i / 8 * 2
  if i % 8 ≠ 0 then wr blk (j + 1) (sw ||| (sum <<< (63 - 9 * (i % 8))))
  else do
    let blk ← wr blk (j - 1) sw
    let p ← blk[j - 2]?
    let blk ← wr blk j (p + sum)
    wr blk (j + 1) 0

/-- The loop collecting select tips, SuccinctBitVector.hpp:120-125: `n` iterations left, next `j`.
Entries are `uint32_t`. -/
def tipsLoop (blk : List Nat) : (n j thr : Nat) → Option (List Nat)
  | 0, _, _ => some []
  | n + 1, j, thr => do
    let b ← blk[j * 2]?
    if thr ≤ b then do
      let r ← tipsLoop blk n (j + 1) (thr + 512)
      pure ((j - 1) % 2 ^ 32 :: r)
    else tipsLoop blk n (j + 1) thr

/-- The constructor from a bit vector, SuccinctBitVector.hpp:80-128. -/
def build (useSelect : Bool) (v : BVec) : Option SBV :=
  if v.size = 0 then some ⟨v, [0, 0], []⟩
  else do
    let nb := v.size / 512 + 1
    let blk := List.replicate (nb * 2) 0
    let w0 ← v.words[0]?
    let (i, sum, sw, blk) ← buildLoop v.words (v.size / 64 - 1) 1 (popcnt64 w0).toNat 0 blk
    let blk ← buildEnd i sum sw blk
    if useSelect then do
      let r ← tipsLoop blk (nb - 1) 1 512
      pure ⟨v, blk, 0 :: r ++ [(nb - 1) % 2 ^ 32]⟩
    else pure ⟨v, blk, []⟩

/-- A default constructed object, SuccinctBitVector.hpp:28. -/
def default : SBV := ⟨BV.empty, [], []⟩

/-- The 9 bit field for word `k` of a block: `(x >> (63-9*k)) & width_mask<9>`. -/
def field (x k : Nat) : Nat := (x >>> (63 - 9 * k)) &&& (widthMaskT 9).toNat

/-- `operator[]`, SuccinctBitVector.hpp:40. -/
def SBV.get (s : SBV) (i : Nat) : Option Bool := s.bits.get i

/-- `rank_1` (and `rank`), SuccinctBitVector.hpp:132-137. -/
def SBV.rank1 (s : SBV) (i : Nat) : Option Nat := do
  let b := i / 512 * 2
  let x ← s.blk[b]?
  let y ← s.blk[b + 1]?
  let w ← s.bits.words[i / 64]?
  let c ← cnt w (i % 64)
  pure (x + field y (i / 64 % 8) + c.toNat)

/-- `rank_0`, SuccinctBitVector.hpp:46. -/
def SBV.rank0 (s : SBV) (i : Nat) : Option Nat := do
  let r ← s.rank1 i
  pure (i - r)

/-- `num_blocks`, SuccinctBitVector.hpp:54. -/
def SBV.numBlocks (s : SBV) : Nat := s.blk.length / 2

/-- Binary search over blocks, SuccinctBitVector.hpp:157-164. -/
def bsearch (blk : List Nat) (i left right : Nat) : Option Nat :=
  if _h : left + 1 < right then
    match blk[(left + right) / 2 * 2]? with
    | none => none
    | some b => if i < b then bsearch blk i left ((left + right) / 2) else bsearch blk i ((left + right) / 2) right
  else some left
termination_by right - left

/-- The lambda `second_tip`, SuccinctBitVector.hpp:168-170. -/
def secondTip (s : SBV) (idx : Nat) : Option Nat := do
  let y ← s.blk[idx / 8 * 2 + 1]?
  pure (field y (idx % 8))

/-- The scan over words of the block, SuccinctBitVector.hpp:171-175. -/
def scan (s : SBV) (left i offset : Nat) : Option Nat :=
  if _h : offset < 8 ∧ left * 8 + offset < s.bits.size / 64 + 1 then
    match secondTip s (left * 8 + offset) with
    | none => none
    | some t => if i > t then scan s left i (offset + 1) else some offset
  else some offset
termination_by 8 - offset

/-- `select` of `SuccinctBitVector<true>`, SuccinctBitVector.hpp:146-182. `selF` is
`bit_util::sel` of the build at hand. The two subtractions wrap in C++ if they go below zero; the
model then stops with `none`. -/
def SBV.select (selF : W64 → Nat → Option Nat) (s : SBV) (i : Nat) : Option Nat := do
  let (left, right) ←
    if s.tips.length ≠ 0 then do
      let a ← s.tips[i / 512]?
      let b ← s.tips[i / 512 + 1]?
      pure (a, b + 1)
    else pure (0, s.numBlocks)
  let left ← bsearch s.blk i left right
  let b ← s.blk[left * 2]?
  if i + 1 < b then none
  else do
    let i1 := i + 1 - b
    let offset ← scan s left i1 1
    let t ← secondTip s (left * 8 + (offset - 1))
    if i1 < t then none
    else do
      let ret := left * 512 + (offset - 1) * 64
      let w ← s.bits.words[ret / 64]?
      let r ← selF w (i1 - t)
      pure (ret + r - 1)

/-- `Write`, SuccinctBitVector.hpp:71-76. -/
def SBV.write (useSelect : Bool) (s : SBV) : Stream :=
  s.bits.write ++ writeVec 8 s.blk ++ (if useSelect then writeVec 4 s.tips else [])

/-- `Read`, SuccinctBitVector.hpp:64-69; a member that is not read keeps its (default) value. -/
def read (useSelect : Bool) (st : Stream) : Option (SBV × Stream) := do
  let (v, st) ← BV.read st
  let (blk, st) ← readVec 8 st
  if useSelect then do
    let (tips, st) ← readVec 4 st
    pure (⟨v, blk, tips⟩, st)
  else pure (⟨v, blk, []⟩, st)

/-- `size_in_bytes`, SuccinctBitVector.hpp:56-62. -/
def SBV.sizeInBytes (useSelect : Bool) (s : SBV) : Nat :=
  s.bits.sizeInBytes + sizeVec 8 s.blk + (if useSelect then sizeVec 4 s.tips else 0)

end Verif.Succ
