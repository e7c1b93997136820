/-
Model of /repo/include/sim_ds/BitVector.hpp and BitReference.hpp.

The word array is a `List W64`; every access outside of it is the outcome `none`.
-/
import Verif.Common
import Verif.Bits.Model
import Verif.Serial.Model

namespace Verif.BV
open Verif.Bits Verif.Serial

/-- `_BitVector`: `actual_size_` and `storage_`, BitVector.hpp:42-43. The template class
`aligned_vector` is a plain vector here. -/
structure BVec where
  size : Nat
  words : List W64
deriving DecidableEq

/-- `get_word_size`, BitVector.hpp:60-63. -/
def wordSize (n : Nat) : Nat := if n = 0 then 1 else (n - 1) / 64 + 1

/-- `BitIterator`: word pointer (as a signed index into the array) and bit offset,
BitReference.hpp:103-104. -/
structure Iter where
  seg : Int
  ctz : Nat
deriving DecidableEq

/-- `_make_iter`, BitVector.hpp:73-79. -/
def mkIter (pos : Nat) : Iter := ⟨(pos / 64 : Nat), pos % 64⟩

/-- `operator++`, BitReference.hpp:120-128. -/
def Iter.inc (x : Iter) : Iter := if x.ctz = 63 then ⟨x.seg + 1, 0⟩ else ⟨x.seg, x.ctz + 1⟩

/-- `operator--`, BitReference.hpp:136-144. -/
def Iter.dec (x : Iter) : Iter := if x.ctz = 0 then ⟨x.seg - 1, 63⟩ else ⟨x.seg, x.ctz - 1⟩

/-- `operator+=`, BitReference.hpp:152-162. C++ division truncates (`Int.tdiv`); `difference & 63`
is the non-negative remainder. Distances are assumed to stay inside `ptrdiff_t`. -/
def Iter.add (x : Iter) (d : Int) : Iter :=
  let seg := if d ≥ 0 then x.seg + (x.ctz + d).tdiv 64 else x.seg + (d - 64 + x.ctz + 1).tdiv 64
  let d' := (d % 64).toNat
  ⟨seg, (d' + x.ctz) % 64⟩

/-- `operator-=`, BitReference.hpp:164-166. -/
def Iter.sub (x : Iter) (d : Int) : Iter := x.add (-d)

/-- `operator-` of two iterators, BitReference.hpp:182. -/
def Iter.diff (x y : Iter) : Int := (x.seg - y.seg) * 64 + x.ctz - y.ctz

/-- `operator==`, BitReference.hpp:186. -/
def Iter.eq (x y : Iter) : Bool := x.seg == y.seg && x.ctz == y.ctz

/-- `operator<`, BitReference.hpp:190. -/
def Iter.lt (x y : Iter) : Bool := x.seg < y.seg || (x.seg == y.seg && x.ctz < y.ctz)

/-- `operator<=`, BitReference.hpp:192-194. -/
def Iter.le (x y : Iter) : Bool := !(y.lt x)

/-- Word read through a pointer. -/
def rdSeg (ws : List W64) (seg : Int) : Option W64 := if 0 ≤ seg then ws[seg.toNat]? else none

/-- Word write through a pointer. -/
def wrSeg (ws : List W64) (seg : Int) (v : W64) : Option (List W64) :=
  if 0 ≤ seg then wr ws seg.toNat v else none

/-- `*it` read: `BitReference::operator bool` on `reference(seg_, 1 << ctz_)`,
BitReference.hpp:34-36, 116-118. -/
def Iter.get (ws : List W64) (x : Iter) : Option Bool := do
  let w ← rdSeg ws x.seg
  let m ← offsetMask x.ctz
  pure (w &&& m != 0#64)

/-- `*it = b`: `BitReference::operator=`, BitReference.hpp:38-44. -/
def Iter.set (ws : List W64) (x : Iter) (b : Bool) : Option (List W64) := do
  let w ← rdSeg ws x.seg
  let m ← offsetMask x.ctz
  wrSeg ws x.seg (if b then w ||| m else w &&& ~~~m)

/-- The loop `while (seg < back.seg_) *(seg++) = v`, BitVector.hpp:93-95 and 105-107;
`n` is `back.seg_ - seg`. -/
def fillWords (ws : List W64) (seg : Int) (v : W64) : Nat → Option (List W64)
  | 0 => some ws
  | n + 1 => do
    let ws ← wrSeg ws seg v
    fillWords ws (seg + 1) v n

/-- `_fill`, BitVector.hpp:83-114. -/
def fill (ws : List W64) (beg en : Iter) (bit : Bool) : Option (List W64) :=
  if en.le beg then some ws
  else
    let mask := BitVec.allOnes 64
    let back := en.sub 1
    let eclz := 64 - (back.ctz + 1)
    if bit then
      if beg.seg < back.seg then do
        let w ← rdSeg ws beg.seg
        let ws ← wrSeg ws beg.seg (w ||| (mask <<< beg.ctz))
        let ws ← fillWords ws (beg.seg + 1) mask (back.seg - (beg.seg + 1)).toNat
        let w ← rdSeg ws back.seg
        wrSeg ws back.seg (w ||| (if en.ctz > 0 then ~~~(mask <<< en.ctz) else mask))
      else do
        let w ← rdSeg ws beg.seg
        wrSeg ws beg.seg (w ||| ((mask <<< beg.ctz) &&& (mask >>> eclz)))
    else
      if beg.seg < back.seg then do
        let w ← rdSeg ws beg.seg
        let ws ← wrSeg ws beg.seg (w &&& ~~~(mask <<< beg.ctz))
        let ws ← fillWords ws (beg.seg + 1) 0#64 (back.seg - (beg.seg + 1)).toNat
        let w ← rdSeg ws back.seg
        wrSeg ws back.seg (w &&& (if en.ctz > 0 then mask <<< en.ctz else 0#64))
      else do
        let w ← rdSeg ws beg.seg
        wrSeg ws beg.seg (w &&& ~~~((mask <<< beg.ctz) &&& (mask >>> eclz)))

/-- Default constructor, BitVector.hpp:52: one zero word. -/
def empty : BVec := ⟨0, [0#64]⟩

/-- `BitVector(size)`, BitVector.hpp:54 (words are value-initialised). -/
def ofSize (n : Nat) : BVec := ⟨n, List.replicate (wordSize n) 0#64⟩

/-- `BitVector(size, bit)`, BitVector.hpp:56-58. -/
def ofSizeBit (n : Nat) (bit : Bool) : Option BVec := do
  let ws ← fill (List.replicate (wordSize n) 0#64) (mkIter 0) (mkIter n) bit
  pure ⟨n, ws⟩

/-- `std::transform(bits.begin(), bits.end(), it, ...)`: write and advance. -/
def writeSeq (ws : List W64) (it : Iter) : List Bool → Option (List W64)
  | [] => some ws
  | b :: bs => do
    let ws ← it.set ws b
    writeSeq ws it.inc bs

/-- Construction from a list of bits or any boolean container, BitVector.hpp:163-170. -/
def ofBits (bits : List Bool) : Option BVec := do
  let ws ← writeSeq (List.replicate (wordSize bits.length) 0#64) (mkIter 0) bits
  pure ⟨bits.length, ws⟩

/-- `operator[]` read, BitVector.hpp:65-71, 172-174 and BitReference.hpp:34-36. -/
def BVec.get (v : BVec) (i : Nat) : Option Bool := do
  let w ← v.words[i / 64]?
  let m ← offsetMask (i % 64)
  pure (w &&& m != 0#64)

/-- `v[i] = b`, BitReference.hpp:38-44. -/
def BVec.set (v : BVec) (i : Nat) (b : Bool) : Option BVec := do
  let w ← v.words[i / 64]?
  let m ← offsetMask (i % 64)
  let ws ← wr v.words (i / 64) (if b then w ||| m else w &&& ~~~m)
  pure ⟨v.size, ws⟩

/-- `v[i] = v[j]`: copy assignment of references, BitReference.hpp:46-48. -/
def BVec.copyElem (v : BVec) (i j : Nat) : Option BVec := do
  let b ← v.get j
  v.set i b

/-- `front`, BitVector.hpp:198-200. -/
def BVec.front (v : BVec) : Option Bool := v.get 0

/-- `back`, BitVector.hpp:202-204. -/
def BVec.back (v : BVec) : Option Bool := v.get (v.size - 1)

/-- `reserve` and `shrink_to_fit`, BitVector.hpp:134-136, 226-232: only the capacity changes, which
the model does not have. -/
def BVec.reserve (v : BVec) (_n : Nat) : Option BVec := some v

/-- `at`, BitVector.hpp:176-188; the inner `none` is the exception `std::out_of_range`. -/
def BVec.at (v : BVec) (i : Nat) : Option (Option Bool) :=
  if i ≥ v.size then some none else (v.get i).map some

/-- `_resize`, BitVector.hpp:116-126 (and `resize`, 214-220). -/
def BVec.resize (v : BVec) (n : Nat) (bit : Bool) : Option BVec :=
  if n < v.size then some ⟨n, vresize v.words (wordSize n) 0#64⟩
  else if n > v.size then do
    let ws ← fill (vresize v.words (wordSize n) 0#64) (mkIter v.size) (mkIter n) bit
    pure ⟨n, ws⟩
  else some v

/-- `_assign`, BitVector.hpp:128-132. -/
def BVec.assign (v : BVec) (n : Nat) (bit : Bool) : Option BVec := do
  let ws ← fill (vresize v.words (wordSize n) 0#64) (mkIter 0) (mkIter n) bit
  pure ⟨n, ws⟩

/-- `push_back`, BitVector.hpp:206-208. -/
def BVec.pushBack (v : BVec) (bit : Bool) : Option BVec := v.resize (v.size + 1) bit

/-- `fill(begin() + b, begin() + e, bit)`, BitVector.hpp:210-212. -/
def BVec.fillRange (v : BVec) (b e : Nat) (bit : Bool) : Option BVec := do
  let ws ← fill v.words ((mkIter 0).add b) ((mkIter 0).add e) bit
  pure ⟨v.size, ws⟩

/-- `for (it = begin(); it != end(); ++it) out.push_back(*it)`; `n` bounds the number of steps
(one more than the size suffices, see `iterate_spec`). -/
def iterate (ws : List W64) (it en : Iter) : Nat → Option (List Bool)
  | 0 => none
  | n + 1 =>
    if it.eq en then some []
    else do
      let b ← it.get ws
      let bs ← iterate ws it.inc en n
      pure (b :: bs)

/-- The elements produced by iterating from `begin()` to `end()`, BitVector.hpp:190-196. -/
def BVec.toList (v : BVec) : Option (List Bool) := iterate v.words (mkIter 0) (mkIter v.size) (v.size + 1)

/-- `Write`, BitVector.hpp:255-258. -/
def BVec.write (v : BVec) : Stream := writeVal 8 v.size ++ writeVec 8 (v.words.map BitVec.toNat)

/-- `Read`, BitVector.hpp:250-253. -/
def read (s : Stream) : Option (BVec × Stream) := do
  let (n, s) ← readVal 8 s
  let (ws, s) ← readVec 8 s
  pure (⟨n, ws.map (BitVec.ofNat 64)⟩, s)

/-- `size_in_bytes`, BitVector.hpp:244-248. -/
def BVec.sizeInBytes (v : BVec) : Nat := 8 + sizeVec 8 (v.words.map BitVec.toNat)

end Verif.BV
