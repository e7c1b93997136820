/-
Model of the iterators of FitVector, /repo/include/sim_ds/BitsReference.hpp:114-222.

`seg_` is the index of a word relative to `storage_.data()`, an integer. Moving the pointer outside of the array is undefined only when it is read
through here. Differences are integers far below 2^63. Not modelled: `++` and `--` (they have no return statement, which is undefined), `+` and `-`
(they return a reference to a local variable), comparison and difference (they name a member `offset_` that does not exist and do not compile when
used).
-/
import Verif.Fit.Model

namespace Verif.Fit
open Verif.Bits

/-- The members, BitsReference.hpp:128-131. -/
structure FIter where
  seg : Int
  start : Nat
  width : Nat
deriving DecidableEq

/-- `make_iter`, FitVector.hpp:183-189, with `abs_` and `rel_`, 169-171. -/
def FVec.iter (v : FVec) (pos : Nat) : FIter := ⟨(pos * v.width / 64 : Nat), pos * v.width % 64, v.width⟩

/-- `begin()`, FitVector.hpp:105-107. -/
def FVec.begin (v : FVec) : FIter := v.iter 0

/-- `end()`, FitVector.hpp:109-111. -/
def FVec.end' (v : FVec) : FIter := v.iter v.size

/-- `operator*`, BitsReference.hpp:138-140, with the conversion of the reference, 38-44. -/
def FVec.deref (v : FVec) (it : FIter) : Option Nat := do
  let m ← widthMask it.width
  if it.seg < 0 then none
  else do
    let x ← rdBits v.words (64 * it.seg.toNat + it.start) it.width m
    pure x.toNat

/-- `operator+=`, BitsReference.hpp:172-181. In the second branch the operand is computed modulo 2^64 and converted to a signed number; `/` on signed
numbers rounds to zero. `difference & 63` is the remainder that is not negative. -/
def FIter.advance (it : FIter) (d : Int) : FIter :=
  { it with
    seg := if d ≥ 0 then it.seg + ((it.start + d.toNat) / 64 : Nat) else it.seg + Int.tdiv (-d - 64 + it.start + 1) 64
    start := ((d % 64).toNat + it.start) % 64 }

/-- `operator-=`, BitsReference.hpp:183-185. -/
def FIter.retreat (it : FIter) (d : Int) : FIter := it.advance (-d)

end Verif.Fit
