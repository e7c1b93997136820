/-
Model of /repo/include/sim_ds/FitVector.hpp and of the references of BitsReference.hpp (fixed width
integers packed into 64 bit words).

Bit positions `index * bits_per_element_` are natural numbers: vectors of 2^64 bits or more are out
of scope. `BitsIterator` is in Verif/Fit/Iter.lean.
-/
import Verif.Common
import Verif.Bits.Model
import Verif.Serial.Model
import Verif.Calc.Model

namespace Verif.Fit
open Verif.Bits Verif.Serial

/-- The members, FitVector.hpp:46-51. -/
structure FVec where
  width : Nat
  mask : W64
  size : Nat
  words : List W64
deriving DecidableEq

/-- `operator value_type` of a reference at bit position `p`, BitsReference.hpp:38-44, 93-99 with
`seg_`/`offset_` from `abs_`/`rel_`, FitVector.hpp:169-171. -/
def rdBits (ws : List W64) (p w : Nat) (mask : W64) : Option W64 := do
  let x ← ws[p / 64]?
  if w + p % 64 ≤ 64 then pure ((x >>> (p % 64)) &&& mask)
  else do
    let y ← ws[p / 64 + 1]?
    pure (((x >>> (p % 64)) ||| (y <<< (64 - p % 64))) &&& mask)

/-- `operator=(value_type)` of a reference, BitsReference.hpp:46-53. -/
def wrBits (ws : List W64) (p w : Nat) (mask value : W64) : Option (List W64) := do
  let x ← ws[p / 64]?
  let ws ← wr ws (p / 64) ((x &&& ~~~(mask <<< (p % 64))) ||| (value <<< (p % 64)))
  if w + p % 64 > 64 then do
    let r := 64 - p % 64
    let y ← ws[p / 64 + 1]?
    wr ws (p / 64 + 1) ((y &&& ~~~(mask >>> r)) ||| (value >>> r))
  else pure ws

/-- `FitVector(unit_len)`, FitVector.hpp:54; `WidthMask(64)` is undefined. -/
def new (w : Nat) : Option FVec := do
  let m ← widthMask w
  pure ⟨w, m, 0, []⟩

/-- The number of words, FitVector.hpp:128. -/
def need (n w : Nat) : Nat := if n = 0 ∨ w = 0 then 0 else (n * w - 1) / 64 + 1

/-- `resize(size)`, FitVector.hpp:127-130. -/
def FVec.resize (v : FVec) (n : Nat) : FVec := { v with words := vresize v.words (need n v.width) 0#64, size := n }

/-- `v[i]` read, FitVector.hpp:87-89, 173-181. -/
def FVec.get (v : FVec) (i : Nat) : Option Nat := do
  let x ← rdBits v.words (i * v.width) v.width v.mask
  pure x.toNat

/-- `v[i] = x`. -/
def FVec.set (v : FVec) (i x : Nat) : Option FVec := do
  let ws ← wrBits v.words (i * v.width) v.width v.mask (BitVec.ofNat 64 x)
  pure { v with words := ws }

/-- `v[i] = v[j]`: assignment between references, BitsReference.hpp:55-58. -/
def FVec.copyElem (v : FVec) (i j : Nat) : Option FVec := do
  let x ← v.get j
  v.set i x

/-- `at`, FitVector.hpp:91-103; the inner `none` is the exception. -/
def FVec.at (v : FVec) (i : Nat) : Option (Option Nat) :=
  if i ≥ v.size then some none else (v.get i).map some

/-- `for (i = i; i < ...; i++) operator[](i) = x`, FitVector.hpp:135-136 and 141-142. -/
def FVec.setRange (v : FVec) (x : Nat) : (n i : Nat) → Option FVec
  | 0, _ => some v
  | n + 1, i => do
    let v ← v.set i x
    setRange v x n (i + 1)

/-- `resize(new_size, value)`, FitVector.hpp:132-137. -/
def FVec.resizeVal (v : FVec) (n x : Nat) : Option FVec :=
  (v.resize n).setRange x (n - v.size) v.size

/-- `assign`, FitVector.hpp:139-143. -/
def FVec.assign (v : FVec) (n x : Nat) : Option FVec := (v.resize n).setRange x n 0

/-- `push_back`, FitVector.hpp:149-152, with `back()`, 117. -/
def FVec.pushBack (v : FVec) (x : Nat) : Option FVec :=
  let v := v.resize (v.size + 1)
  v.set (v.size - 1) x

/-- `FitVector(unit_len, size)`, FitVector.hpp:56-58. -/
def ofSize (w n : Nat) : Option FVec := do
  let v ← new w
  pure (v.resize n)

/-- `FitVector(unit_len, size, value)`, FitVector.hpp:60-62. -/
def ofSizeVal (w n x : Nat) : Option FVec := do
  let v ← new w
  v.assign n x

/-- The loop of `push_back`s, FitVector.hpp:73-74. -/
def pushAll : List Nat → FVec → Option FVec
  | [], v => some v
  | x :: xs, v => do
    let v ← v.pushBack x
    pushAll xs v

/-- `minimal_word_size`, FitVector.hpp:79-85 (`*std::max_element` is the maximum). -/
def minimalWordSize (l : List Nat) : Option Nat :=
  if l = [] then some 0 else Calc.sizeFitsInBits (l.foldl max 0)

/-- `FitVector(vector)`, FitVector.hpp:69-75. -/
def ofVector (l : List Nat) : Option FVec := do
  let w ← minimalWordSize l
  let v ← new w
  pushAll l v

/-- `Write`, FitVector.hpp:162-166. -/
def FVec.write (v : FVec) : Stream :=
  writeVal 8 v.width ++ writeVal 8 v.size ++ writeVec 8 (v.words.map BitVec.toNat)

/-- The constructor from a stream, FitVector.hpp:64-67. -/
def read (s : Stream) : Option (FVec × Stream) := do
  let (w, s) ← readVal 8 s
  let v ← new w
  let (n, s) ← readVal 8 s
  let (ws, s) ← readVec 8 s
  pure ({ v with size := n, words := ws.map (BitVec.ofNat 64) }, s)

/-- `size_in_bytes`, FitVector.hpp:156-160. -/
def FVec.sizeInBytes (v : FVec) : Nat := 16 + sizeVec 8 (v.words.map BitVec.toNat)

end Verif.Fit
