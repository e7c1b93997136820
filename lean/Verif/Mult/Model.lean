/-
Model of /repo/include/sim_ds/MultipleVector.hpp: records of byte wide fields in one byte array.

Not modelled: `reserve` (capacity only). `set_at` with a value of another type than `id_type` and `operator=` of a block are in
PropsTyped.lean, the conversions of `restricted_get` and `restricted_set` in PropsRestricted.lean.
-/
import Verif.Common
import Verif.Serial.Model

namespace Verif.Mult
open Verif.Serial

/-- `element_table_` (pairs of `pos` and `size`) and `bytes_`, MultipleVector.hpp:195-196. -/
structure MVec where
  table : List (Nat × Nat)
  bytes : List Byte
deriving DecidableEq

/-- The loop of the constructor and of `set_element_sizes`, MultipleVector.hpp:229-246. -/
def entries : List Nat → Nat → List (Nat × Nat)
  | [], _ => []
  | s :: ss, pos => (pos, s) :: entries ss (pos + s)

/-- The constructor from sizes, MultipleVector.hpp:228-236. -/
def new (sizes : List Nat) : MVec := ⟨entries sizes 0, []⟩

/-- `set_element_sizes`, MultipleVector.hpp:238-246: appends to the table. -/
def MVec.setElementSizes (v : MVec) (sizes : List Nat) : MVec := { v with table := v.table ++ entries sizes 0 }

/-- `block_size`, MultipleVector.hpp:248-251; `back()` of an empty table is undefined. -/
def MVec.blockSize (v : MVec) : Option Nat := v.table.getLast?.map fun e => e.1 + e.2

/-- `size`, MultipleVector.hpp:257-259; division by zero is undefined. -/
def MVec.size (v : MVec) : Option Nat := do
  let b ← v.blockSize
  if b = 0 then none else pure (v.bytes.length / b)

/-- `set_`, MultipleVector.hpp:210-215, and `_set`/`_set_at` of a block reference, 101-119: `n` bytes
are left, the next one has index `i`. A shift by 64 or more is undefined. -/
def setB (off x : Nat) : (n i : Nat) → List Byte → Option (List Byte)
  | 0, _, bs => some bs
  | n + 1, i, bs =>
    if 64 ≤ i * 8 then none
    else do
      let bs ← wr bs (off + i) (BitVec.ofNat 8 (x >>> (i * 8)))
      setB off x n (i + 1) bs

/-- `get_`, MultipleVector.hpp:217-223, and `_get`/`_get_at`/`get_` of block references, 77-99, 153-165
(the conversions to the type `T` of `restricted_get` and `restricted_set` are in PropsRestricted.lean). -/
def getB (bs : List Byte) (off : Nat) : (n i value : Nat) → Option Nat
  | 0, _, value => some value
  | n + 1, i, value =>
    if 64 ≤ i * 8 then none
    else do
      let b ← bs[off + i]?
      getB bs off n (i + 1) (value ||| (b.toNat <<< (i * 8)))

/-- `set_nested_element<f>(i, x)`, MultipleVector.hpp:269-276; also `block(i).set<f>(x)`, 50-53, and
`block(i).set_at(f, x)` with `x` an `id_type`, 59-62. -/
def MVec.set (v : MVec) (i f x : Nat) : Option MVec := do
  let b ← v.blockSize
  let e ← v.table[f]?
  let bs ← setB (i * b + e.1) x e.2 0 v.bytes
  pure { v with bytes := bs }

/-- `block(i).restricted_set<f, T>(x)` with `sizeof(T) = t`, MultipleVector.hpp:54-57. -/
def MVec.setR (v : MVec) (i f t x : Nat) : Option MVec := do
  let b ← v.blockSize
  let e ← v.table[f]?
  let bs ← setB (i * b + e.1) x (min e.2 t) 0 v.bytes
  pure { v with bytes := bs }

/-- `nested_element<f>(i)`, MultipleVector.hpp:278-283; also `block(i).get<f>()` and `get_at(f)`, 36-48. -/
def MVec.get (v : MVec) (i f : Nat) : Option Nat := do
  let b ← v.blockSize
  let e ← v.table[f]?
  getB v.bytes (i * b + e.1) e.2 0 0

/-- `block(i).restricted_get<f, T>()` with `sizeof(T) = t`, MultipleVector.hpp:40-43, 139-142. -/
def MVec.getR (v : MVec) (i f t : Nat) : Option Nat := do
  let b ← v.blockSize
  let e ← v.table[f]?
  getB v.bytes (i * b + e.1) (min e.2 t) 0 0

/-- `resize(size)`, MultipleVector.hpp:289-291. -/
def MVec.resize (v : MVec) (n : Nat) : Option MVec := do
  let b ← v.blockSize
  pure { v with bytes := vresize v.bytes (n * b) 0#8 }

/-- `for (auto x : values) b.set_at(id++, x)`, MultipleVector.hpp:301-304 and 315-319. -/
def MVec.setFields (v : MVec) (i : Nat) : (f : Nat) → List Nat → Option MVec
  | _, [] => some v
  | f, x :: xs => do
    let v ← v.set i f x
    setFields v i (f + 1) xs

/-- The loop MultipleVector.hpp:299-305: `n` records left, next `i`. -/
def MVec.setRecords (v : MVec) (xs : List Nat) : (n i : Nat) → Option MVec
  | 0, _ => some v
  | n + 1, i => do
    let v ← v.setFields i 0 xs
    setRecords v xs n (i + 1)

/-- `resize(new_size, values)`, MultipleVector.hpp:293-307. -/
def MVec.resizeVals (v : MVec) (n : Nat) (xs : List Nat) : Option MVec := do
  let s ← v.size
  if n < s then v.resize n
  else if n > s then do
    let v ← v.resize n
    v.setRecords xs (n - s) s
  else pure v

/-- `emplace_back()`, MultipleVector.hpp:309-311. -/
def MVec.emplaceBack (v : MVec) : Option MVec := do
  let s ← v.size
  v.resize (s + 1)

/-- `push_back`, MultipleVector.hpp:313-320. -/
def MVec.pushBack (v : MVec) (xs : List Nat) : Option MVec := do
  let s ← v.size
  let v ← v.resize (s + 1)
  let s ← v.size
  v.setFields (s - 1) 0 xs

/-- `StoreTo`, MultipleVector.hpp:338-346. -/
def MVec.store (v : MVec) : Stream :=
  writeVec 1 (v.bytes.map BitVec.toNat) ++ writeVec 8 (v.table.map (·.2))

/-- `LoadFrom`, MultipleVector.hpp:330-336. -/
def MVec.load (v : MVec) (st : Stream) : Option (MVec × Stream) := do
  let (bs, st) ← readVec 1 st
  let (sizes, st) ← readVec 8 st
  pure (({ v with bytes := bs.map (BitVec.ofNat 8) } : MVec).setElementSizes sizes, st)

/-- `size_in_bytes`, MultipleVector.hpp:324-328 (a table entry has 16 bytes). -/
def MVec.sizeInBytes (v : MVec) : Nat :=
  sizeVec 1 (v.bytes.map BitVec.toNat) + (16 * v.table.length + 8) / 2

end Verif.Mult
