/-
Model of /repo/include/sim_ds/CDRWArray.hpp.

The element type of `sat_table_` is `CHT<0>` with the default arguments. The table of width 64 is constructed with a `FitVector` of width 64, which is undefined:
with `strict` the whole constructor is undefined, without it only accesses to the values of that table are. Sizes are natural numbers below 2^62. The asserts
are not part of the model (Release build).
-/
import Verif.CHT.Model

namespace Verif.CDRW
open Verif.Bits Verif.Fit Verif.CHT

/-- The template arguments of `CHT<0>`, CDRWArray.hpp:14. -/
def par : Par := defaultPar 0

/-- The members, CDRWArray.hpp:12-14. A default constructed array has no usable `widthes_` and `sat_table_`. -/
structure Arr where
  size : Nat
  body : Option (FVec × List Tab)
deriving DecidableEq

/-- CDRWArray.hpp:22-23 for the table of values of `w` bits. -/
def table (kb w : Nat) : Option Tab := do
  let t ← CHT.new par false kb 8
  if w = 64 then pure t
  else do
    let r ← t.setValueWidth par w
    r

/-- CDRWArray.hpp:21-24. -/
def tables (kb : Nat) : Nat → Option (List Tab)
  | 0 => some []
  | n + 1 => do
    let l ← tables kb n
    let t ← table kb (n + 1)
    pure (l ++ [t])

/-- `size_bits`, CDRWArray.hpp:19. -/
def sizeBits (size : Nat) : Nat := 64 - clz64 (BitVec.ofNat 64 (size - 1))

/-- The constructor, CDRWArray.hpp:17-25. -/
def new (strict : Bool) (size : Nat) : Option Arr :=
  if strict then none
  else if size = 0 then some ⟨0, none⟩
  else do
    let ws ← Fit.ofSize 7 size
    let ts ← tables (sizeBits size) 64
    pure ⟨size, some (ws, ts)⟩

/-- `get`, CDRWArray.hpp:34-43. -/
def Arr.get (a : Arr) (i : Nat) : Option Nat := do
  let (ws, ts) ← a.body
  let w ← ws.get i
  if w = 0 then pure 0
  else do
    let t ← ts[w - 1]?
    let r ← t.get par i
    pure r.2

/-- CDRWArray.hpp:48-49: the old width is used as the index of the table. -/
def eraseOld (ts : List Tab) (pw vb i : Nat) : Option (List Tab) :=
  if pw ≠ 0 ∧ pw ≠ vb then do
    let t ← ts[pw]?
    let t ← t.erase par false i
    pure (ts.set pw t)
  else some ts

/-- CDRWArray.hpp:51-52. -/
def setNew (ts : List Tab) (vb i value : Nat) : Option (List Tab) :=
  if vb > 0 then do
    let t ← ts[vb - 1]?
    let t ← t.set par false i value
    pure (ts.set (vb - 1) t)
  else some ts

/-- `set`, CDRWArray.hpp:45-53. -/
def Arr.set (a : Arr) (i value : Nat) : Option Arr := do
  let (ws, ts) ← a.body
  let vb := 64 - clz64 (BitVec.ofNat 64 value)
  let pw ← ws.get i
  let ts ← eraseOld ts pw vb i
  let ws ← ws.set i vb
  let ts ← setNew ts vb i value
  pure { a with body := some (ws, ts) }

/-- The loop of the constructor from a range, CDRWArray.hpp:29-31. -/
def setAll (i : Nat) : List Nat → Arr → Option Arr
  | [], a => some a
  | v :: l, a => do
    let a ← a.set i v
    setAll (i + 1) l a

/-- The constructor from a range, CDRWArray.hpp:28-32. -/
def ofList (strict : Bool) (l : List Nat) : Option Arr := do
  let a ← new strict l.length
  setAll 0 l a

/-- The members of `CDRWVector`, CDRWArray.hpp:62-64. -/
structure Vec where
  size : Nat
  cap : Nat
  arr : Arr
deriving DecidableEq

/-- `CDRWVector(size)`, CDRWArray.hpp:67. -/
def newVec (strict : Bool) (size : Nat) : Option Vec := do
  let a ← new strict size
  pure ⟨size, size, a⟩

/-- `get`, CDRWArray.hpp:73-75. -/
def Vec.get (v : Vec) (i : Nat) : Option Nat := v.arr.get i

/-- `set`, CDRWArray.hpp:77-79. -/
def Vec.set (v : Vec) (i value : Nat) : Option Vec := do
  let a ← v.arr.set i value
  pure { v with arr := a }

/-- The loop of `_allocate` from index `i` on, `n` more elements, CDRWArray.hpp:126-127. -/
def copy (src : Arr) : (n i : Nat) → Arr → Option Arr
  | 0, _, dst => some dst
  | n + 1, i, dst => do
    let x ← src.get i
    let dst ← dst.set i x
    copy src n (i + 1) dst

/-- `_allocate`, CDRWArray.hpp:122-130. -/
def Vec.allocate (v : Vec) (newCap : Nat) : Option Vec := do
  let a ← new false newCap
  let a ← copy v.arr v.size 0 a
  pure { v with arr := a, cap := newCap }

/-- `resize`, CDRWArray.hpp:81-86. -/
def Vec.resize (v : Vec) (n : Nat) : Option Vec :=
  (if n > v.cap then v.allocate (max n (v.cap * 2)) else some v).map (fun v => { v with size := n })

/-- `reserve`, CDRWArray.hpp:88-92. -/
def Vec.reserve (v : Vec) (n : Nat) : Option Vec := if n ≤ v.cap then some v else v.allocate (max n (v.cap * 2))

/-- `shrink_to_fit`, CDRWArray.hpp:94-98. -/
def Vec.shrink (v : Vec) : Option Vec := if v.size = v.cap then some v else v.allocate v.size

/-- `push_back`, CDRWArray.hpp:100-105. -/
def Vec.push (v : Vec) (value : Nat) : Option Vec :=
  (if v.size = v.cap then v.allocate (v.size * 2) else some v).bind (fun v => { v with size := v.size + 1 }.set (v.size + 1 - 1) value)

/-- `pop_back`, CDRWArray.hpp:107-113. -/
def Vec.pop (v : Vec) : Option Vec :=
  if v.size = 0 then some v
  else (if v.size * 3 < v.cap then v.allocate (v.size * 2) else some v).map (fun v => { v with size := v.size - 1 })

/-- `clear`, CDRWArray.hpp:115-117. -/
def Vec.clear (v : Vec) : Vec := { v with size := 0 }

end Verif.CDRW
