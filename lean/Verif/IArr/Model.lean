/-
Model of /repo/include/sim_ds/InitializableArray.hpp: `InitializableArrayFolklore` and the in-place
`_InitializableArray<T, Size, true>`.

Not modelled: the iterators of the in-place array (`begin()` and `end()` name the class template `_iterator` without its argument, which cannot
be deduced, so that no caller can instantiate them), `print_for_debug` and the unused `_shrink`.
-/
import Verif.Common

namespace Verif.IArr

/-! ### The folklore variant -/

/-- The members, InitializableArray.hpp:17-19. -/
structure Folk (α : Type) where
  init : α
  fv : List (Nat × α)
  t : List Nat
deriving DecidableEq

variable {α : Type}

/-- `InitializableArrayFolklore(size, val)`, InitializableArray.hpp:22; `fv_(size)` is value-initialised, `d` is `T()`. -/
def folkNew (d : α) (size : Nat) (val : α) : Folk α := ⟨val, List.replicate size (0, d), []⟩

/-- `_is_chained`, InitializableArray.hpp:57-60. -/
def Folk.isChained (a : Folk α) (i : Nat) : Option Bool := do
  let e ← a.fv[i]?
  if e.1 < a.t.length then do
    let x ← a.t[e.1]?
    pure (x == i)
  else pure false

/-- `get`, InitializableArray.hpp:32-34. -/
def Folk.get (a : Folk α) (i : Nat) : Option α := do
  let c ← a.isChained i
  if c then do
    let e ← a.fv[i]?
    pure e.2
  else pure a.init

/-- `set`, InitializableArray.hpp:36-42. -/
def Folk.set (a : Folk α) (i : Nat) (val : α) : Option (Folk α) := do
  let c ← a.isChained i
  let a ← if c then pure a else do
    let e ← a.fv[i]?
    let fv ← wr a.fv i (a.t.length, e.2)
    pure { a with fv := fv, t := a.t ++ [i] }
  let e ← a.fv[i]?
  let fv ← wr a.fv i (e.1, val)
  pure { a with fv := fv }

/-- `init` and `fill`, InitializableArray.hpp:45-52. -/
def Folk.fill (a : Folk α) (v : α) : Folk α := { a with init := v, t := [] }

/-- The loop of the range constructor, InitializableArray.hpp:27-29: `i` is `it-begin`. -/
def folkSetAll : List α → Nat → Folk α → Option (Folk α)
  | [], _, a => some a
  | x :: xs, i, a => do
    let a ← a.set i x
    folkSetAll xs (i + 1) a

/-- The range constructor, InitializableArray.hpp:25-30. -/
def folkRange (d : α) (l : List α) : Option (Folk α) := folkSetAll l 0 (folkNew d l.length d)

/-! ### The in-place variant

A value of the integer type `T` is represented by its memory image read as an unsigned number (what `_to` returns), a
natural number below `2^w` where `w` is the number of bits of `T`. In `get` the cell is used as a subscript
through its value instead; that happens only when the cell is below `kActualSize`, where image and value agree. -/

/-- The members, InitializableArray.hpp:86-88; `n` is `kNoneBlock`, the number of blocks, and `a` has
`2 * n` cells (`kActualSize`). -/
structure Arr where
  init : Nat
  b : Nat
  a : List Nat
deriving DecidableEq

/-- `kNoneBlock`, InitializableArray.hpp:81-82. -/
def blocks (size : Nat) : Nat := (size + size % 2) / 2

/-- `_to`, InitializableArray.hpp:175-179. -/
def Arr.to (s : Arr) (i : Nat) : Option Nat := s.a[i]?

/-- `_set_to`, InitializableArray.hpp:181-183: the low bytes of `b` are copied. -/
def Arr.setTo (w : Nat) (s : Arr) (i b : Nat) : Option Arr := do
  let a ← wr s.a i (b % 2 ^ w)
  pure { s with a := a }

/-- `a_[i] = val`. -/
def Arr.put (s : Arr) (i v : Nat) : Option Arr := do
  let a ← wr s.a i v
  pure { s with a := a }

/-- `_chained_to`, InitializableArray.hpp:185-192; `kNoneBlock` is the inner `none`. -/
def Arr.chainedTo (n : Nat) (s : Arr) (b : Nat) : Option (Option Nat) := do
  let k2 ← s.to (2 * b)
  if k2 < 2 * n then
    if k2 % 2 = 0 then do
      let x ← s.to k2
      if x = 2 * b ∧ ((b < s.b ∧ s.b ≤ k2 / 2) ∨ (k2 / 2 < s.b ∧ s.b ≤ b)) then pure (some (k2 / 2)) else pure none
    else pure none
  else pure none

/-- `_make_chain`, InitializableArray.hpp:194-198. -/
def Arr.makeChain (w : Nat) (s : Arr) (i j : Nat) : Option Arr := do
  let s ← s.setTo w (2 * i) (2 * j)
  s.setTo w (2 * j) (2 * i)

/-- `_break_chain`, InitializableArray.hpp:200-205. -/
def Arr.breakChain (w n : Nat) (s : Arr) (b : Nat) : Option Arr := do
  match ← s.chainedTo n b with
  | some k => s.setTo w (2 * k) (2 * k)
  | none => pure s

/-- `_init_block`, InitializableArray.hpp:207-209. -/
def Arr.initBlock (s : Arr) (b : Nat) : Option Arr := do
  let s ← s.put (2 * b + 1) s.init
  s.put (2 * b) s.init

/-- `_extend`, InitializableArray.hpp:211-224. -/
def Arr.extend (w n : Nat) (s : Arr) : Option (Arr × Nat) := do
  let c ← s.chainedTo n s.b
  let s := { s with b := s.b + 1 }
  let (s, k) ← match c with
    | none => pure (s, s.b - 1)
    | some k => do
      let x ← s.a[2 * k + 1]?
      let s ← s.put (2 * (s.b - 1)) x
      let s ← s.breakChain w n (s.b - 1)
      pure (s, k)
  let s ← s.initBlock k
  let s ← s.breakChain w n k
  pure (s, k)

/-- `get`, InitializableArray.hpp:93-105. -/
def Arr.get (n : Nat) (s : Arr) (i : Nat) : Option Nat := do
  let c ← s.chainedTo n (i / 2)
  if i < 2 * s.b then
    match c with
    | some _ => pure s.init
    | none => s.a[i]?
  else
    match c with
    | some _ =>
      if i % 2 = 0 then do
        let x ← s.a[i]?
        s.a[x + 1]?
      else s.a[i]?
    | none => pure s.init

/-- `write_uca`, InitializableArray.hpp:110-113. -/
def Arr.writeUca (w n : Nat) (s : Arr) (i v : Nat) : Option Arr := do
  let s ← s.put i v
  s.breakChain w n (i / 2)

/-- `write_wca`, InitializableArray.hpp:130-135. -/
def Arr.writeWca (s : Arr) (i k v : Nat) : Option Arr :=
  if i % 2 = 0 then s.put (2 * k + 1) v else s.put i v

/-- `set`, InitializableArray.hpp:107-149. -/
def Arr.set (w n : Nat) (s : Arr) (i v : Nat) : Option Arr := do
  let b := i / 2
  let c ← s.chainedTo n b
  if b < s.b then
    match c with
    | none => s.writeUca w n i v
    | some k => do
      let (s, j) ← s.extend w n
      if b = j then s.writeUca w n i v
      else do
        let x ← s.a[2 * b]?
        let s ← s.put (2 * j) x
        let y ← s.a[2 * b + 1]?
        let s ← s.put (2 * j + 1) y
        let s ← s.makeChain w j k
        let s ← s.initBlock b
        s.writeUca w n i v
  else
    match c with
    | some k => s.writeWca i k v
    | none => do
      let (s, k) ← s.extend w n
      if b = k then s.writeUca w n i v
      else do
        let s ← s.initBlock b
        let s ← s.makeChain w k b
        s.writeWca i k v

/-- `init` and `fill`, InitializableArray.hpp:151-158. -/
def Arr.fill (s : Arr) (v : Nat) : Arr := { s with b := 0, init := v }

/-- The constructor, InitializableArray.hpp:91: the cells are not initialised, `garbage` is what they hold. -/
def new (garbage : List Nat) (v : Nat) : Arr := ⟨v, 0, garbage⟩

end Verif.IArr
