/-
Model of /repo/include/sim_ds/string_util/FactorOracle.hpp and of the searches BOM and TurboBOM of PatternMatching.hpp.

`id_type` is `uint32_t`; identifiers are natural numbers and the empty value is `2 ^ 32 - 1`. Growing an array beyond that value is out of
scope. The bit vectors `used_state_` and `used_trans_` are lists of Booleans (see C16). The outcome of the construction is a result, undefined
behaviour (`ub`), or `stop`: the search in `findBase` has taken `fuel` steps, or the identifiers are used up. The theorems hold for every
`fuel`.
-/
import Verif.Common
import Verif.PM.Model

namespace Verif.FO
open Verif.PM (Byte)

/-- Outcomes: a value, undefined behaviour, or out of steps or identifiers. -/
inductive Res (α : Type) where
  | ok (a : α)
  | ub
  | stop
deriving DecidableEq

def Res.bind {α β : Type} : Res α → (α → Res β) → Res β
  | .ok a, f => f a
  | .ub, _ => .ub
  | .stop, _ => .stop

instance : Monad Res where
  pure := .ok
  bind := Res.bind

/-- A computation that may be undefined. -/
def lift {α : Type} : Option α → Res α
  | some a => .ok a
  | none => .ub

/-- `kEmptyValue`, FactorOracle.hpp:21, 224. -/
def kEmpty : Nat := 2 ^ 32 - 1

/-- The members of the builder, FactorOracle.hpp:24-31. -/
structure Builder where
  check : List Byte
  base : List Nat
  next : List Nat
  front : Nat
  usedState : List Bool
  usedTrans : List Bool
  prev : List Nat

/-- `check(index)`, FactorOracle.hpp:209 and 241. -/
def checkAt (check : List Byte) (index : Nat) : Option Nat :=
  if index = 0 then some 0 else (check[index - 1]?).map BitVec.toNat

/-- `_resize`, FactorOracle.hpp:69-74, to a larger size. -/
def Builder.resize (s : Builder) (n : Nat) : Builder :=
  { s with next := vresize s.next n 0, usedState := vresize s.usedState n false, usedTrans := vresize s.usedTrans n false,
           prev := vresize s.prev n 0 }

/-- The loop that links the new elements, FactorOracle.hpp:91-94: `n` elements from `i` on. -/
def linkLoop : (n i : Nat) → List Nat → List Nat → Option (List Nat × List Nat)
  | 0, _, next, prev => some (next, prev)
  | n + 1, i, next, prev => do
    let next ← wr next i (i + 1)
    let prev ← wr prev i (i - 1)
    linkLoop n (i + 1) next prev

/-- The splice into the list of free elements, FactorOracle.hpp:81-89: the arrays and the new front. -/
def splice (begin' end' front : Nat) (used0 : Bool) (next prev : List Nat) : Option (List Nat × List Nat × Nat) :=
  if front ≠ 0 ∨ ¬ used0 then do
    let oldBack ← prev[front]?
    let prev ← wr prev begin' oldBack
    let next ← wr next oldBack begin'
    let prev ← wr prev front (end' - 1)
    pure (next, prev, front)
  else do
    let prev ← wr prev begin' (end' - 1)
    pure (next, prev, begin')

/-- `_expand_block`, FactorOracle.hpp:77-97, without the test for the range of the identifiers. -/
def Builder.expandRaw (s : Builder) : Option Builder :=
  let begin' := s.next.length
  let end' := begin' + 256
  let s := s.resize end'
  do
  let u0 ← s.usedTrans[0]?
  let (next, prev, front) ← splice begin' end' s.front u0 s.next s.prev
  let next ← wr next begin' (begin' + 1)
  let (next, prev) ← linkLoop 254 (begin' + 1) next prev
  let next ← wr next (end' - 1) front
  let prev ← wr prev (end' - 1) (end' - 2)
  pure { s with next := next, prev := prev, front := front }

/-- `_expand_block`, FactorOracle.hpp:76-97. -/
def Builder.expand (s : Builder) : Res Builder :=
  if s.next.length + 256 > kEmpty then .stop else lift s.expandRaw

/-- `while (next_.size() < kNumStates - 1) _expand_block()`, FactorOracle.hpp:42-45: `n` rounds at most. -/
def expandLoop (m : Nat) : (n : Nat) → Builder → Res Builder
  | 0, s => .ok s
  | n + 1, s => if s.next.length < m then do
      let s ← s.expand
      expandLoop m n s
    else .ok s

/-- The inner loop of `_find_base`, FactorOracle.hpp:104-110: whether no element is taken. -/
def allFree (s : Builder) (b : Nat) : List Nat → Option Bool
  | [] => some true
  | t :: ts => do
    let c ← checkAt s.check t
    let u ← s.usedTrans[b ^^^ c]?
    if u then pure false else allFree s b ts

/-- The test of one candidate in `_find_base`, FactorOracle.hpp:102-113: the base if it will do. -/
def tryBase (s : Builder) (transes : List Nat) (index : Nat) : Option (Option Nat) := do
  let t0 ← transes[0]?
  let c0 ← checkAt s.check t0
  let us ← s.usedState[index ^^^ c0]?
  if us then pure none
  else do
    let free ← allFree s (index ^^^ c0) transes
    pure (if free then some (index ^^^ c0) else none)

/-- The loop of `_find_base`, FactorOracle.hpp:99-119. -/
def findBase : (fuel : Nat) → Builder → List Nat → (index : Nat) → Res (Builder × Nat)
  | 0, _, _, _ => .stop
  | fuel + 1, s, transes, index => do
    match ← lift (tryBase s transes index) with
    | some b => .ok (s, b)
    | none => do
      let n ← lift s.next[index]?
      let s ← if n = s.front then s.expand else .ok s
      let n ← lift s.next[index]?
      findBase fuel s transes n

/-- `set_next`, FactorOracle.hpp:179-190. -/
def Builder.setNext (s : Builder) (index x : Nat) : Option Builder := do
  let n ← s.next[index]?
  let s ← if n ≠ kEmpty then do
      let front := if s.front = index then (if n = s.front then 0 else n) else s.front
      let p ← s.prev[index]?
      let next ← wr s.next p n
      let n2 ← next[index]?
      let prev ← wr s.prev n2 p
      pure { s with next := next, prev := prev, front := front }
    else pure s
  let ut ← wr s.usedTrans index true
  let next ← wr s.next index x
  pure { s with usedTrans := ut, next := next }

/-- The loop of `get_transes`, FactorOracle.hpp:170-175: `n` labels from `c` on. -/
def getTransesLoop (s : Builder) (b : Nat) : (n c : Nat) → List Nat → Option (List Nat)
  | 0, _, acc => some acc
  | n + 1, c, acc => do
    let t ← s.next[b ^^^ c]?
    let u ← s.usedTrans[b ^^^ c]?
    let ok ← if u ∧ t > 0 then (checkAt s.check t).map (fun d => decide (d = c)) else some false
    getTransesLoop s b n (c + 1) (if ok then acc ++ [t] else acc)

/-- `get_transes`, FactorOracle.hpp:165-177. -/
def Builder.getTranses (s : Builder) (state : Nat) : Option (List Nat) := do
  let b ← s.base[state]?
  if b = kEmpty then pure [] else getTransesLoop s b 255 1 []

/-- The loop that moves the transitions, FactorOracle.hpp:138-145. -/
def moveLoop (oldB newB : Nat) : List Nat → Builder → Option Builder
  | [], s => some s
  | t :: ts, s => do
    let c ← checkAt s.check t
    let next ← wr s.next (oldB ^^^ c) kEmpty
    let ut ← wr s.usedTrans (oldB ^^^ c) false
    let s := { s with next := next, usedTrans := ut }
    let s ← s.setNext (newB ^^^ c) t
    moveLoop oldB newB ts s

/-- The first case of `_insert_trans` after the search, FactorOracle.hpp:125-128. -/
def insertFirst (s : Builder) (b state nextState c : Nat) : Option Builder := do
  let base ← wr s.base state b
  let s := { s with base := base }
  let s ← s.setNext (b ^^^ c) nextState
  let us ← wr s.usedState b true
  pure { s with usedState := us }

/-- The second case of `_insert_trans` after the search, FactorOracle.hpp:133-147. -/
def insertConflict (s : Builder) (transes : List Nat) (newB state nextState c : Nat) : Option Builder := do
  let oldB ← s.base[state]?
  let us ← wr s.usedState oldB false
  let us ← wr us newB true
  let base ← wr s.base state newB
  let s := { s with usedState := us, base := base }
  let s ← moveLoop oldB newB transes s
  s.setNext (newB ^^^ c) nextState

/-- `_insert_trans`, FactorOracle.hpp:121-152. The search `_find_base` is a parameter here and below; `build` takes `findBase fuel`. -/
def insertTrans (fb : Builder → List Nat → Nat → Res (Builder × Nat)) (s : Builder) (state nextState : Nat) : Res Builder := do
  let c ← lift (checkAt s.check nextState)
  let b ← lift s.base[state]?
  if b = kEmpty then do
    let (s, b) ← fb s [nextState] s.front
    lift (insertFirst s b state nextState c)
  else do
    let u ← lift s.usedTrans[b ^^^ c]?
    if u then do
      let transes ← lift (s.getTranses state)
      let (s, newB) ← fb s (transes ++ [nextState]) s.front
      lift (insertConflict s transes newB state nextState c)
    else lift (s.setNext (b ^^^ c) nextState)

/-- `transition`, FactorOracle.hpp:192-207. -/
def Builder.transition (s : Builder) (state n : Nat) : Option Nat := do
  let a ← checkAt s.check (state + 1)
  let c ← checkAt s.check n
  if a = c then pure (state + 1)
  else do
    let b ← s.base[state]?
    if b = kEmpty then pure 0
    else do
      let u ← s.usedTrans[b ^^^ c]?
      if !u then pure 0
      else do
        let t ← s.next[b ^^^ c]?
        if t = 0 then pure 0
        else do
          let d ← checkAt s.check t
          if d ≠ c then pure 0 else pure t

/-- The inner loop of the construction, FactorOracle.hpp:54-57; the result includes the last `k`. A chain that does not descend would loop
forever; this does not happen (outcome `ub`). -/
def chainLoop (fb : Builder → List Nat → Nat → Res (Builder × Nat)) (lrs : List Nat) (i : Nat) (s : Builder) (k : Nat) : Res (Builder × Nat) :=
  if _h : k < i + 1 then
    match s.transition k (i + 1) with
    | none => .ub
    | some t =>
      if t = 0 then
        match insertTrans fb s k (i + 1) with
        | .ub => .ub
        | .stop => .stop
        | .ok s =>
          match lrs[k]? with
          | none => .ub
          | some k' =>
            if _h2 : k' < k then chainLoop fb lrs i s k'
            else if k' = i + 1 then .ok (s, k') else .ub
      else .ok (s, k)
  else .ok (s, k)
termination_by k

/-- The loop over the letters, FactorOracle.hpp:51-59: `n` letters from `i` on. -/
def letterLoop (fb : Builder → List Nat → Nat → Res (Builder × Nat)) : (n i : Nat) → List Nat → Builder → Res (Builder × List Nat)
  | 0, _, lrs, s => .ok (s, lrs)
  | n + 1, i, lrs, s => do
    let lrs ← lift (wr lrs 0 (i + 1))
    let k ← lift lrs[i]?
    let (s, k) ← chainLoop fb lrs i s k
    let v ← lift (if k = i + 1 then some 0 else s.transition k (i + 1))
    let lrs ← lift (wr lrs (i + 1) v)
    letterLoop fb n (i + 1) lrs s

/-- The final clearing of the unused elements, FactorOracle.hpp:63-66. -/
def clearNext (s : Builder) : List Nat :=
  (s.next.zip s.usedTrans).map (fun x => if x.2 then x.1 else 0)

/-- The finished oracle, FactorOracle.hpp:227-229. -/
structure Oracle where
  check : List Byte
  base : List Nat
  next : List Nat

/-- The initial state of the builder, FactorOracle.hpp:155 and 161. -/
def initial (text : List Byte) : Builder := ⟨text, List.replicate (text.length + 1) kEmpty, [], 0, [], [], []⟩

/-- The constructor, FactorOracle.hpp:35-67 and 232. For an empty text no block exists and `set_next(0, 0)` is out of range. -/
def buildWith (fb : Builder → List Nat → Nat → Res (Builder × Nat)) (text : List Byte) : Res Oracle := do
  let s ← expandLoop text.length text.length (initial text)
  let s ← lift (s.setNext 0 0)
  let (s, _) ← letterLoop fb text.length 0 (List.replicate (text.length + 1) 0) s
  pure ⟨s.check, s.base, clearNext s⟩

/-- The constructor with at most `fuel` steps in each search. -/
def build (fuel : Nat) (text : List Byte) : Res Oracle := buildWith (findBase fuel) text

/-- `image`, FactorOracle.hpp:283-298: the new state, or `none` inside for `false`. In the last state `check_` is read one past its end;
`past` is the byte found there (strictly, this is undefined: `past = none`). -/
def Oracle.image (o : Oracle) (past : Option Byte) (state : Nat) (c : Byte) : Option (Option Nat) := do
  let a ← if state = o.check.length then past.map BitVec.toNat else checkAt o.check (state + 1)
  if a = c.toNat then pure (some (state + 1))
  else do
    let b ← o.base[state]?
    if b = kEmpty then pure none
    else do
      let t ← o.next[b ^^^ c.toNat]?
      if t ≤ state then pure none
      else do
        let d ← checkAt o.check t
        if d ≠ c.toNat then pure none else pure (some t)

/-- `accept`, FactorOracle.hpp:300-312, from a state. -/
def Oracle.acceptFrom (o : Oracle) (past : Option Byte) : (state : Nat) → List Byte → Option Bool
  | _, [] => some true
  | state, c :: w => do
    match ← o.image past state c with
    | some t => acceptFrom o past t w
    | none => pure false

def Oracle.accept (o : Oracle) (past : Option Byte) (w : List Byte) : Option Bool := o.acceptFrom past 0 w

/-! ### BOM -/

/-- The inner loop of `Bom::find_all`, PatternMatching.hpp:170-173: `n` characters may still be read, `p` is `pos + 1`. -/
def bomBack (o : Oracle) (past : Option Byte) (text : List Byte) : (n state p : Nat) → Option Nat
  | 0, _, p => some p
  | n + 1, state, p => do
    let c ← text[p - 1]?
    match ← o.image past state c with
    | some t => bomBack o past text n t (p - 1)
    | none => pure p

/-- The outer loop of `Bom::find_all`, PatternMatching.hpp:168-180; `i` is the last position of the window, `m` its size. -/
def bomLoop (o : Oracle) (past : Option Byte) (text : List Byte) (m : Nat) (i : Nat) (acc : List Nat) : Option (List Nat) :=
  if _h : i < text.length then
    match bomBack o past text m 0 (i + 1) with
    | none => none
    | some p =>
      if p + m = i + 1 then bomLoop o past text m (i + 1) (acc ++ [i + 1 - m])
      else if _h2 : i < p - 1 + m then bomLoop o past text m (p - 1 + m) acc else none
  else some acc
termination_by text.length - i

/-- `PatternMatchBOM`, PatternMatching.hpp:157, 163-182, 405-407. -/
def bom (fuel : Nat) (text key : List Byte) (past : Option Byte) : Res (List Nat) := do
  let o ← build fuel key.reverse
  lift (bomLoop o past text key.length (key.length - 1) [])

/-! ### TurboBOM -/

/-- `TurboBom::kmp_search`, PatternMatching.hpp:201-208. -/
def kmpSearch (key : List Byte) (past : Option Byte) (next : List Int) : List Byte → Int → Option Int
  | [], pos => some pos
  | c :: text, pos => do
    let p ← PM.kmpBack key past next c pos
    kmpSearch key past next text (p + 1)

/-- The measure of the loop below goes down (no counterpart in the code). -/
theorem lex_lt {a a' n c c' : Nat} (h : (n - a' < n - a) ∨ (a' = a ∧ n + 1 - c' < n + 1 - c)) :
    (n - a') * (n + 2) + (n + 1 - c') < (n - a) * (n + 2) + (n + 1 - c) := by
  rcases h with h | ⟨rfl, h⟩
  · have h1 : (n - a' + 1) * (n + 2) ≤ (n - a) * (n + 2) := Nat.mul_le_mul_right _ h
    rw [Nat.add_mul] at h1
    omega
  · omega

/-- The loop of `TurboBom::find_all`, PatternMatching.hpp:220-238; `w` is the size of the part searched by KMP, half the size of the key
(`kAlpha * kWindowSize`, exact for sizes below 2^24). `past1` and `past2` are the bytes after the end of the label array and of the key. A round
that does not advance would loop forever, and `substr` throws beyond the end of the text, line 234 (outcome `none`). -/
def turboLoop (o : Oracle) (past1 past2 : Option Byte) (next : List Int) (key text : List Byte) (w : Nat) (back crit : Nat) (acc : List Nat) :
    Option (List Nat) :=
  if _h : back < text.length then
    match bomBack o past1 text key.length 0 (back + 1) with
    | none => none
    | some pos =>
      if pos + key.length = back + 1 then
        match next[key.length]? with
        | none => none
        | some n =>
          if _h2 : n < key.length then turboLoop o past1 past2 next key text w (back + (key.length - n).toNat) (back + 1) (acc ++ [back + 1 - key.length])
          else none
      else if max pos crit > text.length then none
      else
        let pre : Int := if pos > crit then 0 else crit + key.length - (back + 1)
        let kb := max pos crit
        match kmpSearch key past2 next ((text.drop kb).take w) pre with
        | none => none
        | some n =>
          if _h2 : (back : Int) < kb + w - n + key.length - 1 ∨ ((back : Int) = kb + w - n + key.length - 1 ∧ crit < kb + w ∧ crit ≤ text.length) then
            turboLoop o past1 past2 next key text w (kb + w - n + key.length - 1 : Int).toNat (kb + w) acc
          else none
  else some acc
termination_by (text.length - back) * (text.length + 2) + (text.length + 1 - crit)
decreasing_by
  · exact lex_lt (Or.inl (by omega))
  · exact lex_lt (by omega)

/-- `PatternMatchTurboBOM`, PatternMatching.hpp:196, 212-240, 409-411. -/
def turboBom (fuel : Nat) (text key : List Byte) (past1 past2 : Option Byte) : Res (List Nat) := do
  let o ← build fuel key.reverse
  let next ← lift (PM.kmpBuild key)
  lift (turboLoop o past1 past2 next key text (key.length / 2) (key.length - 1) 0 [])

end Verif.FO
