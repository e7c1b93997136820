/-
Model of /repo/include/sim_ds/string_util/PatternMatching.hpp, except for BOM and TurboBOM, which need the factor oracle.

A string view is the list of its bytes. `char` is signed: a byte from 0x80 on used as an index is a huge number (out of range), and
never equals a `uint8_t`. `difference_type` values are integers, `size_t` values natural numbers.
-/
import Verif.Common

namespace Verif.PM

abbrev Byte := BitVec 8

/-! ### Simple -/

/-- The inner loop of `Simple::find_all`, PatternMatching.hpp:57-59. -/
def simpleScan (key text : List Byte) (i pos : Nat) : Option Nat :=
  if _h : pos < key.length then
    match key[pos]?, text[i + pos]? with
    | some a, some b => if a = b then simpleScan key text i (pos + 1) else some pos
    | _, _ => none
  else some pos
termination_by key.length - pos

/-- The outer loop of `Simple::find_all`, PatternMatching.hpp:56-62. -/
def simpleLoop (key text : List Byte) (i : Nat) (acc : List Nat) : Option (List Nat) :=
  if _h : i ≤ text.length - key.length then
    match simpleScan key text i 0 with
    | some pos => simpleLoop key text (i + 1) (if pos = key.length then acc ++ [i] else acc)
    | none => none
  else some acc
termination_by text.length - key.length + 1 - i

/-- `PatternMatchSimple`, PatternMatching.hpp:50-64, 393-395. -/
def simple (text key : List Byte) : Option (List Nat) :=
  if text.length < key.length then some [] else simpleLoop key text 0 []

/-! ### KMP -/

/-- `key_[pos]`; `past` is the byte in memory after the key, which the code reads after a match (strictly, this is undefined:
`past = none`). -/
def keyAt (key : List Byte) (past : Option Byte) (pos : Nat) : Option Byte :=
  if pos < key.length then key[pos]? else if pos = key.length then past else none

/-- The loops that follow `next_` while the character differs, PatternMatching.hpp:78-79, 99-100 and 203-204 (in the first, the `size_t`
with value -1 plays the part of -1). A value of `next_` that does not decrease would loop forever. -/
def kmpBack (key : List Byte) (past : Option Byte) (next : List Int) (c : Byte) (pos : Int) : Option Int :=
  if _h : pos > -1 then
    match keyAt key past pos.toNat with
    | none => none
    | some k =>
      if k ≠ c then
        match next[pos.toNat]? with
        | some p => if _h2 : p < pos ∧ -1 ≤ p then kmpBack key past next c p else none
        | none => none
      else some pos
  else some pos
termination_by (pos + 1).toNat

/-- The value stored in `next_[i + 1]`, PatternMatching.hpp:81-84. -/
def kmpValue (key : List Byte) (i : Nat) (n : Int) (next : List Int) : Option Int :=
  if i + 1 < key.length then do
    let a ← key[i + 1]?
    let b ← key[n.toNat]?
    if a = b then next[n.toNat]? else pure n
  else pure n

/-- The loop of the constructor of `Kmp`, PatternMatching.hpp:77-85. -/
def kmpBuildLoop (key : List Byte) (i : Nat) (n : Int) (next : List Int) : Option (List Int) :=
  if _h : i < key.length then do
    let c ← key[i]?
    let n ← kmpBack key none next c n
    let n := n + 1
    let v ← kmpValue key i n next
    let next ← wr next (i + 1) v
    kmpBuildLoop key (i + 1) n next
  else some next
termination_by key.length - i

/-- The constructor of `Kmp`, PatternMatching.hpp:74-86. -/
def kmpBuild (key : List Byte) : Option (List Int) := do
  let next ← wr (List.replicate (key.length + 1) 0) 0 (-1)
  kmpBuildLoop key 0 (-1) next

/-- The loop of `Kmp::find_all`, PatternMatching.hpp:98-105. -/
def kmpLoop (key : List Byte) (past : Option Byte) (next : List Int) (text : List Byte) (i : Nat) (pos : Int) (acc : List Nat) :
    Option (List Nat) :=
  if _h : i < text.length then do
    let c ← text[i]?
    let pos ← kmpBack key past next c pos
    let pos := pos + 1
    kmpLoop key past next text (i + 1) pos (if pos = key.length then acc ++ [i + 1 - key.length] else acc)
  else some acc
termination_by text.length - i

/-- `PatternMatchKMP`, PatternMatching.hpp:94-107, 397-399. -/
def kmp (text key : List Byte) (past : Option Byte) : Option (List Nat) := do
  let next ← kmpBuild key
  kmpLoop key past next text 0 0 []

/-! ### BM -/

/-- A `char` used as an index. -/
def charIndex (c : Byte) : Option Nat := if c.toNat < 128 then some c.toNat else none

/-- The loop of the constructor of `Bm`, PatternMatching.hpp:118-120. -/
def bmBuildLoop (key : List Byte) (i : Nat) (skip : List Nat) : Option (List Nat) :=
  if _h : i < key.length - 1 then do
    let c ← key[i]?
    let x ← charIndex c
    let skip ← wr skip x (key.length - i - 1)
    bmBuildLoop key (i + 1) skip
  else some skip
termination_by key.length - i

/-- The constructor of `Bm`, PatternMatching.hpp:117-121. For an empty key `key.size() - 1` wraps around and the loop reads past the key. -/
def bmBuild (key : List Byte) : Option (List Nat) :=
  if key = [] then none else bmBuildLoop key 0 (List.replicate 255 key.length)

/-- The inner loop of `Bm::find_all`, PatternMatching.hpp:136-140; `r` is `k + 1` and `p` is `pos + 1`. -/
def bmBack (key text : List Byte) : (r p : Nat) → Option (Nat × Nat)
  | 0, p => some (0, p)
  | r + 1, p =>
    match key[r]?, text[p - 1]? with
    | some a, some b => if a = b then bmBack key text r (p - 1) else some (r + 1, p)
    | _, _ => none

/-- The outer loop of `Bm::find_all`, PatternMatching.hpp:135-145. A shift of 0 would loop forever. -/
def bmLoop (key text : List Byte) (skip : List Nat) (i : Nat) (acc : List Nat) : Option (List Nat) :=
  if _h : i < text.length then
    match bmBack key text key.length (i + 1) with
    | none => none
    | some (r, p) =>
      match (text[i]?).bind charIndex with
      | none => none
      | some x =>
        match skip[x]? with
        | none => none
        | some d => if _h2 : 0 < d then bmLoop key text skip (i + d) (if r = 0 then acc ++ [p] else acc) else none
  else some acc
termination_by text.length - i

/-- `PatternMatchBM`, PatternMatching.hpp:129-147, 401-403. -/
def bm (text key : List Byte) : Option (List Nat) := do
  let skip ← bmBuild key
  bmLoop key text skip (key.length - 1) []

/-! ### Sunday -/

/-- The search for an earlier equal character, PatternMatching.hpp:255-259: `j` characters are still to be looked at. -/
def minShiftLoop (key : List Byte) (i : Nat) : (j : Nat) → Option Nat
  | 0 => some (i + 1)
  | j + 1 =>
    match key[j]?, key[i]? with
    | some a, some b => if a = b then some (i - j) else minShiftLoop key i j
    | _, _ => none

/-- `min_shift`, PatternMatching.hpp:253-260. -/
def minShift (key : List Byte) : Option (List Nat) := (List.range key.length).mapM (fun i => minShiftLoop key i i)

/-- `maxshift_comp`, PatternMatching.hpp:261-264. -/
def maxshiftComp (ms : List Nat) (l r : Nat × Byte) : Bool :=
  let lms := ms.getD l.1 0
  let rms := ms.getD r.1 0
  if lms ≠ rms then lms < rms else l.1 < r.1

/-- One step of an insertion sort. -/
def insertBy {β : Type} (lt : β → β → Bool) (x : β) : List β → List β
  | [] => [x]
  | y :: ys => if lt y x then y :: insertBy lt x ys else x :: y :: ys

/-- `pattern_`, PatternMatching.hpp:265-267. `std::sort` is modelled by an insertion sort with the order given by the comparison; the
comparison is a total order on the entries, so the outcome is the same. -/
def pattern (key : List Byte) : Option (List (Nat × Byte)) := do
  let ms ← minShift key
  let ps ← (List.range key.length).mapM (fun i => do
    let c ← key[i]?
    pure (i, c))
  pure (ps.foldr (insertBy (maxshiftComp ms)) [])

/-- `uint8_t` compared with `char`. -/
def eqU8Char (a b : Byte) : Bool := decide (a = b) && decide (b.toNat < 128)

/-- The loop of the constructor of `SundayQS`, PatternMatching.hpp:287-288. -/
def qsBuildLoop (key : List Byte) (i : Nat) (td1 : List Nat) : Option (List Nat) :=
  if _h : i < key.length then do
    let c ← key[i]?
    let x ← charIndex c
    let td1 ← wr td1 x (key.length - i)
    qsBuildLoop key (i + 1) td1
  else some td1
termination_by key.length - i

/-- `td1_`, PatternMatching.hpp:284-289. -/
def qsBuild (key : List Byte) : Option (List Nat) := qsBuildLoop key 0 (List.replicate 255 (key.length + 1))

/-- The inner loop, PatternMatching.hpp:304-308 and 376-380. -/
def sundayScan (n : Nat) (pat : List (Nat × Byte)) (text : List Byte) (i pos : Nat) : Option Nat :=
  if _h : pos < n then
    match pat[pos]? with
    | none => none
    | some q =>
      match text[i + q.1]? with
      | none => none
      | some c => if eqU8Char q.2 c then sundayScan n pat text i (pos + 1) else some pos
  else some pos
termination_by n - pos

/-- `text.size() - kKeySize`, PatternMatching.hpp:303 and 375, with `size_t` arithmetic. -/
def sundayBound (key text : List Byte) : Nat :=
  if key.length ≤ text.length then text.length - key.length else text.length + 2 ^ 64 - key.length

/-- The outer loop of `SundayQS::find_all` and `SundayMS::find_all`, PatternMatching.hpp:303-314 and 375-386: `td2` is `none` in
the first. A shift of 0 would loop forever. -/
def sundayLoop (key : List Byte) (pat : List (Nat × Byte)) (td1 : List Nat) (td2 : Option (List Nat)) (text : List Byte) (i : Nat)
    (acc : List Nat) : Option (List Nat) :=
  if _h : i ≤ sundayBound key text then
    match sundayScan key.length pat text i 0 with
    | none => none
    | some pos =>
      if i + key.length = text.length then some (if pos = key.length then acc ++ [i] else acc)
      else
        match text[i + key.length]? with
        | none => none
        | some c =>
          match td1[c.toNat]?, (match td2 with | none => some 0 | some t => t[pos]?) with
          | some d1, some d2 =>
            if _h2 : 0 < max d1 d2 then
              sundayLoop key pat td1 td2 text (i + max d1 d2) (if pos = key.length then acc ++ [i] else acc)
            else none
          | _, _ => none
  else some acc
termination_by sundayBound key text + 1 - i

/-- `PatternMatchSundayQS`, PatternMatching.hpp:297-316, 413-415. For an empty key `ordered_pattern(0)` refers to no element. -/
def qs (text key : List Byte) : Option (List Nat) := do
  let pat ← pattern key
  let td1 ← qsBuild key
  if key = [] then none else sundayLoop key pat td1 none text 0 []

/-- The inner loop of `match_shift`, PatternMatching.hpp:329-337: `ppos` entries are still to be looked at; the result says whether all
matched. -/
def msCompat (key : List Byte) (pat : List (Nat × Byte)) (s : Nat) : (ppos : Nat) → Option Bool
  | 0 => some true
  | ppos + 1 =>
    match pat[ppos]? with
    | none => none
    | some q =>
      if q.1 < s then msCompat key pat s ppos
      else
        match key[q.1 - s]? with
        | none => none
        | some c => if eqU8Char q.2 c then msCompat key pat s ppos else some false

/-- `match_shift`, PatternMatching.hpp:327-342. -/
def matchShift (key : List Byte) (pat : List (Nat × Byte)) (pos s : Nat) : Option Nat :=
  if _h : s < key.length then
    match msCompat key pat s pos with
    | none => none
    | some true => some s
    | some false => matchShift key pat pos (s + 1)
  else some s
termination_by key.length - s

/-- The first loop of the constructor of `SundayMS`, PatternMatching.hpp:346-348. -/
def msLoop1 (key : List Byte) (pat : List (Nat × Byte)) (pos : Nat) (td2 : List Nat) : Option (List Nat) :=
  if _h : pos < key.length + 1 then do
    let s ← td2[pos - 1]?
    let r ← matchShift key pat pos s
    let td2 ← wr td2 pos r
    msLoop1 key pat (pos + 1) td2
  else some td2
termination_by key.length + 1 - pos

/-- The inner loop of the second pass, PatternMatching.hpp:351-358. -/
def msRefine (key : List Byte) (pat : List (Nat × Byte)) (pos s : Nat) : Option Nat :=
  if _h : s < key.length then
    match pat[pos]? with
    | none => none
    | some q =>
      if q.1 < s then some s
      else
        match key[q.1 - s]? with
        | none => none
        | some c =>
          if !eqU8Char q.2 c then some s
          else
            match matchShift key pat pos (s + 1) with
            | none => none
            | some s' => if _h2 : s < s' then msRefine key pat pos s' else none
  else some s
termination_by key.length - s

/-- The second loop of the constructor of `SundayMS`, PatternMatching.hpp:349-360. -/
def msLoop2 (key : List Byte) (pat : List (Nat × Byte)) (pos : Nat) (td2 : List Nat) : Option (List Nat) :=
  if _h : pos < pat.length then do
    let s ← td2[pos]?
    let r ← msRefine key pat pos s
    let td2 ← wr td2 pos r
    msLoop2 key pat (pos + 1) td2
  else some td2
termination_by pat.length - pos

/-- `td2_`, PatternMatching.hpp:344-360. -/
def msBuild (key : List Byte) (pat : List (Nat × Byte)) : Option (List Nat) := do
  let td2 ← wr (List.replicate (key.length + 1) 0) 0 1
  let td2 ← msLoop1 key pat 1 td2
  msLoop2 key pat 0 td2

/-- `PatternMatchSundayMS`, PatternMatching.hpp:369-388, 417-419. -/
def ms (text key : List Byte) : Option (List Nat) := do
  let pat ← pattern key
  let td1 ← qsBuild key
  let td2 ← msBuild key pat
  if key = [] then none else sundayLoop key pat td1 (some td2) text 0 []

end Verif.PM
