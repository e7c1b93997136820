/-
The searches Simple, BM, SundayQS and SundayMS of PatternMatching.hpp with a count of the comparisons of characters of the text with characters of the
key. The functions are those of Verif/PM/Model.lean with the count added.
-/
import Verif.PM.Model

namespace Verif.PM

/-- `simpleScan` with the number of comparisons, PatternMatching.hpp:57-59. -/
def simpleScanC (key text : List Byte) (i pos cnt : Nat) : Option (Nat × Nat) :=
  if _h : pos < key.length then
    match key[pos]?, text[i + pos]? with
    | some a, some b => if a = b then simpleScanC key text i (pos + 1) (cnt + 1) else some (pos, cnt + 1)
    | _, _ => none
  else some (pos, cnt)
termination_by key.length - pos

/-- `simpleLoop` with the number of comparisons, PatternMatching.hpp:56-62. -/
def simpleLoopC (key text : List Byte) (i : Nat) (acc : List Nat) (cnt : Nat) : Option (List Nat × Nat) :=
  if _h : i ≤ text.length - key.length then
    match simpleScanC key text i 0 cnt with
    | some (pos, cnt) => simpleLoopC key text (i + 1) (if pos = key.length then acc ++ [i] else acc) cnt
    | none => none
  else some (acc, cnt)
termination_by text.length - key.length + 1 - i

/-- `PatternMatchSimple` with the number of comparisons, PatternMatching.hpp:50-64. -/
def simpleC (text key : List Byte) : Option (List Nat × Nat) :=
  if text.length < key.length then some ([], 0) else simpleLoopC key text 0 [] 0

/-- `bmBack` with the number of comparisons, PatternMatching.hpp:136-140. -/
def bmBackC (key text : List Byte) : (r p cnt : Nat) → Option ((Nat × Nat) × Nat)
  | 0, p, cnt => some ((0, p), cnt)
  | r + 1, p, cnt =>
    match key[r]?, text[p - 1]? with
    | some a, some b => if a = b then bmBackC key text r (p - 1) (cnt + 1) else some ((r + 1, p), cnt + 1)
    | _, _ => none

/-- `bmLoop` with the number of comparisons, PatternMatching.hpp:135-145. -/
def bmLoopC (key text : List Byte) (skip : List Nat) (i : Nat) (acc : List Nat) (cnt : Nat) : Option (List Nat × Nat) :=
  if _h : i < text.length then
    match bmBackC key text key.length (i + 1) cnt with
    | none => none
    | some ((r, p), cnt) =>
      match (text[i]?).bind charIndex with
      | none => none
      | some x =>
        match skip[x]? with
        | none => none
        | some d => if _h2 : 0 < d then bmLoopC key text skip (i + d) (if r = 0 then acc ++ [p] else acc) cnt else none
  else some (acc, cnt)
termination_by text.length - i

/-- `PatternMatchBM` with the number of comparisons, PatternMatching.hpp:129-147. -/
def bmC (text key : List Byte) : Option (List Nat × Nat) := do
  let skip ← bmBuild key
  bmLoopC key text skip (key.length - 1) [] 0

/-- `sundayScan` with the number of comparisons, PatternMatching.hpp:304-308 and 376-380. -/
def sundayScanC (n : Nat) (pat : List (Nat × Byte)) (text : List Byte) (i pos cnt : Nat) : Option (Nat × Nat) :=
  if _h : pos < n then
    match pat[pos]? with
    | none => none
    | some q =>
      match text[i + q.1]? with
      | none => none
      | some c => if eqU8Char q.2 c then sundayScanC n pat text i (pos + 1) (cnt + 1) else some (pos, cnt + 1)
  else some (pos, cnt)
termination_by n - pos

/-- `sundayLoop` with the number of comparisons, PatternMatching.hpp:303-314 and 375-386. -/
def sundayLoopC (key : List Byte) (pat : List (Nat × Byte)) (td1 : List Nat) (td2 : Option (List Nat)) (text : List Byte) (i : Nat)
    (acc : List Nat) (cnt : Nat) : Option (List Nat × Nat) :=
  if _h : i ≤ sundayBound key text then
    match sundayScanC key.length pat text i 0 cnt with
    | none => none
    | some (pos, cnt) =>
      if i + key.length = text.length then some (if pos = key.length then acc ++ [i] else acc, cnt)
      else
        match text[i + key.length]? with
        | none => none
        | some c =>
          match td1[c.toNat]?, (match td2 with | none => some 0 | some t => t[pos]?) with
          | some d1, some d2 =>
            if _h2 : 0 < max d1 d2 then
              sundayLoopC key pat td1 td2 text (i + max d1 d2) (if pos = key.length then acc ++ [i] else acc) cnt
            else none
          | _, _ => none
  else some (acc, cnt)
termination_by sundayBound key text + 1 - i

/-- `PatternMatchSundayQS` with the number of comparisons, PatternMatching.hpp:297-316. -/
def qsC (text key : List Byte) : Option (List Nat × Nat) := do
  let pat ← pattern key
  let td1 ← qsBuild key
  if key = [] then none else sundayLoopC key pat td1 none text 0 [] 0

/-- `PatternMatchSundayMS` with the number of comparisons, PatternMatching.hpp:369-388. -/
def msC (text key : List Byte) : Option (List Nat × Nat) := do
  let pat ← pattern key
  let td1 ← qsBuild key
  let td2 ← msBuild key pat
  if key = [] then none else sundayLoopC key pat td1 (some td2) text 0 [] 0

end Verif.PM
