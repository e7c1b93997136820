/-
The BOM and Turbo-BOM searches of PatternMatching.hpp with counts. The functions are those of Verif/FO/Model.lean; the added components count the calls of
`oracle_.image` (each reads one character of the text) and the evaluations of `key_[pos] != text[i]`.
-/
import Verif.FO.Model
import Verif.PM.Cost

namespace Verif.FO
open Verif.PM (Byte)

/-- `bomBack` with the number of calls of `image`, PatternMatching.hpp:170-173. -/
def bomBackC (o : Oracle) (past : Option Byte) (text : List Byte) : (n state p cnt : Nat) → Option (Nat × Nat)
  | 0, _, p, cnt => some (p, cnt)
  | n + 1, state, p, cnt =>
    match text[p - 1]? with
    | none => none
    | some c =>
      match o.image past state c with
      | none => none
      | some (some t) => bomBackC o past text n t (p - 1) (cnt + 1)
      | some none => some (p, cnt + 1)

/-- `bomLoop` with the number of calls of `image`, PatternMatching.hpp:168-180. -/
def bomLoopC (o : Oracle) (past : Option Byte) (text : List Byte) (m : Nat) (i : Nat) (acc : List Nat) (cnt : Nat) : Option (List Nat × Nat) :=
  if _h : i < text.length then
    match bomBackC o past text m 0 (i + 1) cnt with
    | none => none
    | some (p, cnt) =>
      if p + m = i + 1 then bomLoopC o past text m (i + 1) (acc ++ [i + 1 - m]) cnt
      else if _h2 : i < p - 1 + m then bomLoopC o past text m (p - 1 + m) acc cnt else none
  else some (acc, cnt)
termination_by text.length - i

/-- `PatternMatchBOM` with the number of calls of `image` by the search, PatternMatching.hpp:157, 163-182. -/
def bomC (fuel : Nat) (text key : List Byte) (past : Option Byte) : Res (List Nat × Nat) := do
  let o ← build fuel key.reverse
  lift (bomLoopC o past text key.length (key.length - 1) [] 0)

/-- `kmpSearch` with the number of comparisons, PatternMatching.hpp:201-208. -/
def kmpSearchC (key : List Byte) (past : Option Byte) (next : List Int) : List Byte → Int → Nat → Option (Int × Nat)
  | [], pos, cnt => some (pos, cnt)
  | c :: text, pos, cnt =>
    match PM.kmpBackC key past next c pos cnt with
    | none => none
    | some (p, cnt) => kmpSearchC key past next text (p + 1) cnt

/-- `turboLoop` with the number of calls of `image` (`a`) and of comparisons (`b`), PatternMatching.hpp:220-238. -/
def turboLoopC (o : Oracle) (past1 past2 : Option Byte) (next : List Int) (key text : List Byte) (w : Nat) (back crit : Nat) (acc : List Nat)
    (a b : Nat) : Option (List Nat × Nat × Nat) :=
  if _h : back < text.length then
    match bomBackC o past1 text key.length 0 (back + 1) a with
    | none => none
    | some (pos, a) =>
      if pos + key.length = back + 1 then
        match next[key.length]? with
        | none => none
        | some n =>
          if _h2 : n < key.length then
            turboLoopC o past1 past2 next key text w (back + (key.length - n).toNat) (back + 1) (acc ++ [back + 1 - key.length]) a b
          else none
      else if max pos crit > text.length then none
      else
        match kmpSearchC key past2 next ((text.drop (max pos crit)).take w) (if pos > crit then 0 else crit + key.length - (back + 1)) b with
        | none => none
        | some (n, b) =>
          if _h2 : (back : Int) < (max pos crit : Nat) + w - n + key.length - 1 ∨
              ((back : Int) = (max pos crit : Nat) + w - n + key.length - 1 ∧ crit < max pos crit + w ∧ crit ≤ text.length) then
            turboLoopC o past1 past2 next key text w ((max pos crit : Nat) + w - n + key.length - 1 : Int).toNat (max pos crit + w) acc a b
          else none
  else some (acc, a, b)
termination_by (text.length - back) * (text.length + 2) + (text.length + 1 - crit)
decreasing_by
  · exact lex_lt (Or.inl (by omega))
  · exact lex_lt (by omega)

/-- `PatternMatchTurboBOM` with the numbers of calls of `image` and of comparisons of the search, PatternMatching.hpp:196, 212-240. -/
def turboBomC (fuel : Nat) (text key : List Byte) (past1 past2 : Option Byte) : Res (List Nat × Nat × Nat) := do
  let o ← build fuel key.reverse
  let next ← lift (PM.kmpBuild key)
  lift (turboLoopC o past1 past2 next key text (key.length / 2) (key.length - 1) 0 [] 0 0)

end Verif.FO
