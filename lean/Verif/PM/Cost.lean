/-
The KMP search of PatternMatching.hpp with a count of the comparisons of characters. The functions are those of Verif/PM/Model.lean; the added component
counts the evaluations of `key[i] != key[n]`, `key[i + 1] == key[n]` and `key_[pos] != text[i]`.
-/
import Verif.PM.Model

namespace Verif.PM

/-- `kmpBack` with the number of comparisons, PatternMatching.hpp:78-79, 99-100. -/
def kmpBackC (key : List Byte) (past : Option Byte) (next : List Int) (c : Byte) (pos : Int) (cnt : Nat) : Option (Int × Nat) :=
  if _h : pos > -1 then
    match keyAt key past pos.toNat with
    | none => none
    | some k =>
      if k ≠ c then
        match next[pos.toNat]? with
        | some p => if _h2 : p < pos ∧ -1 ≤ p then kmpBackC key past next c p (cnt + 1) else none
        | none => none
      else some (pos, cnt + 1)
  else some (pos, cnt)
termination_by (pos + 1).toNat

/-- `kmpBuildLoop` with the number of comparisons, PatternMatching.hpp:77-85; the comparison in `kmpValue` is made if `i + 1 < key.size()`. -/
def kmpBuildLoopC (key : List Byte) (i : Nat) (n : Int) (next : List Int) (cnt : Nat) : Option (List Int × Nat) :=
  if _h : i < key.length then do
    let c ← key[i]?
    let (n, cnt) ← kmpBackC key none next c n cnt
    let n := n + 1
    let v ← kmpValue key i n next
    let next ← wr next (i + 1) v
    kmpBuildLoopC key (i + 1) n next (if i + 1 < key.length then cnt + 1 else cnt)
  else some (next, cnt)
termination_by key.length - i

/-- `kmpBuild` with the number of comparisons, PatternMatching.hpp:74-86. -/
def kmpBuildC (key : List Byte) : Option (List Int × Nat) := do
  let next ← wr (List.replicate (key.length + 1) 0) 0 (-1)
  kmpBuildLoopC key 0 (-1) next 0

/-- `kmpLoop` with the number of comparisons, PatternMatching.hpp:98-105. -/
def kmpLoopC (key : List Byte) (past : Option Byte) (next : List Int) (text : List Byte) (i : Nat) (pos : Int) (acc : List Nat) (cnt : Nat) :
    Option (List Nat × Nat) :=
  if _h : i < text.length then do
    let c ← text[i]?
    let (pos, cnt) ← kmpBackC key past next c pos cnt
    let pos := pos + 1
    kmpLoopC key past next text (i + 1) pos (if pos = key.length then acc ++ [i + 1 - key.length] else acc) cnt
  else some (acc, cnt)
termination_by text.length - i

end Verif.PM
