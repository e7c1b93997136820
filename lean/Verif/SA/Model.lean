/-
Model of /repo/include/sim_ds/string_util/SuffixArray.hpp.

`vector<size_t>` is a list of natural numbers with the literal value of `kInf`. `none` is undefined behaviour (access outside of an array) or
`abort()`. The counters of type `int` (`count` in `MakeBuckets_`, `lastLmsId`, `i` in `InducedSort_` and `Induce_`) are natural numbers: texts of
2^31 - 1 bytes or more are out of scope, except in `BuildLCP_`, whose `int prevLCP` is modelled with truncation. The default construction of the
members `s_arr_` and `lcp_arr_` (width 64, see C25_default_ub) before they are assigned is not modelled. `char` is signed.
-/
import Verif.Common
import Verif.Fit.Model
import Verif.Serial.Model
import Verif.Calc.Model

namespace Verif.SA
open Verif.Serial

/-- `kInf`, SuffixArray.hpp:25. -/
def kInf : Nat := 2 ^ 64 - 1

/-- `Bucket`, SuffixArray.hpp:79-83. -/
structure Bucket where
  index : Nat
  count : Nat
  lPos : Nat
  sPos : Nat
deriving DecidableEq

/-- `x - 1` on `size_t`. -/
def dec64 (x : Nat) : Nat := (x + (2 ^ 64 - 1)) % 2 ^ 64

/-- `full`, SuffixArray.hpp:98-100. -/
def Bucket.full (b : Bucket) : Bool := b.count == 0 || decide (b.sPos < b.lPos)

/-- `SaisStr_`, SuffixArray.hpp:140-145: `size_t(str[i])` of a negative `char` is a huge number. -/
def saisStr (str : List Byte) : List Nat := str.map (fun b => if b.toNat < 128 then b.toNat else 2 ^ 64 - 256 + b.toNat) ++ [0]

/-- The counts, SuffixArray.hpp:150-152. -/
def countBuckets : List Nat → List Nat → Option (List Nat)
  | [], cs => some cs
  | s :: str, cs => do
    let c ← cs[s]?
    let cs ← wr cs s (c + 1)
    countBuckets str cs

/-- The positions, SuffixArray.hpp:153-159. -/
def placeBuckets : List Nat → Nat → List Bucket
  | [], _ => []
  | c :: cs, count => ⟨count, c, count, dec64 (count + c)⟩ :: placeBuckets cs (count + c)

/-- `MakeBuckets_`, SuffixArray.hpp:148-160. -/
def makeBuckets (str : List Nat) (mx : Nat) : Option (List Bucket) := do
  let cs ← countBuckets str (List.replicate (mx + 1) 0)
  pure (placeBuckets cs 0)

/-- The loop of `Classified_` from the right, SuffixArray.hpp:165-167. -/
def classify : List Nat → List Bool
  | [] => []
  | [_] => [true]
  | a :: b :: l => (if a = b then (classify (b :: l)).headD true else decide (a < b)) :: classify (b :: l)

/-- `Classified_`, SuffixArray.hpp:162-169: the write at `size() - 1` is out of range for an empty string. -/
def classified (str : List Nat) : Option (List Bool) := if str = [] then none else some (classify str)

/-- The loop of `FindLMSs_`, SuffixArray.hpp:173-176, from `i` with the types from `i - 1` on. -/
def lmsFrom : List Bool → Nat → List Nat
  | t0 :: t1 :: ts, i => if !t0 && t1 then i :: lmsFrom (t1 :: ts) (i + 1) else lmsFrom (t1 :: ts) (i + 1)
  | _, _ => []

/-- `FindLMSs_`, SuffixArray.hpp:171-178. -/
def findLMSs (ty : List Bool) : List Nat := lmsFrom ty 1

/-- The loop of `EqualLMSs_`, SuffixArray.hpp:183-190; `cur` is `curType` before the iteration. -/
def eqLoop (str : List Nat) (ty : List Bool) (li ri : Nat) (cur : Bool) : Option Bool :=
  if h : li < str.length then
    match str[ri]? with
    | none => none
    | some b =>
      if str[li] ≠ b then some false
      else match ty[li]? with
        | none => none
        | some t => if !cur && t then some true else eqLoop str ty (li + 1) (ri + 1) t
  else none
termination_by str.length - li

/-- `EqualLMSs_`, SuffixArray.hpp:180-191. -/
def equalLMSs (str : List Nat) (ty : List Bool) (li ri : Nat) : Option Bool := eqLoop str ty li ri true

/-- `PutBucket_`, SuffixArray.hpp:193-207. -/
def putBucket (bs : List Bucket) (sa : List Nat) (sl : Bool) (c id : Nat) : Option (List Bucket × List Nat × Nat) := do
  let b ← bs[c]?
  if b.full then none
  else if !sl then do
    let sa ← wr sa b.lPos id
    let bs ← wr bs c { b with lPos := b.lPos + 1 }
    pure (bs, sa, b.lPos)
  else do
    let sa ← wr sa b.sPos id
    let bs ← wr bs c { b with sPos := dec64 b.sPos }
    pure (bs, sa, b.sPos)

/-- Step 1 of `Induce_`, SuffixArray.hpp:259-272; the list gives the indices `i` in the order of the loop. -/
def putLms (str lms : List Nat) : List Nat → List Bucket × List Nat × List Nat → Option (List Bucket × List Nat × List Nat)
  | [], st => some st
  | i :: is, (bs, sa, poss) => do
    let id ← lms[i]?
    let c ← str[id]?
    let (bs, sa, pos) ← putBucket bs sa true c id
    let poss ← wr poss i pos
    putLms str lms is (bs, sa, poss)

/-- The body of the loops of step 2 (`want = false`), SuffixArray.hpp:275-279, and step 3-b (`want = true`), SuffixArray.hpp:292-296, for the
element `i` of the array. -/
def scanStep (str : List Nat) (ty : List Bool) (want : Bool) (i : Nat) (st : List Bucket × List Nat) : Option (List Bucket × List Nat) := do
  let id ← st.2[i]?
  if id = kInf ∨ id = 0 then pure st
  else do
    let t ← ty[id - 1]?
    if t ≠ want then pure st
    else do
      let c ← str[id - 1]?
      let (bs, sa, _) ← putBucket st.1 st.2 want c (id - 1)
      pure (bs, sa)

/-- Step 2, SuffixArray.hpp:274-280: `r` elements from `i` on. -/
def scanL (str : List Nat) (ty : List Bool) : (r i : Nat) → List Bucket × List Nat → Option (List Bucket × List Nat)
  | 0, _, st => some st
  | r + 1, i, st => do
    let st ← scanStep str ty false i st
    scanL str ty r (i + 1) st

/-- Step 3-b, SuffixArray.hpp:291-297. -/
def scanS (str : List Nat) (ty : List Bool) : Nat → List Bucket × List Nat → Option (List Bucket × List Nat)
  | 0, st => some st
  | i + 1, st => do
    let st ← scanStep str ty true i st
    scanS str ty i st

/-- Step 3-a, SuffixArray.hpp:282-286. -/
def removeLms : List Nat → List Nat → Option (List Nat)
  | [], sa => some sa
  | pos :: ps, sa => if pos = 0 then removeLms ps sa else do
    let sa ← wr sa pos kInf
    removeLms ps sa

/-- `Induce_`, SuffixArray.hpp:253-299; `order` is `*lmssArr` or `none` for the null pointer. -/
def induce (mx : Nat) (str : List Nat) (ty : List Bool) (lms : List Nat) (order : Option (List Nat)) : Option (List Nat) := do
  let sa := List.replicate str.length kInf
  let bs ← makeBuckets str mx
  let is := match order with
    | none => (List.range lms.length).reverse
    | some o => o.reverse
  let (bs, sa, poss) ← putLms str lms is (bs, sa, List.replicate lms.length 0)
  let (bs, sa) ← scanL str ty sa.length 0 (bs, sa)
  let sa ← removeLms poss sa
  let bs := bs.map (fun b => { b with sPos := dec64 (b.index + b.count) })
  let (_, sa) ← scanS str ty sa.length (bs, sa)
  pure sa

/-- `!slTypes[id - 1] && slTypes[id]`, SuffixArray.hpp:234. -/
def isLms (ty : List Bool) (id : Nat) : Option Bool :=
  match ty[id - 1]? with
  | none => none
  | some true => some false
  | some false => ty[id]?

/-- `!(lastLmsId > 0 && !EqualLMSs_(..))`, SuffixArray.hpp:235. -/
def sameName (str : List Nat) (ty : List Bool) (last id : Nat) : Option Bool :=
  if last > 0 then equalLMSs str ty last id else some true

/-- The naming loop of `InducedSort_`, SuffixArray.hpp:232-241. The state is (`subAsStr`, `charNumber`, `lastLmsId`). -/
def nameLoop (str : List Nat) (ty : List Bool) : List Nat → List Nat × Nat × Nat → Option (List Nat × Nat)
  | [], (sub, ch, _) => some (sub, ch)
  | id :: ids, (sub, ch, last) =>
    if id = 0 then nameLoop str ty ids (sub, ch, last)
    else do
      let t ← isLms ty id
      if t then do
        let e ← sameName str ty last id
        let ch := if e then ch else ch + 1
        let sub ← wr sub id ch
        nameLoop str ty ids (sub, ch, id)
      else nameLoop str ty ids (sub, ch, last)

/-- `InducedSort_`, SuffixArray.hpp:227-251: the induced array, `subStr` and `countShared`. -/
def inducedSort (mx : Nat) (str : List Nat) (ty : List Bool) (lms : List Nat) : Option (List Nat × List Nat × Nat) := do
  let induced ← induce mx str ty lms none
  let (sub, ch) ← nameLoop str ty induced (List.replicate str.length kInf, 0, 0)
  let f := sub.filter (fun c => decide (c ≠ kInf))
  if f.length ≤ lms.length then
    pure (induced, f ++ List.replicate (lms.length - f.length) 0, (lms.length + (2 ^ 65 - 1 - ch)) % 2 ^ 64)
  else none

/-- `Sais_`, SuffixArray.hpp:209-225. The test on the lengths is only there to show termination; it always succeeds (`sais_guard`). -/
def sais (str : List Nat) (mx : Nat) : Option (List Nat) := do
  let ty ← classified str
  let lms := findLMSs ty
  let (sa, sub, shared) ← inducedSort mx str ty lms
  if shared = 0 then pure sa
  else if _h : sub.length < str.length then do
    let subSa ← sais sub ((lms.length + (2 ^ 65 - 1 - shared)) % 2 ^ 64)
    induce mx str ty lms (some subSa)
  else none
termination_by str.length

/-- `BuildSA_`, SuffixArray.hpp:129-137. -/
def buildSA (str : List Byte) : Option Fit.FVec := do
  let sa ← sais (saisStr str) 0xff
  match sa with
  | [] => none
  | _ :: sa => Fit.ofVector sa

/-- The loop of `CompareLCP_`, SuffixArray.hpp:345-349. -/
def compareLoop (str : List Byte) (li ri m : Nat) : Nat :=
  if h : max li ri < str.length then
    if str[li]'(by omega) = str[ri]'(by omega) then compareLoop str (li + 1) (ri + 1) (m + 1) else m
  else m
termination_by str.length - li

/-- `CompareLCP_`, SuffixArray.hpp:341-351. -/
def compareLCP (str : List Byte) (li ri lcp : Nat) : Nat := compareLoop str (li + lcp) (ri + lcp) lcp

/-- `posInArr`, SuffixArray.hpp:303-305: `r` elements from `i` on. -/
def posLoop (sa : Fit.FVec) : (r i : Nat) → List Nat → Option (List Nat)
  | 0, _, ps => some ps
  | r + 1, i, ps => do
    let x ← sa.get i
    let ps ← wr ps x i
    posLoop sa r (i + 1) ps

/-- `prevLCP > 1 ? prevLCP - 1 : 0` for the `int prevLCP` that was assigned the `size_t` value `lcp`, SuffixArray.hpp:307, 310, 312. -/
def startLCP (lcp : Nat) : Nat :=
  let p := (BitVec.ofNat 32 lcp).toInt
  if p > 1 then (p - 1).toNat else 0

/-- `(pos == posInArr.size() - 1) ? 0 : CompareLCP_(..)`, SuffixArray.hpp:310. -/
def lcpVal (str : List Byte) (sa : Fit.FVec) (n i pos prev : Nat) : Option Nat :=
  if pos = n - 1 then some 0 else (sa.get (pos + 1)).map (fun ri => compareLCP str i ri (startLCP prev))

/-- The main loop of `BuildLCP_`, SuffixArray.hpp:308-313. -/
def lcpLoop (str : List Byte) (sa : Fit.FVec) (ps : List Nat) : (r i : Nat) → List Nat → Nat → Option (List Nat)
  | 0, _, la, _ => some la
  | r + 1, i, la, prev => do
    let pos ← ps[i]?
    let lcp ← lcpVal str sa ps.length i pos prev
    let la ← wr la pos lcp
    lcpLoop str sa ps r (i + 1) la lcp

/-- `BuildLCP_`, SuffixArray.hpp:301-339. Of the report that is printed (see Report.lean) only what can go wrong is modelled here: the access to the median and the
size map (whose result does not depend on the sorting). -/
def buildLCP (str : List Byte) (sa : Fit.FVec) : Option Fit.FVec := do
  let ps ← posLoop sa sa.size 0 (List.replicate sa.size 0)
  let la ← lcpLoop str sa ps ps.length 0 (List.replicate sa.size 0) 0
  let v ← Fit.ofVector la
  let _ ← la[la.length / 2]?
  let _ ← Calc.bitLengthFrequencies la
  pure v

/-- The members, SuffixArray.hpp:28-30. -/
structure SufArr where
  str : List Byte
  sa : Fit.FVec
  lcp : Fit.FVec
deriving DecidableEq

/-- The constructor, SuffixArray.hpp:35-38. -/
def build (str : List Byte) : Option SufArr := do
  let sa ← buildSA str
  let lcp ← buildLCP str sa
  pure ⟨str, sa, lcp⟩

/-- `suffix(index, size)`, SuffixArray.hpp:44-46; the exception for `index > size()` is `none`. -/
def SufArr.suffix2 (t : SufArr) (index size : Nat) : Option (List Byte) :=
  if index ≤ t.str.length then some ((t.str.drop index).take size) else none

/-- `Write`, SuffixArray.hpp:66-70. -/
def SufArr.write (t : SufArr) : Stream := writeString t.str ++ t.sa.write ++ t.lcp.write

/-- `Read`, SuffixArray.hpp:60-64. -/
def read (s : Stream) : Option (SufArr × Stream) := do
  let (str, s) ← readString s
  let (sa, s) ← Fit.read s
  let (lcp, s) ← Fit.read s
  pure (⟨str, sa, lcp⟩, s)

end Verif.SA
