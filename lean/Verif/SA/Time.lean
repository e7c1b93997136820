/-
`Sais_` of SuffixArray.hpp with a count of the steps: one for every round of a loop and one for every element of a vector that is made or copied. The
functions are those of Verif/SA/Model.lean with `ticks` added; the work outside of loops in a call or a round is a constant number of operations.
-/
import Verif.SA.Model

namespace Verif.SA

/-- A computation that may fault and counts steps (a device of the model, no counterpart in SuffixArray.hpp). -/
abbrev M (β : Type) := StateT Nat Option β

/-- `k` steps. -/
def ticks (k : Nat) : M Unit := fun c => some ((), c + k)

/-- What may fault, without a step. -/
def may {β : Type} (o : Option β) : M β := fun c => o.map fun x => (x, c)

/-- The counts, SuffixArray.hpp:150-152. -/
def countBucketsC : List Nat → List Nat → M (List Nat)
  | [], cs => pure cs
  | s :: str, cs => do
    ticks 1
    let c ← may cs[s]?
    let cs ← may (wr cs s (c + 1))
    countBucketsC str cs

/-- The positions, SuffixArray.hpp:153-159. -/
def placeBucketsC : List Nat → Nat → M (List Bucket)
  | [], _ => pure []
  | c :: cs, count => do
    ticks 1
    let bs ← placeBucketsC cs (count + c)
    pure (⟨count, c, count, dec64 (count + c)⟩ :: bs)

/-- `MakeBuckets_`, SuffixArray.hpp:148-160; `resize` makes `mx + 1` buckets. -/
def makeBucketsC (str : List Nat) (mx : Nat) : M (List Bucket) := do
  ticks (mx + 1)
  let cs ← countBucketsC str (List.replicate (mx + 1) 0)
  placeBucketsC cs 0

/-- The loop of `Classified_` from the right, SuffixArray.hpp:165-167. -/
def classifyC : List Nat → M (List Bool)
  | [] => pure []
  | [_] => pure [true]
  | a :: b :: l => do
    let ts ← classifyC (b :: l)
    ticks 1
    pure ((if a = b then ts.headD true else decide (a < b)) :: ts)

/-- `Classified_`, SuffixArray.hpp:162-169. -/
def classifiedC (str : List Nat) : M (List Bool) := do
  ticks str.length
  if str = [] then may none else classifyC str

/-- The loop of `FindLMSs_`, SuffixArray.hpp:173-176. -/
def lmsFromC : List Bool → Nat → M (List Nat)
  | t0 :: t1 :: ts, i => do
    ticks 1
    let l ← lmsFromC (t1 :: ts) (i + 1)
    pure (if !t0 && t1 then i :: l else l)
  | _, _ => pure []

/-- The loop of `EqualLMSs_`, SuffixArray.hpp:183-190. -/
def eqLoopC (str : List Nat) (ty : List Bool) (li ri : Nat) (cur : Bool) : M Bool :=
  if h : li < str.length then do
    ticks 1
    match str[ri]? with
    | none => may none
    | some b =>
      if str[li] ≠ b then pure false
      else match ty[li]? with
        | none => may none
        | some t => if !cur && t then pure true else eqLoopC str ty (li + 1) (ri + 1) t
  else may none
termination_by str.length - li

/-- Step 1 of `Induce_`, SuffixArray.hpp:259-272. -/
def putLmsC (str lms : List Nat) : List Nat → List Bucket × List Nat × List Nat → M (List Bucket × List Nat × List Nat)
  | [], st => pure st
  | i :: is, (bs, sa, poss) => do
    ticks 1
    let id ← may lms[i]?
    let c ← may str[id]?
    let x ← may (putBucket bs sa true c id)
    let poss ← may (wr poss i x.2.2)
    putLmsC str lms is (x.1, x.2.1, poss)

/-- Step 2, SuffixArray.hpp:274-280. -/
def scanLC (str : List Nat) (ty : List Bool) : (r i : Nat) → List Bucket × List Nat → M (List Bucket × List Nat)
  | 0, _, st => pure st
  | r + 1, i, st => do
    ticks 1
    let st ← may (scanStep str ty false i st)
    scanLC str ty r (i + 1) st

/-- Step 3-b, SuffixArray.hpp:291-297. -/
def scanSC (str : List Nat) (ty : List Bool) : Nat → List Bucket × List Nat → M (List Bucket × List Nat)
  | 0, st => pure st
  | i + 1, st => do
    ticks 1
    let st ← may (scanStep str ty true i st)
    scanSC str ty i st

/-- Step 3-a, SuffixArray.hpp:282-286. -/
def removeLmsC : List Nat → List Nat → M (List Nat)
  | [], sa => pure sa
  | pos :: ps, sa => do
    ticks 1
    if pos = 0 then removeLmsC ps sa else do
      let sa ← may (wr sa pos kInf)
      removeLmsC ps sa

/-- `initSPos` of every bucket, SuffixArray.hpp:287-289. -/
def resetC : List Bucket → M (List Bucket)
  | [] => pure []
  | b :: bs => do
    ticks 1
    let l ← resetC bs
    pure ({ b with sPos := dec64 (b.index + b.count) } :: l)

/-- `Induce_`, SuffixArray.hpp:253-299. -/
def induceC (mx : Nat) (str : List Nat) (ty : List Bool) (lms : List Nat) (order : Option (List Nat)) : M (List Nat) := do
  ticks str.length
  let bs ← makeBucketsC str mx
  ticks lms.length
  let is := match order with
    | none => (List.range lms.length).reverse
    | some o => o.reverse
  let x ← putLmsC str lms is (bs, List.replicate str.length kInf, List.replicate lms.length 0)
  let y ← scanLC str ty x.2.1.length 0 (x.1, x.2.1)
  let sa ← removeLmsC x.2.2 y.2
  let bs ← resetC y.1
  let z ← scanSC str ty sa.length (bs, sa)
  pure z.2

/-- `!(lastLmsId > 0 && !EqualLMSs_(..))`, SuffixArray.hpp:235. -/
def sameNameC (str : List Nat) (ty : List Bool) (last id : Nat) : M Bool :=
  if last > 0 then eqLoopC str ty last id true else pure true

/-- The naming loop of `InducedSort_`, SuffixArray.hpp:232-241. -/
def nameLoopC (str : List Nat) (ty : List Bool) : List Nat → List Nat × Nat × Nat → M (List Nat × Nat)
  | [], (sub, ch, _) => pure (sub, ch)
  | id :: ids, (sub, ch, last) => do
    ticks 1
    if id = 0 then nameLoopC str ty ids (sub, ch, last)
    else do
      let t ← may (isLms ty id)
      if t then do
        let e ← sameNameC str ty last id
        let sub ← may (wr sub id (if e then ch else ch + 1))
        nameLoopC str ty ids (sub, if e then ch else ch + 1, id)
      else nameLoopC str ty ids (sub, ch, last)

/-- The loop that collects the names, SuffixArray.hpp:244-248 (the test for the end of `subStr` is in `inducedSortC`). -/
def collectC : List Nat → M (List Nat)
  | [] => pure []
  | c :: cs => do
    ticks 1
    let l ← collectC cs
    pure (if c ≠ kInf then c :: l else l)

/-- `InducedSort_`, SuffixArray.hpp:227-251: `subAsStr` and `subStr` are made, and the two results are copied into the tuple. -/
def inducedSortC (mx : Nat) (str : List Nat) (ty : List Bool) (lms : List Nat) : M (List Nat × List Nat × Nat) := do
  let induced ← induceC mx str ty lms none
  ticks str.length
  let x ← nameLoopC str ty induced (List.replicate str.length kInf, 0, 0)
  ticks lms.length
  let f ← collectC x.1
  if f.length ≤ lms.length then do
    ticks (induced.length + lms.length)
    pure (induced, f ++ List.replicate (lms.length - f.length) 0, (lms.length + (2 ^ 65 - 1 - x.2)) % 2 ^ 64)
  else may none

/-- `Sais_`, SuffixArray.hpp:209-225: the vectors of the tuple are copied, since `std::move` of a constant object is a copy. -/
def saisC (str : List Nat) (mx : Nat) : M (List Nat) := do
  let ty ← classifiedC str
  let lms ← lmsFromC ty 1
  let x ← inducedSortC mx str ty lms
  ticks x.1.length
  if x.2.2 = 0 then pure x.1
  else if _h : x.2.1.length < str.length then do
    ticks x.2.1.length
    let subSa ← saisC x.2.1 ((lms.length + (2 ^ 65 - 1 - x.2.2)) % 2 ^ 64)
    induceC mx str ty lms (some subSa)
  else may none
termination_by str.length

end Verif.SA
