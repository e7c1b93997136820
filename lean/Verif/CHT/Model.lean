/-
Model of /repo/include/sim_ds/CHT.hpp.

Numbers are natural numbers, reduced modulo 2^64 where the code can overflow. An access out of
range, an uninitialised read and a loop that never ends have the outcome `none`; a loop over slots is given as many steps as it can take before it
repeats a state. The asserts are not part of the model (Release build). `print_for_debug` is in Print.lean.
-/
import Verif.Fit.Model
import Verif.Hash.Model

namespace Verif.CHT
open Verif.Bits Verif.Fit

/-- The template arguments `ValueBits`, `MaxLoadFactorPercent`, `BijectiveHash` (its `hash` and `ihash` for a width), CHT.hpp:12-16. -/
structure Par where
  vbits : Nat
  load : Nat
  hash : Nat → Nat → Option Nat
  ihash : Nat → Nat → Option Nat

/-- The defaults of the template arguments, CHT.hpp:14-15. -/
def defaultPar (vbits : Nat) : Par := ⟨vbits, 50, Hash.hash, Hash.ihash⟩

/-- The members, CHT.hpp:27-38. -/
structure Tab where
  keyBits : Nat
  bucket : Nat
  bucketBits : Nat
  bucketMask : Nat
  maxSize : Nat
  minSize : Nat
  arr : FVec
  values : FVec
  quoMask : Nat
  size : Nat
  used : Nat
deriving DecidableEq

/-- `kOccupiedMask`, CHT.hpp:21. -/
def kOcc : Nat := 1
/-- `kContinuationMask`, CHT.hpp:22. -/
def kCont : Nat := 2
/-- `kShiftedMask`, CHT.hpp:23. -/
def kSh : Nat := 4
/-- `kDeletedMask`, CHT.hpp:24. -/
def kDel : Nat := 8

/-- `IsOccupied` on the word of a slot, CHT.hpp:40. -/
def isOcc (w : Nat) : Bool := w &&& kOcc != 0
/-- `IsContinuation`, CHT.hpp:41. -/
def isCont (w : Nat) : Bool := w &&& kCont != 0
/-- `IsShifted`, CHT.hpp:42. -/
def isSh (w : Nat) : Bool := w &&& kSh != 0
/-- `IsDeleted`, CHT.hpp:43. -/
def isDel (w : Nat) : Bool := w &&& kDel != 0
/-- `IsNull`, CHT.hpp:44. -/
def isNull (w : Nat) : Bool := w % 2 ^ 4 == 0

/-- `Quotient` on the word of a slot, CHT.hpp:46. -/
def Tab.quo (t : Tab) (w : Nat) : Nat := (w &&& t.quoMask) >>> 4

/-- The constructor, CHT.hpp:50-63. With `strict` the default construction of `arr_` is undefined (its mask is a shift by 64); without it the default
value, which is overwritten, is not looked at. -/
def new (P : Par) (strict : Bool) (keyBits bucket : Nat) : Option Tab := do
  let _ ← if strict then Fit.new 64 else Fit.new 0
  let bb := ctz64 (BitVec.ofNat 64 bucket)
  let values ← Fit.ofSize P.vbits bucket
  let qb := keyBits - bb
  let arr ← Fit.ofSize (qb + 4) bucket
  pure ⟨keyBits, bucket, bb, 2 ^ bb - 1, bucket * P.load % 2 ^ 64 / 100, bucket * (P.load - 1) % 2 ^ 64 / 400 + 1, arr, values, (2 ^ qb - 1) <<< 4, 0, 0⟩

/-- `set_value_width`, CHT.hpp:65-69; the inner `none` is the exception. -/
def Tab.setValueWidth (P : Par) (t : Tab) (width : Nat) : Option (Option Tab) :=
  if P.vbits ≠ 0 ∨ t.size ≠ 0 then some none
  else do
    let v ← Fit.ofSize width t.bucket
    pure (some { t with values := v })

/-- `succ`, CHT.hpp:195-200. -/
def Tab.succ (t : Tab) (i : Nat) : Nat := if i + 1 = t.bucket then 0 else i + 1

/-- `pred`, CHT.hpp:202-207. -/
def Tab.pred (t : Tab) (i : Nat) : Nat := if i = 0 then t.bucket - 1 else i - 1

/-- The first loop of `ToClusterHead`, CHT.hpp:74-79. -/
def Tab.back (t : Tab) : (fuel i c : Nat) → Option (Nat × Nat)
  | 0, _, _ => none
  | n + 1, i, c => do
    let w ← t.arr.get (t.pred i)
    let c := if isOcc w then c + 1 else c
    if isSh w then t.back n (t.pred i) c else pure (t.pred i, c)

/-- The second loop of `ToClusterHead`, CHT.hpp:80-84. -/
def Tab.fwd (t : Tab) : (fuel i c : Nat) → Option Nat
  | _, i, 0 => some i
  | 0, _, _ + 1 => none
  | n + 1, i, c + 1 => do
    let w ← t.arr.get (t.succ i)
    if isCont w then t.fwd n (t.succ i) (c + 1) else t.fwd n (t.succ i) c

/-- `ToClusterHead`, CHT.hpp:71-86. -/
def Tab.head (t : Tab) (i : Nat) : Option Nat := do
  let w ← t.arr.get i
  if isSh w then do
    let (j, c) ← t.back t.bucket i 0
    t.fwd (t.bucket * t.bucket + t.bucket) j c
  else pure i

/-- The loops over a run, CHT.hpp:97-103, 122-134, 183-192: `(i, true)` if the quotient is found at `i`, else `(i, false)` with `i` behind the run. -/
def Tab.find (t : Tab) (q : Nat) : (fuel i : Nat) → Option (Nat × Bool)
  | 0, _ => none
  | n + 1, i => do
    let w ← t.arr.get i
    if t.quo w = q then pure (i, true)
    else do
      let w ← t.arr.get (t.succ i)
      if isCont w then t.find q n (t.succ i) else pure (t.succ i, false)

/-- `get`, CHT.hpp:88-104. -/
def Tab.get (P : Par) (t : Tab) (key : Nat) : Option (Bool × Nat) := do
  let h ← P.hash t.keyBits key
  let q := h >>> t.bucketBits
  let w ← t.arr.get (h &&& t.bucketMask)
  if isOcc w then do
    let i ← t.head (h &&& t.bucketMask)
    let (i, r) ← t.find q t.bucket i
    if r then do
      let v ← t.values.get i
      pure (true, v)
    else pure (false, 0)
  else pure (false, 0)

/-- The search for an empty slot, CHT.hpp:136-139. -/
def Tab.nextNull (t : Tab) : (fuel j : Nat) → Option Nat
  | 0, _ => none
  | n + 1, j => do
    let w ← t.arr.get (t.succ j)
    if isNull w then pure (t.succ j) else t.nextNull n (t.succ j)

/-- The loop that moves the slots from `i` on by one, CHT.hpp:140-149. -/
def Tab.shift (i : Nat) : (fuel j : Nat) → Tab → Option Tab
  | 0, _, _ => none
  | n + 1, j, t => do
    let a ← t.arr.get j
    let b ← t.arr.get (t.pred j)
    let arr ← t.arr.set j ((a &&& (kOcc ||| kDel)) ||| (b &&& (t.quoMask ||| kCont)) ||| kSh)
    let values ← t.values.copyElem j (t.pred j)
    let t' := { t with arr := arr, values := values }
    if i = t.pred j then pure t' else Tab.shift i n (t.pred j) t'

/-- CHT.hpp:135-151. -/
def Tab.makeRoom (t : Tab) (i : Nat) : Option Tab := do
  let w ← t.arr.get i
  if isNull w then pure t
  else do
    let j ← t.nextNull t.bucket i
    Tab.shift i t.bucket j t

/-- The new word of slot `i`, CHT.hpp:152-166. -/
def Tab.mark (t : Tab) (h i q : Nat) : Option Tab := do
  let w ← t.arr.get h
  if isOcc w then do
    let a ← t.arr.get i
    let arr ← t.arr.set i ((a &&& kOcc) ||| (q <<< 4) ||| kCont ||| kSh)
    pure { t with arr := arr }
  else do
    let arr ← t.arr.set h (w ||| kOcc)
    let a ← arr.get i
    let arr ← arr.set i ((a &&& kOcc) ||| (q <<< 4) ||| (if i ≠ h then kSh else 0))
    pure { t with arr := arr }

/-- CHT.hpp:135-169. -/
def Tab.insert (t : Tab) (h i q value : Nat) : Option Tab := do
  let t ← t.makeRoom i
  let t ← t.mark h i q
  let values ← t.values.set i value
  pure { t with values := values, size := (t.size + 1) % 2 ^ 64, used := t.used + 1 }

/-- The branch for a key that is present, CHT.hpp:125-130. -/
def Tab.assign (t : Tab) (i value : Nat) : Option Tab := do
  let w ← t.arr.get i
  let t ← if isDel w then do
      let arr ← t.arr.set i (w &&& (2 ^ 64 - 1 - kDel))
      pure { t with arr := arr, size := (t.size + 1) % 2 ^ 64 }
    else pure t
  let values ← t.values.set i value
  pure { t with values := values }

/-- `set` behind the check of the load, CHT.hpp:118-170. -/
def Tab.put (P : Par) (t : Tab) (key value : Nat) : Option Tab := do
  let h ← P.hash t.keyBits key
  let q := h >>> t.bucketBits
  let h := h &&& t.bucketMask
  let i ← t.head h
  let w ← t.arr.get h
  if isOcc w then do
    let (i, r) ← t.find q t.bucket i
    if r then t.assign i value else t.insert h i q value
  else t.insert h i q value

/-- The inner loop of `_resize` that looks for the start of a cluster, CHT.hpp:242-244. -/
def Tab.skip (t : Tab) : (fuel i : Nat) → Option Nat
  | 0, _ => none
  | n + 1, i => do
    let w ← t.arr.get i
    if isOcc w && !isSh w then pure i else t.skip n (t.succ i)

/-- CHT.hpp:248-255: the queue of homes and the home `f` of slot `i`; the front of an empty queue is undefined. -/
def pop (w i : Nat) (qs : List Nat) (f : Option Nat) : Option (Option Nat × List Nat) :=
  let qs := if isOcc w then qs ++ [i] else qs
  if isCont w then some (f, qs)
  else match qs with
    | [] => none
    | f :: qs => some (some f, qs)

/-- CHT.hpp:256-260: the element of slot `i` goes to the new table; `f` may be uninitialised. -/
def Tab.copyOne (P : Par) (t : Tab) (setF : Tab → Nat → Nat → Option Tab) (w i : Nat) (f : Option Nat) (next : Tab) : Option Tab :=
  if isDel w then some next
  else do
    let f ← f
    let x ← P.ihash t.keyBits ((t.quo w <<< t.bucketBits) ||| f)
    let v ← t.values.get i
    setF next x v

/-- The loop over a cluster, CHT.hpp:247-263. -/
def Tab.cluster (P : Par) (t : Tab) (setF : Tab → Nat → Nat → Option Tab) : (fuel i cnt : Nat) → List Nat → Option Nat → Tab → Option (Nat × Nat × Tab)
  | 0, _, _, _, _, _ => none
  | n + 1, i, cnt, qs, f, next => do
    let w ← t.arr.get i
    let (f, qs) ← pop w i qs f
    let next ← t.copyOne P setF w i f next
    let w ← t.arr.get (t.succ i)
    if isSh w then t.cluster P setF n (t.succ i) (cnt + 1) qs f next else pure (t.succ i, cnt + 1, next)

/-- The outer loop of `_resize`, CHT.hpp:241-264. -/
def Tab.clusters (P : Par) (t : Tab) (setF : Tab → Nat → Nat → Option Tab) : (fuel i cnt : Nat) → Tab → Option Tab
  | 0, _, cnt, next => if cnt < t.used then none else some next
  | n + 1, i, cnt, next =>
    if cnt < t.used then do
      let i ← t.skip t.bucket i
      let (i, cnt, next) ← t.cluster P setF t.bucket i cnt [] none next
      t.clusters P setF n i cnt next
    else some next

/-- `CHT next(key_bits_, new_bucket_size)` and its value width, CHT.hpp:236-238. -/
def Tab.fresh (P : Par) (strict : Bool) (t : Tab) (newBucket : Nat) : Option Tab := do
  let next ← new P strict t.keyBits newBucket
  if P.vbits = 0 then do
    let r ← next.setValueWidth P t.values.width
    r
  else pure next

/-- `_resize`, CHT.hpp:235-266. -/
def Tab.resize (P : Par) (strict : Bool) (setF : Tab → Nat → Nat → Option Tab) (t : Tab) (newBucket : Nat) : Option Tab := do
  let next ← t.fresh P strict newBucket
  t.clusters P setF t.used 0 0 next

/-- `reserve`, CHT.hpp:223-229; a shift of `1ull` by 64 is undefined. -/
def Tab.reserveWith (P : Par) (strict : Bool) (setF : Tab → Nat → Nat → Option Tab) (t : Tab) (n : Nat) : Option Tab :=
  if n ≤ t.size then some t
  else
    let need := n * (100 - 1) % 2 ^ 64 / P.load + 1
    let bits := 64 - clz64 (BitVec.ofNat 64 (need - 1))
    if bits < 64 then t.resize P strict setF (2 ^ bits) else none

/-- `IsFilled`, CHT.hpp:106-108. -/
def Tab.filled (t : Tab) : Bool := t.used == t.maxSize

/-- `set` with at most `d` calls inside each other, CHT.hpp:110-170. -/
def setD (P : Par) (strict : Bool) : Nat → Tab → Nat → Nat → Option Tab
  | 0, _, _, _ => none
  | d + 1, t, key, value => do
    let t ← if t.filled then t.reserveWith P strict (setD P strict d) (t.size * 2 % 2 ^ 64) else pure t
    t.put P key value

/-- `set`. More than three calls inside each other count as not ending (C44: this never happens without `erase`). -/
def Tab.set (P : Par) (strict : Bool) (t : Tab) (key value : Nat) : Option Tab := setD P strict 3 t key value

/-- `reserve`. -/
def Tab.reserve (P : Par) (strict : Bool) (t : Tab) (n : Nat) : Option Tab := t.reserveWith P strict (setD P strict 3) n

/-- The quotient in `erase`, CHT.hpp:178: the hash divided by `bucket_bits_`, which is undefined for 0. -/
def Tab.eraseQuo (t : Tab) (h : Nat) : Option Nat := if t.bucketBits = 0 then none else some (h / t.bucketBits)

/-- `erase` behind the check of the size, CHT.hpp:177-193. -/
def Tab.eraseIn (P : Par) (t : Tab) (key : Nat) : Option Tab := do
  let h ← P.hash t.keyBits key
  let q ← t.eraseQuo h
  let w ← t.arr.get (h &&& t.bucketMask)
  if isOcc w then do
    let i ← t.head (h &&& t.bucketMask)
    let (i, r) ← t.find q t.bucket i
    if r then do
      let w ← t.arr.get i
      if isDel w then pure t
      else do
        let arr ← t.arr.set i (w ||| kDel)
        pure { t with arr := arr, size := (t.size + 2 ^ 64 - 1) % 2 ^ 64 }
    else pure t
  else pure t

/-- `erase` with at most `d` calls of `set` inside each other, CHT.hpp:172-193. -/
def Tab.eraseD (P : Par) (strict : Bool) (d : Nat) (t : Tab) (key : Nat) : Option Tab :=
  (if t.size = t.minSize then t.reserveWith P strict (setD P strict d) (t.size * 2 % 2 ^ 64) else some t).bind (fun t => t.eraseIn P key)

/-- `erase`. -/
def Tab.erase (P : Par) (strict : Bool) (t : Tab) (key : Nat) : Option Tab := t.eraseD P strict 3 key

end Verif.CHT
