/-
Model of /repo/include/sim_ds/calc.hpp. Outcome `none` is undefined behaviour (shift by 64 or more,
access outside of an array) or, where said, non-termination.
-/
import Verif.Common

namespace Verif.Calc

/-- The loop of `SizeFitsInUnits`, calc.hpp:17-18: `size` is the current value, the next test uses
`++size`. With `unit = 0` and a non-zero value the loop never ends (`none`). -/
def sizeFitsLoop (v u size : Nat) : Option Nat :=
  if (size + 1) * u ≥ 64 then none
  else if v >>> ((size + 1) * u) = 0 then some (size + 1)
  else if u = 0 then none
  else sizeFitsLoop v u (size + 1)
termination_by 64 - size
decreasing_by
  have : (size + 1) * 1 ≤ (size + 1) * u := Nat.mul_le_mul (Nat.le_refl _) (by omega)
  omega

/-- `SizeFitsInUnits`, calc.hpp:16-20. -/
def sizeFitsInUnits (v u : Nat) : Option Nat := sizeFitsLoop v u 0

/-- `SizeFitsInBytes`, calc.hpp:28-30 (through `size_fits`, 22-25). -/
def sizeFitsInBytes (v : Nat) : Option Nat := sizeFitsInUnits v 8

/-- `SizeFitsInBits`, calc.hpp:33-35. -/
def sizeFitsInBits (v : Nat) : Option Nat := sizeFitsInUnits v 1

/-- `SizeFitsAsList`, calc.hpp:37-42: `sizes` is the not yet consumed rest of the list, `size` the
number of consumed entries. -/
def sizeFitsAsListLoop (v : Nat) : (sizes : List Nat) → (size : Nat) → Option Nat
  | [], _ => none
  | s :: rest, size =>
    if s ≥ 64 then none
    else if v >>> s = 0 then some (size + 1)
    else sizeFitsAsListLoop (v >>> s) rest (size + 1)

def sizeFitsAsList (v : Nat) (sizes : List Nat) : Option Nat := sizeFitsAsListLoop v sizes 0

/-- One iteration of the loop of `bit_length_frequencies`, calc.hpp:48-55: the state is
`(map, max_size)`. -/
def blfStep (st : List Nat × Nat) (v : Nat) : Option (List Nat × Nat) := do
  let size ← sizeFitsInBits v
  let (map, mx) := st
  let (map, mx) := if size > mx then (vresize map size 0, size) else (map, mx)
  let x ← map[size - 1]?
  let map ← wr map (size - 1) (x + 1)
  pure (map, mx)

def blfLoop : List Nat → List Nat × Nat → Option (List Nat × Nat)
  | [], st => some st
  | v :: vs, st => do
    let st ← blfStep st v
    blfLoop vs st

/-- `bit_length_frequencies`, calc.hpp:44-60; the copy to the result vector is the identity. -/
def bitLengthFrequencies (l : List Nat) : Option (List Nat) := do
  let (map, _) ← blfLoop l ([], 0)
  pure map

/-- Conversion to the type `int` of `auto count = 0` (gcc and clang wrap modulo 2^32). -/
def toInt32 (x : Int) : Int := Int.bmod x (2 ^ 32)

/-- Conversion of an `int` to `size_t`. -/
def intToSize (x : Int) : Nat := (x % (2 ^ 64)).toNat

/-- The loop of `cummulative_frequency_list`, calc.hpp:67-72, from the last index down; returns
`(count, cf)` after the given suffix of `map` has been processed. -/
def cumLoop : List Nat → Int × List Nat
  | [] => (0, [])
  | x :: xs =>
    let (count, cf) := cumLoop xs
    let count := toInt32 (count + x)
    (count, intToSize count :: cf)

/-- `cummulative_frequency_list`, calc.hpp:62-83 without the optional printing. -/
def cumulativeFrequencyList (l : List Nat) : Option (List Nat) := do
  let map ← bitLengthFrequencies l
  pure (cumLoop map).2

/-- Arithmetic of `size_t`. -/
def w64 (x : Nat) : Nat := x % 2 ^ 64

/-- The three tables of the dynamic program, calc.hpp:97. -/
structure Tab where
  s : List Nat
  l : List Nat
  b : List Nat

/-- The inner loop calc.hpp:101-107: `i` runs over `n` values; state `(min_size, min_pos)`.
`cost` stands for `additional_bit_size_of_rank` (floating point, calc.hpp:85-87): every function is
allowed. -/
def innerLoop (cost : Nat → Nat) (cf : List Nat) (s : List Nat) (t : Nat) :
    (n i : Nat) → Nat × Nat → Nat × Nat
  | 0, _, st => st
  | n + 1, i, (mn, pos) =>
    let cur := w64 (s.getD i 0 + cf.getD t 0 * (i - t) + cost (cf.getD t 0))
    innerLoop cost cf s t n (i + 1) (if cur < mn then (cur, i) else (mn, pos))

/-- One iteration of the loop over `t`, calc.hpp:98-117. All indices are at most `m`, inside. -/
def dpStep (cost : Nat → Nat) (cf : List Nat) (m : Nat) (t : Nat) (T : Tab) : Tab :=
  let (mn, pos) := innerLoop cost cf T.s t (m - t) (t + 1) (2 ^ 64 - 1, m)
  let one := w64 (cf.getD t 0 * ((m + 1) - t))
  if mn < one then
    ⟨T.s.set t mn, T.l.set t (T.l.getD pos 0 + 1), T.b.set t (pos - t)⟩
  else
    ⟨T.s.set t one, T.l.set t 1, T.b.set t ((m + 1) - t)⟩

/-- The loop `for (int t = m; t >= 0; --t)`: `n` iterations are left, the next is `t = n - 1`. -/
def dpLoop (cost : Nat → Nat) (cf : List Nat) (m : Nat) : Nat → Tab → Tab
  | 0, T => T
  | n + 1, T => dpLoop cost cf m n (dpStep cost cf m n T)

/-- The loop calc.hpp:123-126, literally: `k <= L`. State `(bk, t)`; a read of `b[t]` or a write of
`bk[k]` outside is `none`. -/
def followStrict (b : List Nat) : (n k t : Nat) → List Nat → Option (List Nat)
  | 0, _, _, bk => some bk
  | n + 1, k, t, bk => do
    let x ← b[t]?
    let bk ← wr bk k x
    followStrict b n (k + 1) (t + x) bk

/-- The same loop if the out of bounds read gives some value and the out of bounds write is
dropped: the first `L` iterations. -/
def follow (b : List Nat) : (n t : Nat) → List Nat
  | 0, _ => []
  | n + 1, t => b.getD t 0 :: follow b n (t + b.getD t 0)

/-- `sep_pos`, calc.hpp:129-134. -/
def sepPos : (bk : List Nat) → (p : Nat) → List Bool → List Bool
  | [], _, sp => sp
  | v :: bk, p, sp => sepPos bk (p + v) (sp.set (p + v) true)

/-- The loop calc.hpp:145-152. `pq` is in the order of removal (from the back of the sorted vector).-/
def dropSeps (maxLevels : Nat) : (pq : List Nat) → (num : Nat) → List Bool → List Bool
  | [], _, sp => sp
  | i :: pq, num, sp =>
    if num > maxLevels then
      if sp.getD i false then dropSeps maxLevels pq (num - 1) (sp.set i false)
      else dropSeps maxLevels pq num sp
    else sp

/-- The loop calc.hpp:154-161. -/
def gaps : (sp : List Bool) → (i last : Nat) → List Nat
  | [], _, _ => []
  | b :: sp, i, last => if b then (i - last) :: gaps sp (i + 1) i else gaps sp (i + 1) last

/-- The branch `L > max_levels`, calc.hpp:128-162. `srt` is `std::sort` with a comparison on the
first components only: an arbitrary permutation as far as ties go. -/
def reduceLevels (srt : List (Nat × Nat) → List (Nat × Nat)) (cf : List Nat) (m L maxLevels : Nat)
    (bk : List Nat) : List Nat :=
  let sp := sepPos bk 0 (List.replicate (cf.length + 1) false)
  let pq := srt ((List.range' 1 (m - 1)).map fun i => (cf.getD (i - 1) 0 - cf.getD i 0, i))
  let sp := dropSeps maxLevels (pq.reverse.map (·.2)) L sp
  gaps sp 0 0

/-- The tables after calc.hpp:96-117. -/
def dpTable (cost : Nat → Nat) (cf : List Nat) : Tab :=
  let m := cf.length - 1
  let z := List.replicate (m + 1) 0
  dpLoop cost cf m (m + 1) ⟨z, z, z⟩

/-- `split_positions_optimized_for_dac`, calc.hpp:89-167, with the out of bounds accesses as
undefined behaviour. -/
def splitPositionsStrict (srt : List (Nat × Nat) → List (Nat × Nat)) (cost : Nat → Nat)
    (maxLevels : Nat) (list : List Nat) : Option (List Nat) :=
  if list = [] then some []
  else do
    let cf ← cumulativeFrequencyList list
    let T := dpTable cost cf
    let L := T.l.getD 0 0
    let bk ← followStrict T.b (L + 1) 0 0 (List.replicate L 0)
    if L > maxLevels then pure (reduceLevels srt cf (cf.length - 1) L maxLevels bk) else pure bk

/-- `split_positions_optimized_for_dac` with the two out of bounds accesses of the last iteration of
calc.hpp:123-126 taken as harmless. For the empty list the result vector is left as it was
(modelled as empty). -/
def splitPositions (srt : List (Nat × Nat) → List (Nat × Nat)) (cost : Nat → Nat)
    (maxLevels : Nat) (list : List Nat) : Option (List Nat) :=
  if list = [] then some []
  else do
    let cf ← cumulativeFrequencyList list
    let T := dpTable cost cf
    let L := T.l.getD 0 0
    let bk := follow T.b L 0
    if L > maxLevels then pure (reduceLevels srt cf (cf.length - 1) L maxLevels bk) else pure bk

end Verif.Calc
