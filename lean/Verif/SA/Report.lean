/-
The report that `BuildLCP_` prints, /repo/include/sim_ds/string_util/SuffixArray.hpp:317-338.
-/
import Verif.SA.Model
import Mathlib.Data.List.Sort

namespace Verif.SA
open Verif.Serial

/-- The numbers of the report, SuffixArray.hpp:328-337. Of the average, a `float`, only the `long long` sum that is divided by the number of
elements is modelled. -/
structure Report where
  number : Nat
  maxL : Nat
  sum : Int
  median : Nat
  map : List Nat
deriving DecidableEq

/-- The loop over the sorted array, SuffixArray.hpp:320-323; `sum += l` adds a `size_t` to a `long long`, modulo `2 ^ 64`. -/
def statLoop : List Nat → Nat → Int → Nat × Int
  | [], maxL, sum => (maxL, sum)
  | l :: ls, maxL, sum => statLoop ls (max l maxL) (BitVec.ofInt 64 (sum + l)).toInt

/-- SuffixArray.hpp:317-337. `std::sort` of numbers has one result only, the sorted list. -/
def report (la : List Nat) : Option Report := do
  let s := la.insertionSort (· ≤ ·)
  let (maxL, sum) := statLoop s 0 0
  let median ← s[s.length / 2]?
  let map ← Calc.bitLengthFrequencies s
  pure ⟨s.length, maxL, sum, median, map⟩

/-- `BuildLCP_` with its report, SuffixArray.hpp:301-339. -/
def buildLCPR (str : List Byte) (sa : Fit.FVec) : Option (Fit.FVec × Report) := do
  let ps ← posLoop sa sa.size 0 (List.replicate sa.size 0)
  let la ← lcpLoop str sa ps ps.length 0 (List.replicate sa.size 0) 0
  let v ← Fit.ofVector la
  let r ← report la
  pure (v, r)

end Verif.SA
