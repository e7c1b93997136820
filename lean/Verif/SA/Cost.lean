/-
The LCP construction of SuffixArray.hpp with a count of the comparisons of letters, and the construction of the array with a bound on the depth of the
recursion. The functions are those of Verif/SA/Model.lean with one more argument or result.
-/
import Verif.SA.Model

namespace Verif.SA
open Verif.Serial

/-- `compareLoop` with the number of comparisons, SuffixArray.hpp:345-349. -/
def compareLoopC (str : List Byte) (li ri m cnt : Nat) : Nat × Nat :=
  if h : max li ri < str.length then
    if str[li]'(by omega) = str[ri]'(by omega) then compareLoopC str (li + 1) (ri + 1) (m + 1) (cnt + 1) else (m, cnt + 1)
  else (m, cnt)
termination_by str.length - li

/-- `lcpVal` with the number of comparisons, SuffixArray.hpp:310. -/
def lcpValC (str : List Byte) (sa : Fit.FVec) (n i pos prev cnt : Nat) : Option (Nat × Nat) :=
  if pos = n - 1 then some (0, cnt)
  else (sa.get (pos + 1)).map (fun ri => compareLoopC str (i + startLCP prev) (ri + startLCP prev) (startLCP prev) cnt)

/-- `lcpLoop` with the number of comparisons, SuffixArray.hpp:308-313. -/
def lcpLoopC (str : List Byte) (sa : Fit.FVec) (ps : List Nat) : (r i : Nat) → List Nat → Nat → Nat → Option (List Nat × Nat)
  | 0, _, la, _, cnt => some (la, cnt)
  | r + 1, i, la, prev, cnt => do
    let pos ← ps[i]?
    let (lcp, cnt) ← lcpValC str sa ps.length i pos prev cnt
    let la ← wr la pos lcp
    lcpLoopC str sa ps r (i + 1) la lcp cnt

/-- `buildLCP` with the number of comparisons, SuffixArray.hpp:301-339. -/
def buildLCPC (str : List Byte) (sa : Fit.FVec) : Option (Fit.FVec × Nat) := do
  let ps ← posLoop sa sa.size 0 (List.replicate sa.size 0)
  let (la, cnt) ← lcpLoopC str sa ps ps.length 0 (List.replicate sa.size 0) 0 0
  let v ← Fit.ofVector la
  let _ ← la[la.length / 2]?
  let _ ← Calc.bitLengthFrequencies la
  pure (v, cnt)

/-- `Sais_`, SuffixArray.hpp:209-225, with at most `d` calls inside each other; more are the outcome `none`. The second result is the sum of the
lengths of the texts of all the calls. -/
def saisD : (d : Nat) → (str : List Nat) → (mx : Nat) → Option (List Nat × Nat)
  | 0, _, _ => none
  | d + 1, str, mx => do
    let ty ← classified str
    let lms := findLMSs ty
    let (sa, sub, shared) ← inducedSort mx str ty lms
    if shared = 0 then pure (sa, str.length)
    else do
      let (subSa, w) ← saisD d sub ((lms.length + (2 ^ 65 - 1 - shared)) % 2 ^ 64)
      let sa ← induce mx str ty lms (some subSa)
      pure (sa, str.length + w)

end Verif.SA
