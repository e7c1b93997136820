/-
Model of `CHT::print_for_debug`, /repo/include/sim_ds/CHT.hpp:209-221.
-/
import Verif.CHT.Model

namespace Verif.CHT

/-- A `bool` written to a stream. -/
def bit (b : Bool) : String := if b then "1" else "0"

/-- The loop over the slots, CHT.hpp:211-219: `n` slots from `i` on. The index is an `int`: its increment is undefined at 2^31 - 1. -/
def Tab.printLoop (t : Tab) : (n i cnt : Nat) → Option (List String × Nat)
  | 0, _, cnt => some ([], cnt)
  | n + 1, i, cnt =>
    if i + 1 < 2 ^ 31 then do
      let w ← t.arr.get i
      let r ← t.printLoop n (i + 1) (cnt + if isSh w then 1 else 0)
      pure (s!"{i}] {bit (isOcc w)}{bit (isCont w)}{bit (isSh w)}" :: r.1, r.2)
    else none

/-- `print_for_debug`, CHT.hpp:209-221: the lines written. -/
def Tab.print (t : Tab) : Option (List String) := do
  let r ← t.printLoop t.bucket 0 0
  pure (r.1 ++ [s!"cnt shifted: {r.2}"])

end Verif.CHT
