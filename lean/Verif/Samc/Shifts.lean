/-
Model of `_SamcImpl::shifts_of_conflicts_`, /repo/include/sim_ds/string_util/Samc.hpp:263-272 (private, and not called in the library).
-/
import Verif.Bits.Model

namespace Verif.Samc
open Verif.Bits

/-- `shifts_of_conflicts_`, Samc.hpp:265-272, without the `assert`. Without conflicts `ctz` is 64 and the shift by it undefined: `none`. -/
def shiftsOfConflicts (fields mask conflicts : W64) : Option Nat :=
  let f := ctz64 conflicts
  if f < 64 then
    let a := ctz64 (~~~(fields >>> f))
    let b : Int := (clz64 (~~~(mask <<< (63 - f))) : Int) - 1
    some (BitVec.ofInt 64 (a + b)).toNat
  else none

end Verif.Samc
