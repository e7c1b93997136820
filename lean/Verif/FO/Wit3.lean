/-
Generated by tools/fowit.py.

The construction for the witness: a step with a conflict.
-/
import Verif.FO.Wit2

namespace Verif.FO

open PM (Byte)

set_option maxRecDepth 1000000

theorem wit_step11 : letterLoop (findBase' 300) 4 66 wlr11 wst11 = .ok (wst12, wlr12) := by decide +kernel

end Verif.FO
