/-
Generated by tools/fowit.py.

The construction for the witness: a step with a conflict.
-/
import Verif.FO.Wit1

namespace Verif.FO

open PM (Byte)

set_option maxRecDepth 1000000

theorem wit_step10 : letterLoop (findBase' 300) 6 60 wlr10 wst10 = .ok (wst11, wlr11) := by decide +kernel

end Verif.FO
