/-
Generated by tools/fowit.py.

The construction for the witness: the last letter.
-/
import Verif.FO.Wit3

namespace Verif.FO

open PM (Byte)

set_option maxRecDepth 1000000

theorem wit_last : letterLoop (findBase' 300) 1 70 wlr12 wst12 = .stop := by decide +kernel

end Verif.FO
