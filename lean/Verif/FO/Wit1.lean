/-
Generated by tools/fowit.py.

The construction for the witness: the first steps.
-/
import Verif.FO.Wit0

namespace Verif.FO

open PM (Byte)

set_option maxRecDepth 1000000

theorem wit_init : ((expandLoop witness.length witness.length (initial witness)).bind (fun s => lift (s.setNext 0 0))) = .ok wst0 := by
  decide +kernel

theorem wit_step0 : letterLoop (findBase' 300) 6 0 wlr0 wst0 = .ok (wst1, wlr1) := by decide +kernel

theorem wit_step1 : letterLoop (findBase' 300) 6 6 wlr1 wst1 = .ok (wst2, wlr2) := by decide +kernel

theorem wit_step2 : letterLoop (findBase' 300) 6 12 wlr2 wst2 = .ok (wst3, wlr3) := by decide +kernel

theorem wit_step3 : letterLoop (findBase' 300) 6 18 wlr3 wst3 = .ok (wst4, wlr4) := by decide +kernel

theorem wit_step4 : letterLoop (findBase' 300) 6 24 wlr4 wst4 = .ok (wst5, wlr5) := by decide +kernel

theorem wit_step5 : letterLoop (findBase' 300) 6 30 wlr5 wst5 = .ok (wst6, wlr6) := by decide +kernel

theorem wit_step6 : letterLoop (findBase' 300) 6 36 wlr6 wst6 = .ok (wst7, wlr7) := by decide +kernel

theorem wit_step7 : letterLoop (findBase' 300) 6 42 wlr7 wst7 = .ok (wst8, wlr8) := by decide +kernel

theorem wit_step8 : letterLoop (findBase' 300) 6 48 wlr8 wst8 = .ok (wst9, wlr9) := by decide +kernel

theorem wit_step9 : letterLoop (findBase' 300) 6 54 wlr9 wst9 = .ok (wst10, wlr10) := by decide +kernel

end Verif.FO
