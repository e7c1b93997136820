/-
Generated by tools/fowit.py.

The construction for the witness does not end.
-/
import Verif.FO.Wit4

namespace Verif.FO

open PM (Byte)

set_option maxRecDepth 1000000

theorem wit_from12 : letterLoop (findBase' 300) 1 70 wlr12 wst12 = .stop := wit_last

theorem wit_from11 : letterLoop (findBase' 300) 5 66 wlr11 wst11 = .stop :=
  letterLoop_comp wit_step11 wit_from12 (by decide) (by decide)

theorem wit_from10 : letterLoop (findBase' 300) 11 60 wlr10 wst10 = .stop :=
  letterLoop_comp wit_step10 wit_from11 (by decide) (by decide)

theorem wit_from9 : letterLoop (findBase' 300) 17 54 wlr9 wst9 = .stop :=
  letterLoop_comp wit_step9 wit_from10 (by decide) (by decide)

theorem wit_from8 : letterLoop (findBase' 300) 23 48 wlr8 wst8 = .stop :=
  letterLoop_comp wit_step8 wit_from9 (by decide) (by decide)

theorem wit_from7 : letterLoop (findBase' 300) 29 42 wlr7 wst7 = .stop :=
  letterLoop_comp wit_step7 wit_from8 (by decide) (by decide)

theorem wit_from6 : letterLoop (findBase' 300) 35 36 wlr6 wst6 = .stop :=
  letterLoop_comp wit_step6 wit_from7 (by decide) (by decide)

theorem wit_from5 : letterLoop (findBase' 300) 41 30 wlr5 wst5 = .stop :=
  letterLoop_comp wit_step5 wit_from6 (by decide) (by decide)

theorem wit_from4 : letterLoop (findBase' 300) 47 24 wlr4 wst4 = .stop :=
  letterLoop_comp wit_step4 wit_from5 (by decide) (by decide)

theorem wit_from3 : letterLoop (findBase' 300) 53 18 wlr3 wst3 = .stop :=
  letterLoop_comp wit_step3 wit_from4 (by decide) (by decide)

theorem wit_from2 : letterLoop (findBase' 300) 59 12 wlr2 wst2 = .stop :=
  letterLoop_comp wit_step2 wit_from3 (by decide) (by decide)

theorem wit_from1 : letterLoop (findBase' 300) 65 6 wlr1 wst1 = .stop :=
  letterLoop_comp wit_step1 wit_from2 (by decide) (by decide)

theorem wit_from0 : letterLoop (findBase' 300) 71 0 wlr0 wst0 = .stop :=
  letterLoop_comp wit_step0 wit_from1 (by decide) (by decide)

theorem witness_stuck : buildWith (findBase' 300) witness = .stop := by
  unfold buildWith
  have h := wit_init
  cases h1 : expandLoop witness.length witness.length (initial witness) with
  | ub => rw [h1] at h; cases h
  | stop => rw [h1] at h; cases h
  | ok s =>
    rw [h1] at h
    have h2 : lift (s.setNext 0 0) = .ok wst0 := h
    have e1 : witness.length = 71 := by decide +kernel
    have e2 : List.replicate (71 + 1) 0 = wlr0 := by decide +kernel
    rw [ok_bind, h2, ok_bind, e1, e2, wit_from0, stop_bind]

end Verif.FO
