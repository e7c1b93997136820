/-
Property theorem C126 for DacVector.
-/
import Verif.Dac.BuildCost
import Verif.Dac.Props
import Verif.Wave.PropsReads

namespace Verif.Dac
open Verif.IArr Verif.Reads

/-- C126: the constructor of DacVector for `n` values and `k` given widths makes at most `n (6 k + 2) + n (k - 1) / 32 + 22 k + 567`
accesses. -/
theorem C126_dac (split : List Nat → Option (List Nat)) (list units : List Nat) (hne : list ≠ []) (hl : ∀ v ∈ list, v < 2 ^ 63)
    (hn : list.length < 2 ^ 31) (hu : UnitsOk list units) :
    ∃ d, make split list units = some d ∧
      Within (ofUnitsC list units) d (list.length * (6 * units.length + 2) + list.length * (units.length - 1) / 32 + 22 * units.length + 567) := by
  obtain ⟨d, e, _⟩ := C32_values split list units hne hl hn hu
  refine ⟨d, e, ?_⟩
  unfold make at e
  rw [if_neg hne, if_neg hu.ne] at e
  obtain ⟨cf, ec, _, h2, _⟩ := Calc.C14_cumulative list hl hn
  have hlen : cf.length ≤ 63 := by
    rcases h2 with h | ⟨v, hv, h⟩
    · omega
    · rw [← h]
      by_cases h0 : v = 0
      · subst h0; decide
      · exact (Nat.log2_lt h0).mpr (hl v hv)
  have hk : 1 ≤ units.length := List.length_pos_iff.mpr hu.ne
  refine Costs.within ((ofUnits_costs list units 63 (fun cf' e' => ?_)).mono ?_) e
  · rw [ec] at e'; cases e'; exact hlen
  · rw [show 8 + 6 * (units.length - 1) = 6 * units.length + 2 by omega]

example := C126_dac (fun _ => none) [3, 700, 0, 66000, 5] [4, 5, 8] (by decide) (by decide) (by decide) ⟨by decide, by decide, by decide, 66000, by decide, by decide +kernel⟩

end Verif.Dac
