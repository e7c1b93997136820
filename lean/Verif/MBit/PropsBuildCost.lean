/-
Property theorem C126 for MultiBitVector.
-/
import Verif.MBit.BuildCost
import Verif.MBit.Props
import Verif.Wave.PropsReads

namespace Verif.MBit
open Verif.IArr Verif.Reads

/-- C126: `build` of a MultiBitVector with `n` words makes at most `67 n + 182` accesses. -/
theorem C126_multi_bit_vector (S : Nat) (hS : S = 1 ∨ S = 2 ∨ S = 3) (v : MBV) (ht : v.tips.length = 2 ^ S) :
    ∃ v', v.build S = some v' ∧ Within (buildC S v) v' (67 * v.words.length + 182) := by
  obtain ⟨v', e, _⟩ := build_spec hS v ht
  refine ⟨v', e, Costs.within ((build_costs S v).mono ?_) e⟩
  generalize v.words.length = n
  rcases hS with rfl | rfl | rfl
  · show n * 64 / 1 + 1 * ((n + 4 - 1) / 4 * 9 + 1) ≤ _
    omega
  · show n * 64 / 2 + 3 * ((n + 8 - 1) / 8 * 17 + 1) ≤ _
    omega
  · show n * 63 / 3 + 7 * ((n + 12 - 1) / 12 * 25 + 1) ≤ _
    omega

example := C126_multi_bit_vector 2 (by decide) ⟨[5#64, 0#64, 77#64], [[], [], [], []]⟩ (by decide)

end Verif.MBit
