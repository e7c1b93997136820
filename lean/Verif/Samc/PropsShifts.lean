/-
Property theorem C86: `shifts_of_conflicts_` skips no shift that would do.
-/
import Verif.Samc.Shifts
import Verif.Bits.Props

namespace Verif.Samc
open Verif.Bits

/-- C86: when the mask meets the fields, the result is a shift by at least 1, and moving the mask by less still meets the fields. -/
theorem C86_shifts (fields mask : W64) (h : fields &&& mask ≠ 0#64) :
    ∃ r, shiftsOfConflicts fields mask (fields &&& mask) = some r ∧ 1 ≤ r ∧
      ∀ s, s < r → ∃ p, mask.getLsbD p = true ∧ fields.getLsbD (p + s) = true := by
  have hc := C04_ctz64 (fields &&& mask)
  unfold shiftsOfConflicts
  simp only
  generalize hf : ctz64 (fields &&& mask) = f at hc ⊢
  have ha := C04_ctz64 (~~~(fields >>> f))
  have hb := C05_clz64 (~~~(mask <<< (63 - f)))
  generalize ctz64 (~~~(fields >>> f)) = a at ha ⊢
  generalize clz64 (~~~(mask <<< (63 - f))) = b at hb ⊢
  have hf64 : f < 64 := by
    rcases Nat.lt_or_ge f 64 with h1 | h1
    · exact h1
    · exfalso
      apply h
      apply BitVec.eq_of_getLsbD_eq
      intro i hi
      rw [hc.2.1 i (by omega)]
      simp
  have hbit := hc.2.2 hf64
  rw [BitVec.getLsbD_and, Bool.and_eq_true] at hbit
  have ha2 : ∀ j, j < a → fields.getLsbD (f + j) = true := by
    intro j hj
    have h1 := ha.2.1 j hj
    have := ha.1
    simpa [show j < 64 by omega] using h1
  have hb2 : ∀ j, j < b → j ≤ f ∧ mask.getLsbD (f - j) = true := by
    intro j hj
    have h1 := hb.2.1 j hj
    have := hb.1
    rw [BitVec.getLsbD_not, BitVec.getLsbD_shiftLeft] at h1
    simp only [show 64 - 1 - j < 64 by omega, decide_true, Bool.true_and, Bool.not_eq_false', Bool.and_eq_true, Bool.not_eq_true',
      decide_eq_false_iff_not] at h1
    refine ⟨by omega, ?_⟩
    rw [← h1.2]
    congr 1
    omega
  have ha1 : 1 ≤ a := by
    rcases Nat.eq_zero_or_pos a with e | e
    · have := ha.2.2 (by omega)
      rw [e] at this
      simp [hbit.1] at this
    · exact e
  have hb1 : 1 ≤ b := by
    rcases Nat.eq_zero_or_pos b with e | e
    · have := hb.2.2 (by omega)
      rw [e, BitVec.getLsbD_not, BitVec.getLsbD_shiftLeft] at this
      simp only [show 64 - 1 - 0 - (63 - f) = f by omega, hbit.2] at this
      simp at this
      omega
    · exact e
  have hal := ha.1
  have hbl := hb.1
  rw [if_pos hf64]
  refine ⟨_, rfl, ?_⟩
  have e : ((a : Int) + ((b : Int) - 1)) = ((a + b - 1 : Nat) : Int) := by omega
  rw [e, BitVec.ofInt_natCast, BitVec.toNat_ofNat, Nat.mod_eq_of_lt (by omega)]
  refine ⟨by omega, fun s hs => ?_⟩
  by_cases hsa : s < a
  · exact ⟨f, hbit.2, ha2 s hsa⟩
  · obtain ⟨h1, h2⟩ := hb2 (s - (a - 1)) (by omega)
    refine ⟨_, h2, ?_⟩
    have := ha2 (a - 1) (by omega)
    rw [← this]
    congr 1
    omega

example := C86_shifts 0b1011#64 0b0010#64 (by decide)

/-- C86: without a conflict the function shifts by too much. -/
theorem C86_shifts_ub (fields mask : W64) : shiftsOfConflicts fields mask 0#64 = none := rfl

example : shiftsOfConflicts 0b0011100#64 0b0001110#64 (0b0011100#64 &&& 0b0001110#64) = some 4 := by decide +kernel

end Verif.Samc
