/-
Property theorems C126 (the succinct structures are built in linear time).
-/
import Verif.Wave.BuildCost
import Verif.Wave.PropsReads

namespace Verif.Reads
open Verif.Bits Verif.IArr

/-- C126: the constructor of SuccinctBitVector makes, with and without select, at most one access for every 32
bits and 14 more. -/
theorem C126_succinct (us : Bool) (v : BV.BVec) (l : List Bool) (h : BV.Built v l) :
    ∃ s, Succ.build us v = some s ∧ Within (sbvBuildC us v) s (l.length / 32 + 14) := by
  obtain ⟨s, e, _⟩ := Succ.C20_rank us v l h
  have hs : v.size = l.length := h.rep.size
  refine ⟨s, e, ?_⟩
  have := Costs.within (sbvBuild_costs us v) e
  rw [sbvK, hs] at this
  exact this

/-- C126: the constructor of WaveletTree for `n` values below `2^h` makes at most `n (2 h + h / 32 + 1)` accesses for the
values and 16 for each of the `2^h - 1` nodes, used or not. -/
theorem C126_wave (vec : List Nat) (hne : vec ≠ []) (h : Nat) (h1 : 1 ≤ h) (h30 : h ≤ 30) (hv : ∀ v ∈ vec, v < 2 ^ h) :
    ∃ t, Wave.make vec = some t ∧ Within (waveMakeC vec) t (vec.length * (2 * h + 1) + vec.length * h / 32 + 16 * (2 ^ h - 1)) := by
  have hv' : ∀ v ∈ vec, v < 2 ^ 30 := fun v hm => Nat.lt_of_lt_of_le (hv v hm) (Nat.pow_le_pow_right (by decide) h30)
  obtain ⟨t, e, _⟩ := Wave.make_spec vec hne hv'
  have hlt : vec.foldl max 0 < 2 ^ h := Wave.foldl_max_lt (2 ^ h) vec 0 (Nat.two_pow_pos h) hv
  have hlt' : vec.foldl max 0 < 2 ^ 63 := Nat.lt_of_lt_of_le hlt (Nat.pow_le_pow_right (by decide) (by omega))
  obtain ⟨k, ek, _, _, hk⟩ := Calc.C13_sizeFitsInBits (vec.foldl max 0) hlt'
  have hkh := hk h h1 hlt
  refine ⟨t, e, Costs.within ((waveMake_costs vec k ek).mono ?_) e⟩
  have g1 : k * vec.length ≤ h * vec.length := Nat.mul_le_mul_right _ hkh
  have g2 : 2 ^ k ≤ 2 ^ h := Nat.pow_le_pow_right (by decide) hkh
  have g3 : k * vec.length / 32 ≤ h * vec.length / 32 := Nat.div_le_div_right g1
  rw [Nat.mul_succ, Nat.mul_comm vec.length h, Nat.mul_comm vec.length (2 * h), Nat.mul_assoc, Nat.mul_assoc]
  omega

example : ∃ v s, BV.Built v (List.replicate 1500 true) ∧ Succ.build true v = some s ∧ Within (sbvBuildC true v) s 60 := by
  obtain ⟨v, hv⟩ := BV.Built.exists (List.replicate 1500 true)
  obtain ⟨s, e, h⟩ := C126_succinct true v _ hv
  rw [List.length_replicate] at h
  exact ⟨v, s, hv, e, h⟩

example : ∃ t, Wave.make [3, 0, 7, 7, 1] = some t ∧ Within (waveMakeC [3, 0, 7, 7, 1]) t 147 :=
  C126_wave [3, 0, 7, 7, 1] (by decide) 3 (by decide) (by decide) (by decide)

end Verif.Reads
