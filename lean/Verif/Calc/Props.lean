/-
Property theorems C13-C15 (calc.hpp).
-/
import Verif.Calc.Split

namespace Verif.Calc

/-! ### C13 -/

/-- For a positive unit and a value that fits in whole units of at most 63 bits, the result is the
least positive number of units that holds the value, and no shift by 64 or more happens. -/
theorem C13_sizeFitsInUnits (v u : Nat) (hu : 0 < u) (hu63 : u ≤ 63) (hv : v < 2 ^ (63 / u * u)) :
    ∃ k, sizeFitsInUnits v u = some k ∧ 1 ≤ k ∧ v < 2 ^ (k * u) ∧ ∀ j, 1 ≤ j → v < 2 ^ (j * u) → k ≤ j := by
  have hq : 1 ≤ 63 / u := (Nat.le_div_iff_mul_le hu).2 (by omega)
  have hm : 63 / u * u ≤ 63 := Nat.div_mul_le_self 63 u
  exact sizeFitsLoop_spec v u hu (63 / u - 1) 0 (63 / u) (by omega) (by omega) hv (by intro j h1 h2; omega)

example := C13_sizeFitsInUnits (2 ^ 62) 3 (by decide) (by decide) (by decide +kernel)

/-- Outside of that domain the call shifts by 64 or more bits. -/
theorem C13_sizeFitsInUnits_domain (v u : Nat) (hu : 0 < u) (hv : 2 ^ (63 / u * u) ≤ v) :
    sizeFitsInUnits v u = none := by
  apply sizeFitsLoop_none v u hu _ 64 0 (by decide)
  intro k hk hlt
  have : k ≤ 63 / u := (Nat.le_div_iff_mul_le hu).2 (by omega)
  have h2 : k * u ≤ 63 / u * u := Nat.mul_le_mul_right _ this
  have := Nat.pow_le_pow_right (n := 2) (by decide) h2
  omega

example := C13_sizeFitsInUnits_domain (2 ^ 56) 8 (by decide) (by decide +kernel)

/-- Instance for bits. -/
theorem C13_sizeFitsInBits (v : Nat) (hv : v < 2 ^ 63) :
    ∃ k, sizeFitsInBits v = some k ∧ 1 ≤ k ∧ v < 2 ^ k ∧ ∀ j, 1 ≤ j → v < 2 ^ j → k ≤ j := by
  unfold sizeFitsInBits
  simpa using C13_sizeFitsInUnits v 1 (by decide) (by decide) (by simpa using hv)

example := C13_sizeFitsInBits 700 (by decide)

/-- Instance for bytes. -/
theorem C13_sizeFitsInBytes (v : Nat) (hv : v < 2 ^ 56) :
    ∃ k, sizeFitsInBytes v = some k ∧ 1 ≤ k ∧ v < 256 ^ k ∧ ∀ j, 1 ≤ j → v < 256 ^ j → k ≤ j := by
  have e : ∀ j, 2 ^ (j * 8) = 256 ^ j := by
    intro j; rw [Nat.mul_comm, Nat.pow_mul]
  unfold sizeFitsInBytes
  simpa [e] using C13_sizeFitsInUnits v 8 (by decide) (by decide) (by simpa using hv)

example : sizeFitsInBits 5 = some 3 ∧ sizeFitsInBytes 65536 = some 3 ∧ sizeFitsInBits 0 = some 1 ∧
    sizeFitsInUnits (2 ^ 62) 3 = some 21 := by decide +kernel
example : 2 ^ 62 < 2 ^ (63 / 3 * 3) := by decide +kernel
example : sizeFitsInBytes (2 ^ 56) = none ∧ 2 ^ (63 / 8 * 8) ≤ 2 ^ 56 := by decide +kernel

/-! ### C14 -/

/-- `SizeFitsAsList` finds the least number of leading entries whose widths hold the value. -/
theorem C14_sizeFitsAsList (v : Nat) (sizes : List Nat) (h64 : ∀ s ∈ sizes, s < 64) (hne : sizes ≠ [])
    (hv : v < 2 ^ sizes.sum) :
    ∃ k, sizeFitsAsList v sizes = some k ∧ 1 ≤ k ∧ k ≤ sizes.length ∧ v < 2 ^ (sizes.take k).sum ∧
      ∀ j, 1 ≤ j → v < 2 ^ (sizes.take j).sum → k ≤ j := by
  obtain ⟨k, h1, h2⟩ := asListLoop_spec sizes v 0 h64 hv hne
  exact ⟨k, by rw [sizeFitsAsList, h1, Nat.zero_add], h2⟩

example : sizeFitsAsList 100 [2, 3, 4] = some 3 ∧ (100 : Nat) < 2 ^ [2, 3, 4].sum := by decide

/-- The histogram has one entry per bit length up to the largest and counts exactly; `Nat.log2 v + 1`
is the bit length of `v` (1 for zero). -/
theorem C14_bitLengthFrequencies (l : List Nat) (hl : ∀ v ∈ l, v < 2 ^ 63) :
    ∃ map, bitLengthFrequencies l = some map ∧
      (∀ v ∈ l, Nat.log2 v + 1 ≤ map.length) ∧ (map.length = 0 ∨ ∃ v ∈ l, Nat.log2 v + 1 = map.length) ∧
      ∀ k (h : k < map.length), map[k] = (l.filter fun v => Nat.log2 v + 1 == k + 1).length := by
  obtain ⟨map, h, i⟩ := blf_hist l hl
  refine ⟨map, h, i.2.1, i.2.2.1, ?_⟩
  intro k hk
  have := i.2.2.2 k hk
  rw [List.countP_eq_length_filter] at this
  simpa [List.getD_eq_getElem?_getD, hk, bitLen] using this

/-- Entry `k` of the cumulative list is the number of elements of bit length greater than `k`; the
counter is an `int`, hence the bound on the number of elements. -/
theorem C14_cumulative (l : List Nat) (hl : ∀ v ∈ l, v < 2 ^ 63) (hn : l.length < 2 ^ 31) :
    ∃ cf, cumulativeFrequencyList l = some cf ∧
      (∀ v ∈ l, Nat.log2 v + 1 ≤ cf.length) ∧ (cf.length = 0 ∨ ∃ v ∈ l, Nat.log2 v + 1 = cf.length) ∧
      ∀ k (h : k < cf.length), cf[k] = (l.filter fun v => decide (k < Nat.log2 v + 1)).length := by
  obtain ⟨map, h, i⟩ := blf_hist l hl
  have h0 := hist_drop_sum l map i map.length 0 (by omega)
  have hs : map.sum < 2 ^ 31 := by
    rw [List.drop_zero] at h0
    rw [h0]
    have := List.countP_le_length (p := fun v => decide (0 < bitLen v)) (l := l)
    omega
  obtain ⟨c1, c2, c3⟩ := cumLoop_spec map hs
  refine ⟨(cumLoop map).2, by simp [cumulativeFrequencyList, h], by rw [c2]; exact i.2.1, by rw [c2]; exact i.2.2.1, ?_⟩
  intro k hk
  have := c3 k (by omega)
  rw [hist_drop_sum l map i (map.length - k) k (by omega), List.countP_eq_length_filter] at this
  rw [List.getD_eq_getElem?_getD, List.getElem?_eq_getElem hk, Option.getD_some] at this
  rw [this]
  rfl

example := C14_cumulative [3, 700, 0, 66000, 5] (by decide) (by decide)
example := C14_bitLengthFrequencies [3, 700, 0, 66000, 5] (by decide)

example : bitLengthFrequencies [5, 0, 1, 9, 7] = some [2, 0, 2, 1] ∧
    cumulativeFrequencyList [5, 0, 1, 9, 7] = some [5, 3, 3, 1] := by decide +kernel

/-! ### C15 -/

/-- The widths are positive, sum to the largest bit length and there are at most `max(max_levels, 2)`
of them, for every cost function and every tie breaking of the sort. Missing: the code also executes
an out of bounds read and write (see the refutation below), which this theorem takes as harmless;
and for `max_levels` below 2 the bound is 2. -/
theorem C15_split_partial (srt : List (Nat × Nat) → List (Nat × Nat)) (hsrt : ∀ l, (srt l).Perm l)
    (cost : Nat → Nat) (maxLevels : Nat) (l : List Nat) (hne : l ≠ []) (hl : ∀ v ∈ l, v < 2 ^ 63)
    (hn : l.length < 2 ^ 31) :
    ∃ r, splitPositions srt cost maxLevels l = some r ∧ (∀ x ∈ r, 0 < x) ∧
      (∀ v ∈ l, Nat.log2 v + 1 ≤ r.sum) ∧ (∃ v ∈ l, Nat.log2 v + 1 = r.sum) ∧
      r.length ≤ max maxLevels 2 := by
  obtain ⟨cf, h1, h2, h3, h4⟩ := C14_cumulative l hl hn
  have hcf : 0 < cf.length := by
    obtain ⟨v, hv⟩ := List.exists_mem_of_ne_nil l hne
    have := h2 v hv
    omega
  have h3' : ∃ v ∈ l, Nat.log2 v + 1 = cf.length := by
    rcases h3 with h3 | h3
    · omega
    · exact h3
  obtain ⟨hs, hg⟩ := dpTable_spec cost cf
  obtain ⟨f1, f2⟩ := follow_spec (dpTable cost cf) (cf.length - 1) hg _ 0 (Nat.zero_le _) rfl
  have hlen := follow_length (dpTable cost cf).b ((dpTable cost cf).l.getD 0 0) 0
  have hsum : (follow (dpTable cost cf).b ((dpTable cost cf).l.getD 0 0) 0).sum = cf.length := by omega
  unfold splitPositions
  rw [if_neg hne, h1]
  simp only [Option.bind_eq_bind, Option.bind_some]
  by_cases hc : (dpTable cost cf).l.getD 0 0 > maxLevels
  · rw [if_pos hc]
    obtain ⟨r1, r2, r3⟩ := reduceLevels_spec srt hsrt cf hcf _ maxLevels _ f2 hlen hsum
    refine ⟨_, rfl, r2, ?_, ?_, r3⟩
    · rw [r1]; exact h2
    · rw [r1]; exact h3'
  · rw [if_neg hc]
    refine ⟨_, rfl, f2, ?_, ?_, ?_⟩
    · rw [hsum]; exact h2
    · rw [hsum]; exact h3'
    · rw [hlen]; omega

example := C15_split_partial id (fun _ => List.Perm.refl _) (fun k => k / 4) 3 [1, 2, 200, 3, 1000] (by decide) (by decide) (by decide)

/-- Every call with a non-empty list runs into undefined behaviour (the loop over `k <= L`). -/
theorem C15_split_refuted (srt : List (Nat × Nat) → List (Nat × Nat)) (cost : Nat → Nat) (maxLevels : Nat)
    (l : List Nat) (hne : l ≠ []) : splitPositionsStrict srt cost maxLevels l = none := by
  unfold splitPositionsStrict
  rw [if_neg hne]
  cases h : cumulativeFrequencyList l with
  | none => rfl
  | some cf =>
    obtain ⟨hs, hg⟩ := dpTable_spec cost cf
    have := followStrict_none (dpTable cost cf) (cf.length - 1) hs hg _ 0 0
      (List.replicate ((dpTable cost cf).l.getD 0 0) 0) (Nat.zero_le _) rfl
    simp only [Option.bind_eq_bind, Option.bind_some, this, Option.bind_none]

example : splitPositions id (fun _ => 0) 8 [1, 2, 200, 3, 1000] = some [1, 1, 1, 1, 1, 1, 1, 3] ∧
    splitPositions id (fun _ => 0) 3 [1, 2, 200, 3, 1000] = some [1, 1, 8] ∧
    splitPositions id (fun _ => 1000) 3 [1, 2, 200, 3, 1000] = some [10] ∧
    splitPositions id (fun _ => 0) 1 [1, 2, 200, 3, 1000, 512, 300] = some [9, 1] := by decide +kernel

end Verif.Calc
