/-
Property theorems C32 at the end of the domain: values of 64 bits, and `std::vector<T>` with a signed `T`.
-/
import Verif.Dac.Props

namespace Verif.Dac
open Verif.Bits

/-- `DacVector(vector, unit_bit_list)` for an integer type `T` of at most 64 bits, DacVector.hpp:248-296: the values are converted to unsigned
ones of 64 bits where they are used, calc.hpp:49 and DacVector.hpp:279. The conversion is made before here. -/
def makeInt (split : List Nat → Option (List Nat)) (list : List Int) (units : List Nat) : Option Dac :=
  make split (list.map fun x => (x % 2 ^ 64).toNat) units

theorem blfLoop_none : ∀ (l : List Nat) (st : List Nat × Nat) (x : Nat), x ∈ l → 2 ^ 63 ≤ x → Calc.blfLoop l st = none
  | y :: l, st, x, hx, hle => by
    unfold Calc.blfLoop
    rcases List.mem_cons.mp hx with rfl | hx
    · have : Calc.sizeFitsInBits x = none := by
        apply Calc.sizeFitsLoop_none _ 1 (by decide) _ 64 0 (by decide)
        intro k hk
        have := Nat.pow_le_pow_right (show 0 < 2 by decide) (show k * 1 ≤ 63 by omega)
        omega
      simp only [Calc.blfStep, this, Option.bind_eq_bind, Option.bind_none]
    · cases Calc.blfStep st y with
      | none => rfl
      | some st' => exact blfLoop_none l st' x hx hle

/-- C32, the domain: one value of 64 bits makes the construction undefined, whatever the widths of the layers are and however they are found. -/
theorem C32_large_ub (split : List Nat → Option (List Nat)) (list units : List Nat) (x : Nat) (hx : x ∈ list) (hle : 2 ^ 63 ≤ x) :
    make split list units = none := by
  have hne : list ≠ [] := by rintro rfl; simp at hx
  have hcf : Calc.cumulativeFrequencyList list = none := by
    simp [Calc.cumulativeFrequencyList, Calc.bitLengthFrequencies, blfLoop_none list _ x hx hle]
  have hof : ∀ us, ofUnits list us = none := by
    intro us
    unfold ofUnits
    rw [if_neg hne, hcf]
    cases newLayers us <;> rfl
  unfold make
  rw [if_neg hne]
  split
  · cases split list with
    | none => rfl
    | some us => exact hof us
  · exact hof units

/-- C32 for integers: values that are not negative come back. -/
theorem C32_ints (split : List Nat → Option (List Nat)) (list : List Int) (units : List Nat) (hne : list ≠ []) (hl : ∀ x ∈ list, 0 ≤ x ∧ x < 2 ^ 63)
    (hn : list.length < 2 ^ 31) (hu : UnitsOk (list.map Int.toNat) units) :
    ∃ d, makeInt split list units = some d ∧ d.size = some list.length ∧ ∀ i x, list[i]? = some x → (d.get i).map Int.ofNat = some x := by
  have hm : (list.map fun x => (x % 2 ^ 64).toNat) = list.map Int.toNat := by
    apply List.map_congr_left
    intro x hx
    have := hl x hx
    congr 1; omega
  obtain ⟨d, e, s1, s2, _⟩ := C32_values split (list.map Int.toNat) units (by simpa using hne) (by
    intro v hv
    obtain ⟨x, hx, rfl⟩ := List.mem_map.mp hv
    have := hl x hx
    omega) (by rwa [List.length_map]) hu
  refine ⟨d, by rw [makeInt, hm]; exact e, by rw [s1, List.length_map], fun i x hx => ?_⟩
  have hi := (List.getElem?_eq_some_iff.mp hx).1
  rw [s2 i (by rwa [List.length_map]), List.getElem?_map, hx]
  exact congrArg some (Int.toNat_of_nonneg (hl x (List.mem_of_getElem? hx)).1)

/-- C32, the domain: one negative value makes the construction undefined. -/
theorem C32_negative_ub (split : List Nat → Option (List Nat)) (list : List Int) (units : List Nat) (x : Int) (hx : x ∈ list) (h1 : -2 ^ 63 ≤ x)
    (h2 : x < 0) : makeInt split list units = none :=
  C32_large_ub split _ units _ (List.mem_map_of_mem hx) (by omega)

example := C32_large_ub (fun _ => none) [3, 2 ^ 63 + 1] [4, 60] (2 ^ 63 + 1) (by decide) (by decide)
example := C32_ints (fun _ => none) [3, 700, 0, 66000, 5] [4, 5, 8] (by decide) (by decide) (by decide) ⟨by decide, by decide, by decide, 66000, by decide, by decide +kernel⟩
example := C32_negative_ub (fun _ => none) [3, -1] [4, 60] (-1) (by decide) (by decide) (by decide)

end Verif.Dac
