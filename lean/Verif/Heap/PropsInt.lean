/-
Property theorems C40 for containers of signed values: the constructor stores them as `id_type`.
-/
import Verif.Heap.Props

namespace Verif.Heap

/-- `Heap(const std::vector<T>)` and `Heap(begin, end)` for an integer type `T`, Heap.hpp:23-40: `push_back(v)` converts to `id_type`. -/
def buildInt (asc : Bool) (l : List Int) : Option (List Nat) := build asc (l.map fun x => (x % 2 ^ 64).toNat)

/-- C40: integers, also negative ones, come out ordered by their values modulo `2^64`. -/
theorem C40_ints (asc : Bool) (l : List Int) :
    ∃ h xs, buildInt asc l = some h ∧ drain asc l.length h = some (xs, []) ∧ xs.Perm (l.map fun x => (x % 2 ^ 64).toNat) ∧
      xs.Pairwise (fun a b => if asc then a ≤ b else b ≤ a) := by
  obtain ⟨h, xs, e, d, p, q⟩ := C40_drain asc (l.map fun x => (x % 2 ^ 64).toNat)
  rw [List.length_map] at d
  exact ⟨h, xs, e, d, p, q⟩

/-- C40: integers that are not negative come out as they are, in their order. -/
theorem C40_ints_nonneg (asc : Bool) (l : List Int) (hl : ∀ x ∈ l, 0 ≤ x ∧ x < 2 ^ 64) :
    ∃ h xs, buildInt asc l = some h ∧ drain asc l.length h = some (xs, []) ∧ (xs.map Int.ofNat).Perm l ∧
      (xs.map Int.ofNat).Pairwise (fun a b => if asc then a ≤ b else b ≤ a) := by
  obtain ⟨h, xs, e, d, p, q⟩ := C40_ints asc l
  refine ⟨h, xs, e, d, ?_, ?_⟩
  · have := p.map Int.ofNat
    rw [List.map_map] at this
    have hid : l.map (Int.ofNat ∘ fun x => (x % 2 ^ 64).toNat) = l := by
      refine (List.map_congr_left fun x hx => ?_).trans (List.map_id _)
      obtain ⟨h0, h1⟩ := hl x hx
      show Int.ofNat (x % 2 ^ 64).toNat = x
      rw [Int.emod_eq_of_lt h0 h1]
      exact Int.toNat_of_nonneg h0
    rwa [hid] at this
  · rw [List.pairwise_map]
    refine q.imp fun {a b} hab => ?_
    cases asc with
    | true => exact Int.ofNat_le.mpr hab
    | false => exact Int.ofNat_le.mpr hab

/-- C40, the domain: as soon as a container of `int` or `long` has a negative and a non-negative value, the front of the MinHeap is not its
least value (it is below `2^63`, which is no negative value) and the front of the MaxHeap is not its greatest. -/
theorem C40_negative_domain (l : List Int) (hl : ∀ x ∈ l, -2 ^ 63 ≤ x ∧ x < 2 ^ 63) (a b : Int) (ha : a ∈ l) (hb : b ∈ l) (ha0 : a < 0) (hb0 : 0 ≤ b) :
    (∃ h x, buildInt true l = some h ∧ front h = some x ∧ x < 2 ^ 63) ∧ (∃ h x, buildInt false l = some h ∧ front h = some x ∧ 2 ^ 63 ≤ x) := by
  have hpos : 0 < (l.map fun x => (x % 2 ^ 64).toNat).length := by
    rw [List.length_map]; exact List.length_pos_of_mem ha
  have am : (a % 2 ^ 64).toNat ∈ (l.map fun x => (x % 2 ^ 64).toNat) := List.mem_map_of_mem ha
  have bm : (b % 2 ^ 64).toNat ∈ (l.map fun x => (x % 2 ^ 64).toNat) := List.mem_map_of_mem hb
  have ar := hl a ha
  have br := hl b hb
  constructor
  · obtain ⟨h, xs, h', x, e, d, f, hxs, p, _, hmin, _⟩ := C40_front true (l.map fun x => (x % 2 ^ 64).toNat) 0 hpos
    obtain rfl := List.length_eq_zero_iff.mp hxs
    have hh : h = h' := by cases d; rfl
    refine ⟨h, x, e, by rw [hh]; exact f, ?_⟩
    have := hmin _ (p.mem_iff.mpr bm)
    simp only [if_true] at this
    omega
  · obtain ⟨h, xs, h', x, e, d, f, hxs, p, _, hmin, _⟩ := C40_front false (l.map fun x => (x % 2 ^ 64).toNat) 0 hpos
    obtain rfl := List.length_eq_zero_iff.mp hxs
    have hh : h = h' := by cases d; rfl
    refine ⟨h, x, e, by rw [hh]; exact f, ?_⟩
    have := hmin _ (p.mem_iff.mpr am)
    simp only [Bool.false_eq_true, if_false] at this
    omega

example := C40_ints true [3, -1, 7]
example := C40_ints_nonneg false [3, 0, 7] (by decide)
example := C40_negative_domain [3, -1, 7] (by decide) (-1) 3 (by decide) (by decide) (by decide) (by decide)

/-- The MinHeap of 3, -1, 7 shows 3. -/
example : (buildInt true [3, -1, 7]).bind front = some 3 := by decide +kernel

end Verif.Heap
