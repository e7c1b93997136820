/-
Property theorems C26 for `std::vector<T>` with a signed `T`: `std::max_element` compares the signed values, `SizeFitsInBits` and `push_back`
convert them to 64 bit unsigned ones.
-/
import Verif.Fit.PropsWide

namespace Verif.Fit
open Verif.Bits Verif.BV

/-- `FitVector(const std::vector<T>&)` for an integer type `T` of at most 64 bits, FitVector.hpp:69-85 (`*std::max_element` is the maximum in
the order of `T`; `calc::SizeFitsInBits(unsigned long long)`, calc.hpp:33, and `static_cast<value_type>`, FitVector.hpp:74, reduce modulo
2^64). -/
def ofVectorInt : List Int → Option FVec
  | [] => new 0
  | a :: l => do
    let w ← Calc.sizeFitsInBits (l.foldl max a % 2 ^ 64).toNat
    let v ← new w
    pushAll ((a :: l).map fun x => (x % 2 ^ 64).toNat) v

theorem pushBack_any (v : FVec) (w : Nat) (h : WF v w) (x : Nat) (hx : x < 2 ^ 64) :
    ∃ v', v.pushBack x = some v' ∧ WF v' w ∧ elems v' w = elems v w ++ [x % 2 ^ w] := by
  obtain ⟨w1, t1, _⟩ := resize_spec v w h (v.size + 1)
  have hs : (v.resize (v.size + 1)).size = v.size + 1 := rfl
  have hpb : v.pushBack x = (v.resize (v.size + 1)).set v.size x := rfl
  generalize v.resize (v.size + 1) = u at *
  have hsl := slot_le w (show v.size < u.size by omega)
  have hnd := need_le u.size w
  rw [← w1.len] at hnd
  obtain ⟨ws, e, hl, hbits⟩ := wrBits_any u.words (v.size * w) w u.mask w1.mask h.pos h.le (by omega) x hx
  refine ⟨{ u with words := ws }, ?_, ⟨w1.width, w1.pos, w1.le, w1.mask, by rw [← w1.len]; exact hl⟩, ?_⟩
  · rw [hpb]
    simp [FVec.set, w1.width, e]
  · apply List.ext_getElem?
    intro i
    have ht : (elems v w).take (v.size + 1) = elems v w := List.take_of_length_le (by rw [elems_length]; omega)
    rw [ht] at t1
    rw [List.getElem?_append, elems_length]
    by_cases hi : i < v.size
    · rw [if_pos hi, ← t1, List.getElem?_take, if_pos hi, elems_getElem? _ _ _ (by show i < u.size; omega),
        elems_getElem? _ _ _ (by omega)]
      congr 1
      apply valAt_congr
      intro k hk
      have := slot_le w hi
      show bitAt ws _ = _
      rw [hbits, if_neg (by omega), decide_eq_false (by omega)]
      simp
    · rw [if_neg hi]
      by_cases hi2 : i = v.size
      · subst hi2
        rw [elems_getElem? _ _ _ (by show v.size < u.size; omega)]
        simp only [Nat.sub_self, List.getElem?_cons_zero]
        congr 1
        apply valAt_eq _ _ _ _ (Nat.mod_lt _ (Nat.pow_pos (by decide)))
        intro k hk
        show bitAt ws _ = _
        rw [hbits, if_pos (by omega), Nat.testBit_mod_two_pow, decide_eq_true hk, Bool.true_and]
        congr 1; omega
      · rw [List.getElem?_eq_none (by rw [elems_length]; show u.size ≤ i; omega), List.getElem?_eq_none (by simp; omega)]

theorem pushAll_any (w : Nat) : ∀ (l : List Nat) (v : FVec), WF v w → (∀ x ∈ l, x < 2 ^ 64) →
    ∃ v', pushAll l v = some v' ∧ WF v' w ∧ elems v' w = elems v w ++ l.map (· % 2 ^ w)
  | [], v, h, _ => ⟨v, rfl, h, by simp⟩
  | x :: l, v, h, hx => by
    obtain ⟨v1, e1, w1, l1⟩ := pushBack_any v w h x (hx x (by simp))
    obtain ⟨v2, e2, w2, l2⟩ := pushAll_any w l v1 w1 (fun y hy => hx y (by simp [hy]))
    refine ⟨v2, ?_, w2, by rw [l2, l1]; simp⟩
    simp only [pushAll, e1, Option.bind_eq_bind, Option.bind_some]; exact e2

theorem foldl_max_int (l : List Int) : ∀ a, a ≤ l.foldl max a ∧ (∀ x ∈ l, x ≤ l.foldl max a) ∧ l.foldl max a ∈ a :: l := by
  induction l with
  | nil => intro a; simp
  | cons b l ih =>
    intro a
    obtain ⟨h1, h2, h3⟩ := ih (max a b)
    rw [List.foldl_cons]
    refine ⟨by omega, ?_, ?_⟩
    · intro x hx
      rcases List.mem_cons.mp hx with rfl | hx
      · omega
      · exact h2 x hx
    · rcases List.mem_cons.mp h3 with h | h
      · rw [h]
        rcases Int.le_total a b with h' | h'
        · rw [Int.max_eq_right h']; simp
        · rw [Int.max_eq_left h']; simp
      · simp [h]

/-- C26 for integers: as soon as some value is not negative, the width is the least one that can hold the greatest value, and every element
is its value modulo `2^width`. So values that are not negative come back, negative values do not. -/
theorem C26_ints (l : List Int) (hl : ∀ x ∈ l, -2 ^ 63 ≤ x ∧ x < 2 ^ 63) (b : Int) (hb : b ∈ l) (hb0 : 0 ≤ b) :
    ∃ v, ofVectorInt l = some v ∧ v.size = l.length ∧ 1 ≤ v.width ∧ (∀ x ∈ l, x < 2 ^ v.width) ∧
      (∀ w', 1 ≤ w' → (∀ x ∈ l, x < 2 ^ w') → v.width ≤ w') ∧
      ∀ i x, l[i]? = some x → v.get i = some (x % 2 ^ v.width).toNat := by
  cases l with
  | nil => simp at hb
  | cons a l =>
    obtain ⟨h1, h2, h3⟩ := foldl_max_int l a
    have hmax : ∀ x ∈ a :: l, x ≤ l.foldl max a := by
      intro x hx
      rcases List.mem_cons.mp hx with rfl | hx
      · exact h1
      · exact h2 x hx
    have hm := hl _ h3
    have hbm := hmax b hb
    generalize hM : l.foldl max a = M at *
    obtain ⟨m, rfl⟩ : ∃ m : Nat, M = m := ⟨M.toNat, by omega⟩
    have hmod : ((m : Int) % 2 ^ 64).toNat = m := by omega
    have hm63 : m < 2 ^ 63 := by omega
    obtain ⟨w, e, p1, p2, p3, p4⟩ := minimal_spec [m] (by simp) (by simpa using hm63)
    have e' : Calc.sizeFitsInBits m = some w := by simpa [minimalWordSize] using e
    obtain ⟨v0, e0, w0, l0, _⟩ := new_spec w p1 p2
    obtain ⟨v, e1, w1, l1⟩ := pushAll_any w ((a :: l).map fun x => (x % 2 ^ 64).toNat) v0 w0 (by
      intro x hx
      obtain ⟨y, _, rfl⟩ := List.mem_map.mp hx
      omega)
    rw [l0, List.nil_append] at l1
    have hlen : v.size = (a :: l).length := by
      have := congrArg List.length l1
      rw [elems_length, List.length_map, List.length_map] at this
      exact this
    have hlt : m < 2 ^ w := p3 m (by simp)
    refine ⟨v, ?_, hlen, by rw [w1.width]; exact p1, ?_, ?_, ?_⟩
    · simp only [ofVectorInt, hM, hmod, e', e0, Option.bind_eq_bind, Option.bind_some]
      exact e1
    · intro x hx
      rw [w1.width]
      have := hmax x hx
      have h2 : ((m : Int)) < ((2 ^ w : Nat) : Int) := by exact_mod_cast hlt
      rw [Int.natCast_pow] at h2
      exact Int.lt_of_le_of_lt this h2
    · intro w' h1' hall
      rw [w1.width]
      have := hall _ h3
      have h2 : m < 2 ^ w' := by exact_mod_cast this
      rcases p4 with p4 | ⟨x, hx, p4⟩
      · omega
      · simp only [List.mem_singleton] at hx
        subst hx
        by_contra hcon
        have := Nat.pow_le_pow_right (show 0 < 2 by decide) (show w' ≤ w - 1 by omega)
        omega
    · intro i x hx
      have hi : i < v.size := by
        rw [hlen]
        exact (List.getElem?_eq_some_iff.mp hx).1
      rw [get_spec v w w1 i hi, l1, List.getElem?_map, List.getElem?_map, hx, w1.width]
      simp only [Option.map_some, Option.some.injEq]
      have hp : (2 : Int) ^ w ∣ 2 ^ 64 := by exact_mod_cast Nat.pow_dvd_pow 2 (show w ≤ 64 by omega)
      have hnn : 0 ≤ x % 2 ^ 64 := Int.emod_nonneg _ (by decide)
      have hp0 : (0 : Int) < 2 ^ w := Int.pow_pos (by decide)
      rw [← Int.emod_emod_of_dvd x hp]
      generalize x % 2 ^ 64 = y at hnn ⊢
      rw [Int.toNat_emod hnn (Int.le_of_lt hp0)]
      congr 1

/-- C26, the domain: a vector of negative values only makes the width computation undefined. -/
theorem C26_negative_ub (l : List Int) (hne : l ≠ []) (hl : ∀ x ∈ l, -2 ^ 63 ≤ x ∧ x < 0) : ofVectorInt l = none := by
  cases l with
  | nil => simp at hne
  | cons a l =>
    obtain ⟨h1, h2, h3⟩ := foldl_max_int l a
    have hm := hl _ h3
    have : Calc.sizeFitsInBits (l.foldl max a % 2 ^ 64).toNat = none := by
      apply Calc.sizeFitsLoop_none _ 1 (by decide) _ 64 0 (by decide)
      intro k hk
      have := Nat.pow_le_pow_right (show 0 < 2 by decide) (show k * 1 ≤ 63 by omega)
      omega
    simp only [ofVectorInt, this, Option.bind_eq_bind, Option.bind_none]

example := C26_ints [3, -1, 700, -5] (by decide) 3 (by decide) (by decide)
example := C26_negative_ub [-3, -1] (by decide) (by decide)

/-- Of 3, -1, 4 the FitVector keeps 3, 7, 4. -/
example : (ofVectorInt [3, -1, 4]).map (fun v => (v.width, v.get 0, v.get 1, v.get 2)) = some (3, some 3, some 7, some 4) := by decide +kernel

end Verif.Fit
