/-
Property theorems C71 (iterators of DacVector).
-/
import Verif.Dac.Iter
import Verif.Dac.Props

namespace Verif.Dac

theorem move_one (pos : Nat) (h : pos < 2 ^ 63) : move pos 1 = pos + 1 := by
  unfold move; omega

theorem move_back (pos : Nat) (h : pos + 1 < 2 ^ 63) : move (pos + 1) (-1) = pos := by
  unfold move; omega

theorem range_spec (d : Dac) (list : List Nat) (hn : list.length < 2 ^ 63) (hg : ∀ i, i < list.length → d.get i = list[i]?) :
    ∀ fuel pos, pos ≤ list.length → list.length - pos ≤ fuel → d.range fuel pos list.length = some (list.drop pos) := by
  intro fuel
  induction fuel with
  | zero =>
    intro pos h1 h2
    have : pos = list.length := by omega
    subst this
    simp [Dac.range]
  | succ fuel ih =>
    intro pos h1 h2
    unfold Dac.range
    by_cases he : pos = list.length
    · rw [if_pos he, he, List.drop_length]
    · have hp : pos < list.length := by omega
      rw [if_neg he, Dac.deref, hg pos hp, List.getElem?_eq_getElem hp, move_one pos (by omega)]
      simp only [Option.bind_eq_bind, Option.bind_some]
      rw [ih (pos + 1) (by omega) (by omega), List.drop_eq_getElem_cons hp]
      rfl

theorem rangeBack_spec (d : Dac) (list : List Nat) (hn : list.length < 2 ^ 63) (hg : ∀ i, i < list.length → d.get i = list[i]?) :
    ∀ fuel pos, pos ≤ list.length → pos ≤ fuel → d.rangeBack fuel pos = some (list.take pos).reverse := by
  intro fuel
  induction fuel with
  | zero =>
    intro pos h1 h2
    have : pos = 0 := by omega
    subst this
    simp [Dac.rangeBack]
  | succ fuel ih =>
    intro pos h1 h2
    unfold Dac.rangeBack
    by_cases he : pos = 0
    · rw [if_pos he, he]; rfl
    · obtain ⟨p, rfl⟩ : ∃ p, pos = p + 1 := ⟨pos - 1, by omega⟩
      have hp : p < list.length := by omega
      rw [if_neg he, move_back p (by omega), Dac.deref, hg p hp, List.getElem?_eq_getElem hp]
      simp only [Option.bind_eq_bind, Option.bind_some]
      rw [ih p (by omega) (by omega), List.take_succ_eq_append_getElem hp, List.reverse_append]
      rfl

/-- The loops over a vector visit its elements in order, forwards and backwards, and end; a jump by any distance that stays inside arrives at that
element, and the difference of two iterators is their distance. -/
theorem C71_iterate (split : List Nat → Option (List Nat)) (list units : List Nat) (hne : list ≠ []) (hl : ∀ v ∈ list, v < 2 ^ 63)
    (hn : list.length < 2 ^ 31) (hu : UnitsOk list units) :
    ∃ d, make split list units = some d ∧ (∀ fuel, list.length ≤ fuel → d.visit fuel = some list ∧ d.visitBack fuel = some list.reverse) ∧
      (∀ i j, i ≤ list.length → j < list.length → d.deref (move i (j - i : Int)) = list[j]?) ∧
      (∀ i j, i ≤ list.length → j ≤ list.length → distance j i = j - i) ∧
      d.front = list.head? ∧ d.back = list.getLast? := by
  obtain ⟨d, e, hs, hg, -⟩ := C32_values split list units hne hl hn hu
  have hpos := List.length_pos_iff.2 hne
  refine ⟨d, e, ?_, ?_, ?_, ?_, ?_⟩
  · intro fuel hf
    unfold Dac.visit Dac.visitBack
    rw [hs]
    simp only [Option.bind_eq_bind, Option.bind_some]
    rw [range_spec d list (by omega) hg fuel 0 (by omega) (by omega), rangeBack_spec d list (by omega) hg fuel list.length (by omega) hf,
      List.drop_zero, List.take_length]
    exact ⟨rfl, rfl⟩
  · intro i j hi hj
    have : move i (j - i : Int) = j := by unfold move; omega
    rw [this]
    exact hg j hj
  · intro i j hi hj
    unfold distance
    rw [BitVec.toInt_eq_toNat_cond, BitVec.toNat_ofNat]
    split <;> omega
  · unfold Dac.front
    rw [hg 0 hpos, List.head?_eq_getElem?]
  · unfold Dac.back
    rw [hs]
    simp only [Option.bind_eq_bind, Option.bind_some]
    rw [hg _ (by omega), List.getLast?_eq_getElem?]

example : (make (fun _ => none) [3, 700, 0, 66000, 5] [4, 5, 8]).bind (fun d => d.visit 9) = some [3, 700, 0, 66000, 5] := by decide +kernel
example : UnitsOk [3, 700, 0, 66000, 5] [4, 5, 8] := by
  refine ⟨by decide, by decide, by decide, 66000, by decide, ?_⟩
  decide +kernel

end Verif.Dac
