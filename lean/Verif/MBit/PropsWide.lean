/-
Property theorem C30 for values that are too wide (builds without assertions).
-/
import Verif.MBit.Props

namespace Verif.MBit
open Verif.Bits Verif.Serial

/-- Writing any value into field `m` of a word: the low bits go there, the others are or-ed into the fields
behind it. -/
theorem fv_write_any {S : Nat} (hS : S = 1 ∨ S = 2 ∨ S = 3) (w : W64) (m k x : Nat) (hk : k < per S) :
    fv S ((w &&& ~~~(kMask S <<< (S * m))) ||| (BitVec.ofNat 64 x <<< (S * m))) k =
      if k = m then x % 2 ^ S else if m < k then fv S w k ||| (x >>> (S * (k - m))) % 2 ^ S else fv S w k := by
  have hb : S * per S ≤ 64 := by rcases hS with rfl | rfl | rfl <;> decide
  have hin : S * k + S ≤ 64 := by
    have := Nat.mul_le_mul_left S (show k + 1 ≤ per S by omega)
    rw [Nat.mul_add] at this
    omega
  apply Nat.eq_of_testBit_eq
  intro b
  rw [fv_testBit hS]
  by_cases hbS : b < S
  · have h64 : S * k + b < 64 := by omega
    rw [BitVec.getLsbD_or, BitVec.getLsbD_and, BitVec.getLsbD_not, BitVec.getLsbD_shiftLeft, BitVec.getLsbD_shiftLeft, kMask_bit hS,
      BitVec.getLsbD_ofNat]
    by_cases hkm : k = m
    · subst hkm
      have h1 : ¬ (S * k + b < S * k) := by omega
      have h2 : S * k + b - S * k = b := by omega
      have h3 : b < 64 := by omega
      rw [h2]
      simp [hbS, h64, h1, h3]
    · rw [if_neg hkm]
      rcases Nat.lt_or_gt_of_ne hkm with h | h
      · rw [if_neg (by omega), fv_testBit hS]
        have h1 : S * k + b < S * m := by
          have := Nat.mul_le_mul_left S (show k + 1 ≤ m by omega)
          rw [Nat.mul_add] at this; omega
        simp [hbS, h64, h1]
      · have hsm : S * m + S ≤ S * k := by
          have := Nat.mul_le_mul_left S (show m + 1 ≤ k by omega)
          rw [Nat.mul_add] at this; omega
        rw [if_pos h, Nat.testBit_or, fv_testBit hS]
        have h1 : ¬ S * k + b < S * m := by omega
        have h2 : ¬ S * k + b - S * m < S := by omega
        have h3 : S * k + b - S * m < 64 := by omega
        have h4 : S * (k - m) + b = S * k + b - S * m := by rw [Nat.mul_sub]; omega
        simp [hbS, h64, h1, h2, h3, Nat.testBit_mod_two_pow, Nat.testBit_shiftRight, h4]
  · have h0 : ∀ y, y < 2 ^ S → y.testBit b = false := fun y hy =>
      Nat.testBit_lt_two_pow (Nat.lt_of_lt_of_le hy (Nat.pow_le_pow_right (by decide) (by omega)))
    have hS3 : S ≤ 3 := by omega
    have hp := Nat.two_pow_pos S
    split
    · rw [h0 _ (Nat.mod_lt _ hp)]; simp [hbS]
    · split
      · rw [Nat.testBit_or, h0 _ (fv_lt S hS3 w k), h0 _ (Nat.mod_lt _ hp)]; simp [hbS]
      · rw [h0 _ (fv_lt S hS3 w k)]; simp [hbS]

/-- C30 for any value of type `uint8_t` (the assertion on the value is not evaluated in release builds), for any
object: element `i` becomes the low `S` bits of the value; the other bits are or-ed, `S` at a time, into the
elements behind `i` up to the end of its word of `64 / S` elements; everything else is as if the low bits
alone had been set. -/
theorem C30_any_value (S : Nat) (hS : S = 1 ∨ S = 2 ∨ S = 3) (v : MBV) (i x : Nat) :
    ∃ v', v.set S i x = some v' ∧ ∀ j, v'.get S j = (specStep S (v.get S) (.set i (x % 2 ^ S)) j).map fun y =>
      if i < j ∧ j / (64 / S) = i / (64 / S) then y ||| (x >>> (S * (j - i))) % 2 ^ S else y := by
  have hp := per_pos hS
  obtain ⟨u, eu, ht, hl, he⟩ := set_spec hS v i (x % 2 ^ S) (Nat.mod_lt _ (Nat.two_pow_pos S))
  have hspec : ∀ j, u.get S j = specStep S (v.get S) (.set i (x % 2 ^ S)) j := by
    intro j
    -- the part of `step_ok` about `set` does not look at the tips
    have hr : ∃ t : List (List Tip), t.length = 2 ^ S := ⟨List.replicate (2 ^ S) [], List.length_replicate⟩
    obtain ⟨t, htl⟩ := hr
    obtain ⟨u', e', _, g⟩ := step_ok hS ⟨v.words, t⟩ (.set i (x % 2 ^ S)) (Nat.mod_lt _ (Nat.two_pow_pos S)) htl
    obtain ⟨u2, e2, _, hl2, he2⟩ := set_spec hS ⟨v.words, t⟩ i (x % 2 ^ S) (Nat.mod_lt _ (Nat.two_pow_pos S))
    have e3 : u2 = u' := Option.some.inj (e2.symm.trans e')
    subst e3
    have h1 := g j
    have h2 : (⟨v.words, t⟩ : MBV).get S = v.get S := rfl
    rw [h2] at h1
    rw [← h1, get_spec hS, get_spec hS, hl, hl2, he, he2]
  unfold MBV.set
  have ha : absI S i = i / per S := rfl
  rw [ha, relI_eq hS]
  unfold MBV.set at eu
  rw [ha, relI_eq hS] at eu
  generalize hv1 : (if i / per S < v.words.length then v else v.resize S i) = v1 at eu ⊢
  have hlt : i / per S < v1.words.length := by
    subst hv1
    split
    · assumption
    · show i / per S < (Verif.vresize v.words (i / per S + 1) 0#64).length
      rw [Verif.vresize_length]; omega
  simp only [List.getElem?_eq_getElem hlt, Option.bind_eq_bind, Option.bind_some, Option.pure_def] at eu ⊢
  unfold Verif.wr at eu ⊢
  rw [if_pos hlt] at eu ⊢
  simp only [Option.bind_some, Option.some.injEq] at eu
  refine ⟨_, rfl, fun j => ?_⟩
  rw [← hspec j, get_spec hS, get_spec hS, ← eu]
  simp only [List.length_set]
  by_cases hj : j < per S * v1.words.length
  · rw [if_pos hj, if_pos hj, Option.map_some]
    congr 1
    unfold elem
    rw [List.getD_eq_getElem?_getD, List.getD_eq_getElem?_getD, List.getElem?_set, List.getElem?_set, ← per_eq hS]
    by_cases hq : i / per S = j / per S
    · rw [if_pos hq, if_pos hlt, if_pos hq, if_pos hlt]
      simp only [Option.getD_some]
      rw [fv_write_any hS _ _ _ _ (Nat.mod_lt _ hp), fv_write hS _ _ _ _ (Nat.mod_lt _ hp) (Nat.mod_lt _ hp) (Nat.mod_lt _ (Nat.two_pow_pos S))]
      have h1 := Nat.div_add_mod i (per S)
      have h2 := Nat.div_add_mod j (per S)
      rw [hq] at h1
      by_cases hij : j % per S = i % per S
      · rw [if_pos hij, if_pos hij, if_neg (by omega)]
      · rw [if_neg hij, if_neg hij]
        by_cases hlt' : i % per S < j % per S
        · rw [if_pos hlt', if_pos (by constructor <;> omega), show j % per S - i % per S = j - i by omega]
        · rw [if_neg hlt', if_neg (by omega)]
    · rw [if_neg hq, if_neg hq, if_neg (fun h => hq h.2.symm)]
  · rw [if_neg hj, if_neg hj]; rfl

/-- Setting element 1 of a vector of 2 bits per element to 13: it reads 1, and the 3 that is left over goes into
element 2. -/
example : (((empty 2).set 2 2 0).bind fun v => v.set 2 1 13).map (fun v => (v.get 2 0, v.get 2 1, v.get 2 2, v.get 2 3)) =
    some (some 0, some 1, some 3, some 0) := by decide +kernel

end Verif.MBit
