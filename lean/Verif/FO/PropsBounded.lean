/-
Property theorems C103: how long the construction of the factor oracle may search.
-/
import Verif.FO.Bounded
import Verif.FO.PropsCostBuild
import Verif.FO.Props

namespace Verif.FO
open Verif.PM (Byte)

/-- C103: if the construction for a text of `m` letters without zero bytes ends at all, each search for a place in it ends within `257 m` rounds. -/
theorem C103_bounded (fuel : Nat) (text : List Byte) (hne : text ≠ []) (hnz : ∀ c ∈ text, c ≠ 0#8) (hm : 257 * text.length ≤ 2 ^ 32) (o : Oracle)
    (h : build fuel text = .ok o) : build (257 * text.length) text = .ok o := by
  have hkE : kEmpty = 4294967295 := rfl
  have hpos : 0 < text.length := List.length_pos_iff.2 hne
  have hs := C100_same fuel text
  rw [h] at hs
  have hs' := C100_same (257 * text.length) text
  rw [← hs']
  cases e : buildC fuel text with
  | ub => rw [e] at hs; cases hs
  | stop => rw [e] at hs; cases hs
  | ok r =>
    obtain ⟨o', a, b⟩ := r
    rw [e] at hs
    cases hs
    have hlin := C100_linear fuel text hne hnz o' a b e
    have : buildC (257 * text.length) text = .ok (o', a, b) := by
      unfold buildC at e ⊢
      cases e2 : expandLoop text.length text.length (initial text) with
      | ub => rw [e2] at e; cases e
      | stop => rw [e2] at e; cases e
      | ok s2 =>
        rw [e2] at e
        simp only [ok_bind] at e ⊢
        cases e3 : s2.setNext 0 0 with
        | none => rw [e3] at e; cases e
        | some s3 =>
          rw [e3] at e
          simp only [lift_some, ok_bind] at e ⊢
          obtain ⟨hI, hX⟩ := start_count text hne s2 s3 e2 e3
          obtain ⟨hC, hl⟩ := start_conn text hne s2 s3 e2 e3
          cases e4 : letterLoopC (findBase fuel) text.length 0 (List.replicate (text.length + 1) 0) s3 0 0 with
          | ub => rw [e4] at e; cases e
          | stop => rw [e4] at e; cases e
          | ok r =>
            obtain ⟨s4, l4, a4, b4⟩ := r
            rw [e4] at e
            cases e
            rw [letterLoopC_bounded (257 * text.length) fuel (text.length + 255) (text.length - 1) (by omega) (by omega) text (ck_nz text hnz) text.length 0 _ s3 _ _
              (by omega) hI hX hC 0 0 (by omega) _ _ _ _ e4 (by have := hlin.1; simp only at this; omega)]
            rfl
    rw [this]
    rfl

example : ∃ o, build (257 * 4) [97#8, 98#8, 98#8, 97#8] = .ok o := by
  obtain ⟨o, h, _⟩ := C53_two_letters [97#8, 98#8, 98#8, 97#8] 97#8 98#8 (by decide) (by decide) (by decide) (by decide)
  exact ⟨o, C103_bounded _ [97#8, 98#8, 98#8, 97#8] (by decide) (by decide) (by decide) o (h _ (Nat.le_refl _))⟩

/-- C103: so the construction either never ends, or `257 m` rounds suffice for each of its searches. -/
theorem C103_dichotomy (text : List Byte) (hne : text ≠ []) (hnz : ∀ c ∈ text, c ≠ 0#8) (hm : 257 * text.length ≤ 2 ^ 32) :
    (∀ fuel, build fuel text = .stop) ∨ ∃ o, ∀ fuel, 257 * text.length ≤ fuel → build fuel text = .ok o := by
  rcases build_spec (257 * text.length) text hne hnz with e | ⟨s, lrs, e, _⟩
  · refine Or.inl fun fuel => ?_
    rcases build_spec fuel text hne hnz with e' | ⟨s, lrs, e', _⟩
    · exact e'
    · rw [C103_bounded fuel text hne hnz hm _ e'] at e
      cases e
  · refine Or.inr ⟨fin s, fun fuel hf => ?_⟩
    obtain ⟨k, rfl⟩ := Nat.exists_eq_add_of_le hf
    exact C53_fuel _ k text _ e

/-- C103: with few letters for the size of the text (see `C53_total`) `257 m` rounds suffice. -/
theorem C103_total (text A : List Byte) (hne : text ≠ []) (hnz : ∀ c ∈ text, c ≠ 0#8) (hA : ∀ c ∈ text, c ∈ A)
    (hroom : A.length * (text.length - 2) + 4 ≤ 2 * (256 * ((text.length + 255) / 256))) (hm : text.length ≤ 2 ^ 23) (fuel : Nat)
    (hf : 257 * text.length ≤ fuel) : ∃ o, build fuel text = .ok o := by
  obtain ⟨o, ho, _⟩ := C53_total text A hne hnz hA hroom hm
  rcases C103_dichotomy text hne hnz (by omega) with h | ⟨o', h⟩
  · have := ho (2 ^ 32 + 1) (Nat.le_refl _)
    rw [h] at this
    cases this
  · exact ⟨o', h fuel hf⟩

/-- Both cases occur: the text `abbab` is finished with 1285 rounds for each search, the text of `C53_refuted` never. -/
example : ∃ o, ∀ fuel, 257 * 5 ≤ fuel → build fuel [97, 98, 98, 97, 98] = .ok o := by
  rcases C103_dichotomy [97, 98, 98, 97, 98] (by decide) (by decide) (by decide) with h | h
  · obtain ⟨o, ho⟩ := C103_total [97, 98, 98, 97, 98] [97, 98] (by decide) (by decide) (by decide) (by decide) (by decide) _ (Nat.le_refl _)
    rw [h] at ho
    cases ho
  · exact h

example : ∀ fuel, build fuel witness = .stop := by
  rcases C103_dichotomy witness (by decide) C53_refuted.1 (by rw [C53_refuted.2.1]; decide) with h | ⟨o, h⟩
  · exact h
  · exact absurd (h _ (Nat.le_refl _)) (C53_refuted.2.2 _ o)

end Verif.FO
