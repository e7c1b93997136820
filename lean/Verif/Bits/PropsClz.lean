/-
Property theorem C11 (256 bit words), continued: what `clz256` returns.
-/
import Verif.Bits.Props

namespace Verif.Bits

theorem clz64_of_top (w : W64) (u : Nat) (hu : u < 64) (h : w.getLsbD u = true) (h0 : ∀ j, u < j → j < 64 → w.getLsbD j = false) :
    clz64 w = 63 - u := by
  refine C05_unique w _ _ (C05_clz64 w) ⟨by omega, ?_, ?_⟩
  · intro j hj
    exact h0 _ (by omega) (by omega)
  · intro _
    rw [show 64 - 1 - (63 - u) = u by omega]
    exact h

/-- With `r` zeros above the highest one, `clz256` counts the words below that one in place of the words above it. -/
theorem C11_clz256_value (x : W256) (r : Nat) (h : IsClz256 x r) (hr : r < 256) : clz256 x = 64 * (3 - r / 64) + r % 64 := by
  obtain ⟨-, h1, h2⟩ := h
  have h2 := h2 hr
  have hz : ∀ j, 255 - r < j → j < 256 → x.bit j = false := by
    intro j hj hj2
    have := h1 (255 - j) (by omega)
    rwa [show 255 - (255 - j) = j by omega] at this
  have hzero : ∀ w : W64, (∀ j, j < 64 → w.getLsbD j = false) → ¬ w ≠ 0#64 := by
    intro w hw hne
    obtain ⟨u, hu⟩ := (ne_zero_iff w).1 hne
    rw [hw u (BitVec.lt_of_getLsbD hu)] at hu
    exact absurd hu (by decide)
  have hone : ∀ (w : W64) u, w.getLsbD u = true → w ≠ 0#64 := fun w u hu => (ne_zero_iff w).2 ⟨u, hu⟩
  have e3 : ∀ j, j < 64 → x.bit (192 + j) = x.w3.getLsbD j := fun j hj => (bit_word x j hj).2.2.2
  have e2 : ∀ j, j < 64 → x.bit (128 + j) = x.w2.getLsbD j := fun j hj => (bit_word x j hj).2.2.1
  have e1 : ∀ j, j < 64 → x.bit (64 + j) = x.w1.getLsbD j := fun j hj => (bit_word x j hj).2.1
  have e0 : ∀ j, j < 64 → x.bit j = x.w0.getLsbD j := fun j hj => (bit_word x j hj).1
  unfold clz256
  rcases (show r / 64 = 0 ∨ r / 64 = 1 ∨ r / 64 = 2 ∨ r / 64 = 3 by omega) with hq | hq | hq | hq
  · rw [show 255 - r = 192 + (63 - r) by omega, e3 _ (by omega)] at h2
    rw [if_pos (hone _ _ h2), clz64_of_top _ _ (by omega) h2 (fun j g1 g2 => by rw [← e3 j g2]; exact hz _ (by omega) (by omega))]
    omega
  · rw [show 255 - r = 128 + (127 - r) by omega, e2 _ (by omega)] at h2
    rw [if_neg (hzero _ (fun j hj => by rw [← e3 j hj]; exact hz _ (by omega) (by omega))), if_pos (hone _ _ h2),
      clz64_of_top _ _ (by omega) h2 (fun j g1 g2 => by rw [← e2 j g2]; exact hz _ (by omega) (by omega))]
    omega
  · rw [show 255 - r = 64 + (191 - r) by omega, e1 _ (by omega)] at h2
    rw [if_neg (hzero _ (fun j hj => by rw [← e3 j hj]; exact hz _ (by omega) (by omega))),
      if_neg (hzero _ (fun j hj => by rw [← e2 j hj]; exact hz _ (by omega) (by omega))), if_pos (hone _ _ h2),
      clz64_of_top _ _ (by omega) h2 (fun j g1 g2 => by rw [← e1 j g2]; exact hz _ (by omega) (by omega))]
    omega
  · rw [e0 _ (by omega)] at h2
    rw [if_neg (hzero _ (fun j hj => by rw [← e3 j hj]; exact hz _ (by omega) (by omega))),
      if_neg (hzero _ (fun j hj => by rw [← e2 j hj]; exact hz _ (by omega) (by omega))),
      if_neg (hzero _ (fun j hj => by rw [← e1 j hj]; exact hz _ (by omega) (by omega))), if_pos (hone _ _ h2),
      clz64_of_top _ _ (by omega) h2 (fun j g1 g2 => by rw [← e0 j g2]; exact hz _ (by omega) (by omega))]
    omega

example : IsClz256 ⟨0#64, 0#64, 1#64, 0#64⟩ 127 ∧ clz256 ⟨0#64, 0#64, 1#64, 0#64⟩ = 191 :=
  ⟨⟨by decide, by decide +kernel, by decide⟩, by decide⟩

end Verif.Bits
