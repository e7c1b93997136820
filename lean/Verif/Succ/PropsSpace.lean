/-
Property theorems C76 (space of SuccinctBitVector) and more on C22.
-/
import Verif.Succ.Props

namespace Verif.Succ
open Verif.Bits Verif.Serial Verif.BV

/-! ### C22, continued -/

/-- Both directions from the statement about `select`. -/
theorem inverse_of (selF : W64 → Nat → Option Nat) (v : BVec) (l : List Bool) (h : Built v l) (s : SBV) (e : build true v = some s)
    (hsel : ∀ i, i < l.count true → i / 512 ≤ (l.take (l.length / 512 * 512)).count true / 512 →
      ∃ p, s.select selF i = some p ∧ l[p]? = some true ∧ (l.take p).count true = i) :
    (∀ i, i < l.count true → i / 512 ≤ (l.take (l.length / 512 * 512)).count true / 512 →
      ∃ p, s.select selF i = some p ∧ s.rank1 p = some i) ∧
    (∀ p, l[p]? = some true → (l.take p).count true / 512 ≤ (l.take (l.length / 512 * 512)).count true / 512 →
      ∃ r, s.rank1 p = some r ∧ s.select selF r = some p) := by
  obtain ⟨s', e', hrank⟩ := C20_rank true v l h
  rw [e] at e'
  obtain rfl : s = s' := Option.some.inj e'
  have hlt : ∀ p, l[p]? = some true → p < l.length := fun p hp => (List.getElem?_eq_some_iff.1 hp).1
  refine ⟨?_, ?_⟩
  · intro i hi hd
    obtain ⟨p, h1, h2, h3⟩ := hsel i hi hd
    exact ⟨p, h1, by rw [(hrank p (hlt p h2)).1, h3]⟩
  · intro p hp hd
    have hpl := hlt p hp
    have hcp : ∀ q, l[q]? = some true → (l.take (q + 1)).count true = (l.take q).count true + 1 := by
      intro q hq
      rw [List.take_add_one, hq, List.count_append]; simp
    have hsub : ∀ a b, a ≤ b → (l.take a).count true ≤ (l.take b).count true := by
      intro a b hab
      exact (List.take_sublist_take_left hab).count_le true
    have hlt2 : (l.take p).count true < l.count true := by
      have h1 := hcp p hp
      have h2 := hsub (p + 1) l.length (by omega)
      rw [List.take_length] at h2
      omega
    obtain ⟨q, h1, h2, h3⟩ := hsel _ hlt2 hd
    refine ⟨_, (hrank p hpl).1, ?_⟩
    rw [h1]
    congr 1
    rcases Nat.lt_trichotomy p q with hlt' | heq | hgt
    · have a := hcp p hp
      have b := hsub (p + 1) q (by omega)
      omega
    · exact heq.symm
    · have a := hcp q h2
      have b := hsub (q + 1) p (by omega)
      omega

/-- Portable build: both directions in the domain of `select` if no word has all even or all odd nibbles of its low half equal to 15. Missing:
the other words and the other `i`, where it is false. -/
theorem C22_inverse_portable_partial (v : BVec) (l : List Bool) (h : Built v l) (hsz : l.length < 2 ^ 41)
    (hwords : ∀ w ∈ v.words, w &&& 0x0F0F0F0F#64 ≠ 0x0F0F0F0F#64 ∧ w &&& 0xF0F0F0F0#64 ≠ 0xF0F0F0F0#64) :
    ∃ s, build true v = some s ∧
      (∀ i, i < l.count true → i / 512 ≤ (l.take (l.length / 512 * 512)).count true / 512 →
        ∃ p, s.select Bits.sel i = some p ∧ s.rank1 p = some i) ∧
      (∀ p, l[p]? = some true → (l.take p).count true / 512 ≤ (l.take (l.length / 512 * 512)).count true / 512 →
        ∃ r, s.rank1 p = some r ∧ s.select Bits.sel r = some p) := by
  obtain ⟨s, e, hsel⟩ := C21_select_portable_partial v l h hsz hwords
  exact ⟨s, e, inverse_of Bits.sel v l h s e hsel⟩

/-- A vector of 100 alternating bits. -/
example : runInit (.bits (List.replicate 50 [true, false]).flatten) = some ⟨100, [0x5555555555555555#64, 0x555555555#64]⟩ ∧
    (∀ w ∈ [0x5555555555555555#64, 0x555555555#64], w &&& 0x0F0F0F0F#64 ≠ 0x0F0F0F0F#64 ∧ w &&& 0xF0F0F0F0#64 ≠ 0xF0F0F0F0#64) := by
  refine ⟨by decide +kernel, ?_⟩
  intro w hw
  simp only [List.mem_cons, List.not_mem_nil, or_false] at hw
  rcases hw with rfl | rfl <;> decide

/-- In every build: a set position whose rank has no tip, so that `select(rank(p))` reads out of range. -/
theorem C22_refuted (selF : W64 → Nat → Option Nat) :
    ∃ v l s p r, Built v l ∧ build true v = some s ∧ l[p]? = some true ∧ s.rank1 p = some r ∧ s.select selF r = none := by
  obtain ⟨v, hv⟩ := Built.exists (List.replicate 500 true ++ List.replicate 12 false ++ List.replicate 511 true)
  obtain ⟨s, e, h⟩ := C20_rank true v _ hv
  obtain ⟨s', e', h'⟩ := C21_select_tip_oob selF v _ hv (by decide) (by decide +kernel) 512 (by decide +kernel)
  rw [e] at e'
  obtain rfl : s = s' := Option.some.inj e'
  refine ⟨v, _, s, 524, 512, hv, e, by decide +kernel, ?_, h'⟩
  rw [(h 524 (by decide +kernel)).1]
  decide +kernel

/-! ### C76 -/

/-- The exact number of bytes of a vector of `n > 0` bits, without and with the select tips, and bounds in bits: `5/4 n + 384`, and
`21/16 n + 512` with select. `c` is the number of ones in the full blocks of 512 bits. -/
theorem C76_space (us : Bool) (v : BVec) (l : List Bool) (h : Built v l) (hne : l ≠ []) (hsz : l.length < 2 ^ 41) :
    ∃ s, build us v = some s ∧
      s.sizeInBytes us = 40 + 8 * ((l.length + 63) / 64) + 16 * (l.length / 512) +
        (if us then 16 + 4 * ((l.take (l.length / 512 * 512)).count true / 512) else 0) ∧
      (us = false → 8 * s.sizeInBytes us ≤ l.length + l.length / 4 + 384) ∧
      (us = true → 8 * s.sizeInBytes us ≤ l.length + l.length / 4 + l.length / 16 + 512) := by
  obtain ⟨s, e, ok⟩ := build_spec us v h.rep.words
  have hs := h.rep.size
  have hpos := List.length_pos_iff.2 hne
  have hSd : S v.words (8 * (v.size / 512)) = (l.take (l.length / 512 * 512)).count true := by
    unfold S
    rw [show 64 * (8 * (v.size / 512)) = l.length / 512 * 512 by rw [hs]; omega]
    exact cntB_list v l h.rep _ (by omega)
  have hcle : (l.take (l.length / 512 * 512)).count true ≤ l.length := by
    have h1 : (l.take (l.length / 512 * 512)).count true ≤ (l.take (l.length / 512 * 512)).length := List.count_le_length
    rw [List.length_take] at h1
    omega
  have hw : v.words.length = (l.length + 63) / 64 := by
    rw [h.rep.words, hs, wordSize, if_neg (by omega)]
    omega
  have hform : s.sizeInBytes us = 40 + 8 * ((l.length + 63) / 64) + 16 * (l.length / 512) +
        (if us then 16 + 4 * ((l.take (l.length / 512 * 512)).count true / 512) else 0) := by
    unfold SBV.sizeInBytes BVec.sizeInBytes sizeVec
    rw [ok.bits, ok.len, List.length_map, hw]
    cases us
    · simp only [Bool.false_eq_true, if_false]
      omega
    · obtain ⟨R, hR, hl, _⟩ := ok.tips rfl (by omega) (by omega)
      rw [hR]
      simp only [if_true, List.length_append, List.length_cons, List.length_nil, hl, hSd]
      omega
  refine ⟨s, e, hform, ?_, ?_⟩
  · rintro rfl
    rw [hform]
    simp only [Bool.false_eq_true, if_false]
    omega
  · rintro rfl
    rw [hform]
    simp only [if_true]
    omega

/-- 1500 ones: 288 bytes with select. -/
example : ∃ v s, Built v (List.replicate 1500 true) ∧ build true v = some s ∧ s.sizeInBytes true = 288 := by
  obtain ⟨v, hv⟩ := Built.exists (List.replicate 1500 true)
  obtain ⟨s, e, h, _⟩ := C76_space true v _ hv (by decide) (by decide +kernel)
  refine ⟨v, s, hv, e, ?_⟩
  rw [h, List.length_replicate, List.take_replicate, List.count_replicate_self, if_pos rfl]
  decide

end Verif.Succ
