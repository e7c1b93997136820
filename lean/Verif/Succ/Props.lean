/-
Property theorems C20-C23 (SuccinctBitVector). `BV.Built v l`: the bit vector `v` is the result of a
history of BitVector calls whose list value is `l`.
-/
import Verif.Succ.Sel

namespace Verif.Succ
open Verif.Bits Verif.Serial Verif.BV

/-! ### C20 -/

/-- For every position, `rank_1` counts the ones before it and `rank_0` the zeros. -/
theorem C20_rank (us : Bool) (v : BVec) (l : List Bool) (h : Built v l) :
    ∃ s, build us v = some s ∧ ∀ i, i < l.length →
      s.rank1 i = some ((l.take i).count true) ∧ s.rank0 i = some ((l.take i).count false) ∧
      s.get i = l[i]? := by
  obtain ⟨s, e, ok⟩ := build_spec us v h.rep.words
  refine ⟨s, e, ?_⟩
  intro i hi
  have hs := h.rep.size
  have hle : l.length ≤ 64 * v.words.length := by rw [h.rep.words, hs]; exact wordSize_le _
  have hr : s.rank1 i = some ((l.take i).count true) := by
    rw [rank1_spec us v s ok i (by omega) (by omega), cntB_list v l h.rep i (by omega)]
  refine ⟨hr, ?_, ?_⟩
  · unfold SBV.rank0
    rw [hr]
    simp only [Option.bind_eq_bind, Option.bind_some, Option.pure_def]
    congr 1
    have : (l.take i).count true + (l.take i).count false = i := by
      have hc : ∀ m : List Bool, m.count true + m.count false = m.length := by
        intro m
        induction m with
        | nil => rfl
        | cons b m ih => cases b <;> simp <;> omega
      have := hc (l.take i)
      rw [List.length_take] at this
      omega
    omega
  · unfold SBV.get
    rw [ok.bits, ((rep_shows v l h.rep).2.1 i hi).1, List.getElem?_eq_getElem hi]

example : ∃ v s, Built v (List.replicate 640 true) ∧ build false v = some s ∧ s.rank0 639 = some 0 := by
  obtain ⟨v, hv⟩ := Built.exists (List.replicate 640 true)
  obtain ⟨s, e, h⟩ := C20_rank false v _ hv
  refine ⟨v, s, hv, e, ?_⟩
  rw [(h 639 (by rw [List.length_replicate]; decide)).2.1, List.take_replicate, List.count_replicate]
  rfl

/-- `rank(size())` is the number of ones when the size is zero or not a multiple of 64. -/
theorem C20_rank_end (us : Bool) (v : BVec) (l : List Bool) (h : Built v l) (hm : l.length % 64 ≠ 0 ∨ l = []) :
    ∃ s, build us v = some s ∧ s.rank1 l.length = some (l.count true) := by
  obtain ⟨s, e, ok⟩ := build_spec us v h.rep.words
  refine ⟨s, e, ?_⟩
  have hs := h.rep.size
  have hw : l.length / 64 < v.words.length := by
    rw [h.rep.words, hs]
    unfold wordSize
    rcases hm with hm | rfl
    · split <;> omega
    · simp
  rw [rank1_spec us v s ok _ (by omega) hw, cntB_list v l h.rep _ (Nat.le_refl _), List.take_length]

example : ∃ v s, Built v (List.replicate 650 true) ∧ build false v = some s ∧ s.rank1 650 = some 650 := by
  obtain ⟨v, hv⟩ := Built.exists (List.replicate 650 true)
  obtain ⟨s, e, h⟩ := C20_rank_end false v _ hv (.inl (by rw [List.length_replicate]; decide))
  rw [List.length_replicate, List.count_replicate] at h
  exact ⟨v, s, hv, e, h⟩

/-- `rank(size())` reads a word that does not exist when the size is a positive multiple of 64. -/
theorem C20_rank_end_oob (us : Bool) (v : BVec) (l : List Bool) (h : Built v l) (hm : l.length % 64 = 0) (hl : l ≠ []) :
    ∃ s, build us v = some s ∧ s.rank1 l.length = none := by
  obtain ⟨s, e, ok⟩ := build_spec us v h.rep.words
  refine ⟨s, e, ?_⟩
  have hs := h.rep.size
  have hpos := List.length_pos_iff.2 hl
  have hw : v.words.length ≤ l.length / 64 := by
    rw [h.rep.words, hs]
    unfold wordSize
    split <;> omega
  have hn : s.bits.words[l.length / 64]? = none := by rw [ok.bits]; exact List.getElem?_eq_none hw
  unfold SBV.rank1
  simp only [hn]
  cases s.blk[l.length / 512 * 2]? <;> cases s.blk[l.length / 512 * 2 + 1]? <;> rfl

example : ∃ v s, Built v (List.replicate 640 true) ∧ build false v = some s ∧ s.rank1 640 = none := by
  obtain ⟨v, hv⟩ := Built.exists (List.replicate 640 true)
  obtain ⟨s, e, h⟩ := C20_rank_end_oob false v _ hv (by rw [List.length_replicate]) (by decide)
  rw [List.length_replicate] at h
  exact ⟨v, s, hv, e, h⟩

/-- A default constructed object has no directory: every `rank` is undefined behaviour. -/
theorem C20_default (i : Nat) : default.rank1 i = none := rfl

example : ∃ v s, runInit (.sizeBit 600 true) = some v ∧ build true v = some s ∧ s.rank1 599 = some 599 ∧
    s.rank0 64 = some 0 := ⟨_, _, rfl, rfl, by decide +kernel, by decide +kernel⟩

/-! ### C21 -/

/-- BMI2 build: for vectors of fewer than 2^41 bits, `select(i)` is the position of the `i`-th one for every
`i` below the number of ones whose tip exists, that is `i/512` at most `c/512` where `c` counts the ones in all
512 bit blocks but the last. Missing: the other `i` (see `C21_select_tip_oob`). -/
theorem C21_select_bmi2_partial (v : BVec) (l : List Bool) (h : Built v l) (hsz : l.length < 2 ^ 41) :
    ∃ s, build true v = some s ∧ ∀ i, i < l.count true → i / 512 ≤ (l.take (l.length / 512 * 512)).count true / 512 →
      ∃ p, s.select Hw.sel i = some p ∧ l[p]? = some true ∧ (l.take p).count true = i := by
  obtain ⟨s, e, ok⟩ := build_spec true v h.rep.words
  refine ⟨s, e, ?_⟩
  intro i hi hdom
  have hs := h.rep.size
  have hle : l.length ≤ 64 * v.words.length := by rw [h.rep.words, hs]; exact wordSize_le _
  have hne : 0 < l.length := by
    rcases Nat.eq_zero_or_pos l.length with h0 | h0
    · have : l = [] := List.length_eq_zero_iff.1 h0
      subst this; simp at hi
    · exact h0
  have hSd : S v.words (8 * (v.size / 512)) = (l.take (l.length / 512 * 512)).count true := by
    unfold S
    rw [show 64 * (8 * (v.size / 512)) = l.length / 512 * 512 by rw [hs]; omega]
    exact cntB_list v l h.rep _ (by omega)
  have hcount : cntB v.words v.size = l.count true := by
    rw [hs, cntB_list v l h.rep _ (Nat.le_refl _), List.take_length]
  obtain ⟨p, h1, h2, h3, h4⟩ := select_spec v s ok (by omega) (by omega) Hw.sel
    (fun w _ i p hp => C07_sel_bmi2_build w i p hp) i (by omega) (by rw [hSd]; exact hdom)
  have hpl : p < l.length := by omega
  refine ⟨p, h1, ?_, ?_⟩
  · rw [List.getElem?_eq_getElem hpl, ← h.rep.bits p hpl, h3]
  · rw [← cntB_list v l h.rep p (by omega), h4]

example : ∃ v s p, Built v (List.replicate 1500 true) ∧ build true v = some s ∧ s.select Hw.sel 700 = some p := by
  obtain ⟨v, hv⟩ := Built.exists (List.replicate 1500 true)
  obtain ⟨s, e, h⟩ := C21_select_bmi2_partial v _ hv (by rw [List.length_replicate]; decide)
  obtain ⟨p, hp, _⟩ := h 700 (by rw [List.count_replicate]; decide) (by rw [List.length_replicate, List.take_replicate, List.count_replicate]; decide)
  exact ⟨v, s, p, hv, e, hp⟩

/-- Portable build: the same if in addition no word has all even or all odd nibbles of its low half
equal to 15 (where the portable in-word select goes wrong, C07). -/
theorem C21_select_portable_partial (v : BVec) (l : List Bool) (h : Built v l) (hsz : l.length < 2 ^ 41)
    (hwords : ∀ w ∈ v.words, w &&& 0x0F0F0F0F#64 ≠ 0x0F0F0F0F#64 ∧ w &&& 0xF0F0F0F0#64 ≠ 0xF0F0F0F0#64) :
    ∃ s, build true v = some s ∧ ∀ i, i < l.count true → i / 512 ≤ (l.take (l.length / 512 * 512)).count true / 512 →
      ∃ p, s.select Bits.sel i = some p ∧ l[p]? = some true ∧ (l.take p).count true = i := by
  obtain ⟨s, e, ok⟩ := build_spec true v h.rep.words
  refine ⟨s, e, ?_⟩
  intro i hi hdom
  have hs := h.rep.size
  have hle : l.length ≤ 64 * v.words.length := by rw [h.rep.words, hs]; exact wordSize_le _
  have hne : 0 < l.length := by
    rcases Nat.eq_zero_or_pos l.length with h0 | h0
    · have : l = [] := List.length_eq_zero_iff.1 h0
      subst this; simp at hi
    · exact h0
  have hSd : S v.words (8 * (v.size / 512)) = (l.take (l.length / 512 * 512)).count true := by
    unfold S
    rw [show 64 * (8 * (v.size / 512)) = l.length / 512 * 512 by rw [hs]; omega]
    exact cntB_list v l h.rep _ (by omega)
  have hcount : cntB v.words v.size = l.count true := by
    rw [hs, cntB_list v l h.rep _ (Nat.le_refl _), List.take_length]
  obtain ⟨p, h1, h2, h3, h4⟩ := select_spec v s ok (by omega) (by omega) Bits.sel
    (fun w hw i p hp => C07_sel_partial w i p hp (hwords w hw).1 (hwords w hw).2) i (by omega) (by rw [hSd]; exact hdom)
  have hpl : p < l.length := by omega
  refine ⟨p, h1, ?_, ?_⟩
  · rw [List.getElem?_eq_getElem hpl, ← h.rep.bits p hpl, h3]
  · rw [← cntB_list v l h.rep p (by omega), h4]

/-- 1300 bits, every second of them a one. -/
example : ∃ v l s p, Built v l ∧ build true v = some s ∧ s.select Bits.sel 515 = some p ∧ l[p]? = some true ∧ (l.take p).count true = 515 := by
  obtain ⟨v, e, hw⟩ := (Option.any_eq_true _ _).1 (show (runInit (.bits ((List.range 1300).map (fun i => i % 2 == 0)))).any
    (fun v => v.words.all (fun w => decide (w &&& 0x0F0F0F0F#64 ≠ 0x0F0F0F0F#64 ∧ w &&& 0xF0F0F0F0#64 ≠ 0xF0F0F0F0#64))) = true by decide +kernel)
  have hb := (show ∀ l v, runInit (.bits l) = some v → Built v l from fun l v e => ⟨.bits l, [], v, trivial, e, rfl, rfl⟩) _ v e
  obtain ⟨s, es, h⟩ := C21_select_portable_partial v _ hb (by rw [List.length_map, List.length_range]; decide)
    (fun w h => of_decide_eq_true (List.all_eq_true.1 hw w h))
  obtain ⟨p, h1, h2, h3⟩ := h 515 (by decide +kernel) (by decide +kernel)
  exact ⟨v, _, s, p, hb, es, h1, h2, h3⟩

/-- Outside of that domain `select` reads past the end of the tip vector (any build). -/
theorem C21_select_tip_oob (selF : W64 → Nat → Option Nat) (v : BVec) (l : List Bool) (h : Built v l) (hne : l ≠ [])
    (hsz : l.length < 2 ^ 41) (i : Nat) (hdom : ¬ i / 512 ≤ (l.take (l.length / 512 * 512)).count true / 512) :
    ∃ s, build true v = some s ∧ s.select selF i = none := by
  obtain ⟨s, e, ok⟩ := build_spec true v h.rep.words
  refine ⟨s, e, ?_⟩
  have hs := h.rep.size
  have hpos := List.length_pos_iff.2 hne
  apply select_none v s ok (by omega) (by omega)
  have hSd : S v.words (8 * (v.size / 512)) = (l.take (l.length / 512 * 512)).count true := by
    unfold S
    rw [show 64 * (8 * (v.size / 512)) = l.length / 512 * 512 by rw [hs]; omega]
    exact cntB_list v l h.rep _ (by omega)
  rw [hSd]; exact hdom

example : ∃ v s, Built v (List.replicate 700 true) ∧ build true v = some s ∧ s.select Hw.sel 1024 = none := by
  obtain ⟨v, hv⟩ := Built.exists (List.replicate 700 true)
  obtain ⟨s, e, h⟩ := C21_select_tip_oob Hw.sel v _ hv (fun h => by have := congrArg List.length h; rw [List.length_replicate] at this; cases this) (by rw [List.length_replicate]; decide) 1024
    (by rw [List.length_replicate, List.take_replicate, List.count_replicate]; decide)
  exact ⟨v, s, hv, e, h⟩

/-- The full property fails in every build: 1023 bits, 500 ones in the first 512 and 511 after; the
513th one exists but `select(512)` leaves the tip vector. -/
theorem C21_select_refuted (selF : W64 → Nat → Option Nat) :
    ∃ v l, Built v l ∧ 512 < l.count true ∧ ∃ s, build true v = some s ∧ s.select selF 512 = none := by
  obtain ⟨v, hv⟩ := Built.exists (List.replicate 500 true ++ List.replicate 12 false ++ List.replicate 511 true)
  refine ⟨v, _, hv, by decide +kernel, ?_⟩
  exact C21_select_tip_oob selF v _ hv (by decide) (by decide +kernel) 512 (by decide +kernel)

/-- In the portable build `select` is also wrong inside the domain: all ones. -/
theorem C21_select_portable_refuted :
    ∃ v s, runInit (.sizeBit 64 true) = some v ∧ build true v = some s ∧ s.select Bits.sel 1 ≠ some 1 :=
  ⟨_, _, rfl, rfl, by decide +kernel⟩

example : ∃ v s, runInit (.sizeBit 1500 true) = some v ∧ build true v = some s ∧ s.select Hw.sel 1023 = some 1023 :=
  ⟨_, _, rfl, rfl, by decide +kernel⟩

/-! ### C22 -/

/-- `rank(select(i)) = i` and `select(rank(p)) = p` for positions `p` holding a one (BMI2 build, in the
domain of `select`). -/
theorem C22_inverse_partial (v : BVec) (l : List Bool) (h : Built v l) (hsz : l.length < 2 ^ 41) :
    ∃ s, build true v = some s ∧
      (∀ i, i < l.count true → i / 512 ≤ (l.take (l.length / 512 * 512)).count true / 512 →
        ∃ p, s.select Hw.sel i = some p ∧ s.rank1 p = some i) ∧
      (∀ p, l[p]? = some true → (l.take p).count true / 512 ≤ (l.take (l.length / 512 * 512)).count true / 512 →
        ∃ r, s.rank1 p = some r ∧ s.select Hw.sel r = some p) := by
  obtain ⟨s, e, hsel⟩ := C21_select_bmi2_partial v l h hsz
  obtain ⟨s', e', hrank⟩ := C20_rank true v l h
  rw [e] at e'
  obtain rfl : s = s' := Option.some.inj e'
  have hlt : ∀ p, l[p]? = some true → p < l.length := by
    intro p hp
    by_contra hcon
    rw [List.getElem?_eq_none (by omega)] at hp
    cases hp
  refine ⟨s, e, ?_, ?_⟩
  · intro i hi hd
    obtain ⟨p, h1, h2, h3⟩ := hsel i hi hd
    exact ⟨p, h1, by rw [(hrank p (hlt p h2)).1, h3]⟩
  · intro p hp hd
    have hpl := hlt p hp
    have hcp : ∀ q, l[q]? = some true → (l.take (q + 1)).count true = (l.take q).count true + 1 := by
      intro q hq
      rw [List.take_add_one, hq, List.count_append]; simp
    have hsub : ∀ a b, a ≤ b → (l.take a).count true ≤ (l.take b).count true := by
      intro a b hab
      exact (List.take_sublist_take_left hab).count_le true
    have hlt2 : (l.take p).count true < l.count true := by
      have h1 := hcp p hp
      have h2 := hsub (p + 1) l.length (by omega)
      rw [List.take_length] at h2
      omega
    obtain ⟨q, h1, h2, h3⟩ := hsel _ hlt2 hd
    refine ⟨_, (hrank p hpl).1, ?_⟩
    rw [h1]
    congr 1
    -- two positions with the same count
    rcases Nat.lt_trichotomy p q with hlt' | heq | hgt
    · have a := hcp p hp
      have b := hsub (p + 1) q (by omega)
      omega
    · exact heq.symm
    · have a := hcp q h2
      have b := hsub (q + 1) p (by omega)
      omega

example : (List.replicate 5 false ++ [true])[5]? = some true ∧
    ((List.replicate 5 false ++ [true]).take 5).count true / 512 ≤ 0 / 512 := by decide

/-! ### C23 -/

/-- Every built object is read back identically (so every later answer agrees) from what it wrote,
consuming exactly those bytes; `size_in_bytes` is their number. -/
theorem C23_roundtrip (us : Bool) (v : BVec) (l : List Bool) (h : Built v l) (hsz : l.length < 2 ^ 41) (st : Stream) :
    ∃ s, build us v = some s ∧ read us (s.write us ++ st) = some (s, st) ∧
      (s.write us).length = s.sizeInBytes us := by
  obtain ⟨s, e, ok⟩ := build_spec us v h.rep.words
  have hs := h.rep.size
  refine ⟨s, e, ?_, ?_⟩
  · have hblk : ∀ x ∈ s.blk, x < 256 ^ 8 := by
      intro x hx
      obtain ⟨k, hk, rfl⟩ := List.getElem_of_mem hx
      have h256 : (256:Nat) ^ 8 = 2 ^ 64 := by decide
      rw [ok.len] at hk
      obtain ⟨h0, sw, h1, h2, _⟩ := ok.blk (k / 2) (by omega)
      by_cases hp : k % 2 = 0
      · rw [show 2 * (k / 2) = k by omega, List.getElem?_eq_getElem (by rw [ok.len]; exact hk)] at h0
        rw [Option.some.inj h0]
        have := S_add_le v.words 0 (8 * (k / 2))
        rw [S_zero, Nat.zero_add] at this
        omega
      · rw [show 2 * (k / 2) + 1 = k by omega, List.getElem?_eq_getElem (by rw [ok.len]; exact hk)] at h1
        rw [Option.some.inj h1]
        omega
    have hbl : s.blk.length < 256 ^ 8 := by
      rw [ok.len]
      have : (256:Nat) ^ 8 = 2 ^ 64 := by decide
      omega
    have hrb : ∀ t, BV.read (s.bits.write ++ t) = some (s.bits, t) := by
      intro t
      rw [ok.bits]
      exact read_write v (by omega) h.rep.words t
    unfold read SBV.write
    rw [List.append_assoc, List.append_assoc, hrb]
    simp only [Option.bind_eq_bind, Option.bind_some]
    rw [readVec_writeVec 8 _ hblk hbl]
    simp only [Option.bind_some]
    cases us
    · simp only [Bool.false_eq_true, if_false, List.nil_append, Option.pure_def]
      rw [← ok.tips0 (Or.inl rfl)]
    · simp only [if_true]
      have ht : s.tips.length < 256 ^ 8 ∧ ∀ x ∈ s.tips, x < 256 ^ 4 := by
        have : (256:Nat) ^ 8 = 2 ^ 64 := by decide
        have : (256:Nat) ^ 4 = 2 ^ 32 := by decide
        by_cases hz : v.size = 0
        · rw [ok.tips0 (Or.inr hz)]; simp
        · obtain ⟨R, hR, hl, hx, _⟩ := ok.tips rfl (by omega) (by omega)
          rw [hR]
          constructor
          · simp only [List.length_append, List.length_cons, List.length_nil, hl]
            have := S_add_le v.words 0 (8 * (v.size / 512))
            rw [S_zero, Nat.zero_add] at this
            omega
          · intro x hx'
            simp only [List.cons_append, List.mem_cons, List.mem_append, List.not_mem_nil, or_false] at hx'
            rcases hx' with rfl | h | rfl
            · decide
            · have := hx x h; omega
            · omega
      rw [readVec_writeVec 4 _ ht.2 ht.1]
      rfl
  · unfold SBV.write SBV.sizeInBytes
    rw [List.length_append, List.length_append, write_length, C47_size_vec]
    cases us
    · simp
    · simp [C47_size_vec]

example : ∃ v s, Built v (List.replicate 700 true) ∧ build true v = some s ∧ read true (s.write true ++ [9#8]) = some (s, [9#8]) := by
  obtain ⟨v, hv⟩ := Built.exists (List.replicate 700 true)
  obtain ⟨s, e, h, _⟩ := C23_roundtrip true v _ hv (by rw [List.length_replicate]; decide) [9#8]
  exact ⟨v, s, hv, e, h⟩

end Verif.Succ
