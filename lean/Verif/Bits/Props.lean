/-
Property theorems C01-C12 (word level bit functions).
Specifications: `Verif/Bits/Spec.lean` and the small definitions at the top of this file.
-/
import Verif.Bits.Pop3
import Verif.Bits.Lemmas256

namespace Verif.Bits

/-! ### Specifications -/

/-- How many of the 32 aligned two-bit fields of `x` have high bit `a` and low bit `b`. -/
def pairs (x : W64) (a b : Bool) : Nat :=
  (List.range 32).countP (fun k => x.getLsbD (2 * k + 1) == a && x.getLsbD (2 * k) == b)

/-- How many of the 21 aligned three-bit fields of `x` have bits `a`, `b`, `c` (high to low). -/
def triples (x : W64) (a b c : Bool) : Nat :=
  (List.range 21).countP (fun k =>
    x.getLsbD (3 * k + 2) == a && x.getLsbD (3 * k + 1) == b && x.getLsbD (3 * k) == c)

/-- Number of 1 bits of a 256 bit word. -/
def ones256 (x : W256) : Nat := (List.range 256).countP x.bit

/-- `r` is the index of the lowest 1 bit, 256 if there is none. -/
def IsCtz256 (x : W256) (r : Nat) : Prop :=
  r ≤ 256 ∧ (∀ j, j < r → x.bit j = false) ∧ (r < 256 → x.bit r = true)

/-- `r` is the number of 0 bits above the highest 1 bit, 256 if there is none. -/
def IsClz256 (x : W256) (r : Nat) : Prop :=
  r ≤ 256 ∧ (∀ j, j < r → x.bit (255 - j) = false) ∧ (r < 256 → x.bit (255 - r) = true)

/-- The all-zero 256 bit word. -/
def zero256 : W256 := ⟨0#64, 0#64, 0#64, 0#64⟩

/-! ### C01 -/

theorem C01_popcnt8 (x : BitVec 8) : popcnt8 x = ones x := popcnt8_eq x

theorem C01_popcnt16 (x : BitVec 16) : popcnt16 x = ones x := popcnt16_eq x

theorem C01_popcnt64 (x : W64) : (popcnt64 x).toNat = ones x := popcnt64_toNat x

example : popcnt8 0xB1#8 = 4 ∧ popcnt16 0xB1F0#16 = 8 ∧ popcnt64 0x8000000000000001#64 = 2#64 := by decide

/-! ### C02 -/

/-- The portable `popcnt32` is right exactly for the words in which neither all even nor all odd
nibbles are `0xF`. (Full property: for all words; see `C02_popcnt32_refuted`.) -/
theorem C02_popcnt32_partial (x : W32) :
    (popcnt32 x).toNat = ones x ↔
      (x &&& 0x0F0F0F0F#32 ≠ 0x0F0F0F0F#32 ∧ x &&& 0xF0F0F0F0#32 ≠ 0xF0F0F0F0#32) :=
  popcnt32_iff x

theorem C02_popcnt32_refuted : ¬ ∀ x : W32, (popcnt32 x).toNat = ones x := by
  intro h
  exact absurd (h 0xFFFFFFFF#32) (by decide)

example : (popcnt32 0x12345678#32).toNat = ones 0x12345678#32 := by decide

/-! ### C03 -/

theorem bits_pair (y : W64) (P : Nat → Bool)
    (h : ∀ i, i < 64 → y.getLsbD i = (i % 2 == 0 && P (i / 2))) :
    y &&& 0x5555555555555555#64 = y ∧ ones y = (List.range 32).countP P := by
  constructor
  · apply BitVec.eq_of_getLsbD_eq
    intro i hi
    have hm : ∀ i, i < 64 → (0x5555555555555555#64).getLsbD i = (i % 2 == 0) := by decide +kernel
    rw [BitVec.getLsbD_and, hm i hi, h i hi]
    cases (i % 2 == 0) <;> simp
  · rw [← ones_fields 2 32 (by decide) P]
    apply List.countP_congr
    intro a ha
    rw [h a (List.mem_range.1 ha)]

theorem bits_triple (y : W64) (P : Nat → Bool)
    (h : ∀ i, i < 64 → y.getLsbD i = (decide (i < 63) && (i % 3 == 0 && P (i / 3)))) :
    y &&& 0x1249249249249249#64 = y ∧ ones y = (List.range 21).countP P := by
  constructor
  · apply BitVec.eq_of_getLsbD_eq
    intro i hi
    have hm : ∀ i, i < 64 → (0x1249249249249249#64).getLsbD i = (decide (i < 63) && (i % 3 == 0)) := by
      decide +kernel
    rw [BitVec.getLsbD_and, hm i hi, h i hi]
    cases decide (i < 63) <;> cases (i % 3 == 0) <;> simp
  · rw [← ones_fields 3 21 (by decide) P]
    have h64 : ones y = onesBelow y (63 + 1) := rfl
    rw [h64, onesBelow_succ, h 63 (by decide)]
    simp only [show ¬ (63 < 63) by decide, decide_false, Bool.false_and, Bool.toNat_false, Nat.add_zero]
    apply List.countP_congr
    intro a ha
    have := List.mem_range.1 ha
    rw [h a (by omega)]
    simp [show a < 63 by omega]

theorem C03_popcnt11 (x : W64) : (popcnt11 x).toNat = pairs x true true := by
  unfold popcnt11
  have h := bits_pair ((x &&& (x >>> 1)) &&& 0x5555555555555555#64)
    (fun k => x.getLsbD (2 * k + 1) == true && x.getLsbD (2 * k) == true) (by
      intro i hi
      have hm : ∀ i, i < 64 → (0x5555555555555555#64).getLsbD i = (i % 2 == 0) := by decide +kernel
      rw [BitVec.getLsbD_and, hm i hi, BitVec.getLsbD_and, BitVec.getLsbD_ushiftRight]
      by_cases h2 : i % 2 = 0
      · rw [show 2 * (i / 2) = i by omega, Nat.add_comm 1 i]
        simp [h2, Bool.and_comm]
      · have h2' : (i % 2 == 0) = false := by simpa using h2
        rw [h2']; simp)
  rw [popPairs_eq_ones _ h.1, h.2]; rfl

theorem C03_popcnt10 (x : W64) : (popcnt10 x).toNat = pairs x true false := by
  unfold popcnt10
  have h := bits_pair ((~~~x &&& (x >>> 1)) &&& 0x5555555555555555#64)
    (fun k => x.getLsbD (2 * k + 1) == true && x.getLsbD (2 * k) == false) (by
      intro i hi
      have hm : ∀ i, i < 64 → (0x5555555555555555#64).getLsbD i = (i % 2 == 0) := by decide +kernel
      rw [BitVec.getLsbD_and, hm i hi, BitVec.getLsbD_and, BitVec.getLsbD_ushiftRight, BitVec.getLsbD_not]
      by_cases h2 : i % 2 = 0
      · rw [show 2 * (i / 2) = i by omega, Nat.add_comm 1 i]
        simp only [hi, decide_true, Bool.true_and]
        cases x.getLsbD i <;> cases x.getLsbD (i + 1) <;> simp [h2]
      · have h2' : (i % 2 == 0) = false := by simpa using h2
        rw [h2']; simp)
  rw [popPairs_eq_ones _ h.1, h.2]; rfl

theorem mask3 : ∀ i, i < 64 → (0x1249249249249249#64).getLsbD i = (decide (i < 63) && (i % 3 == 0)) := by
  decide +kernel

theorem C03_popcnt111 (x : W64) : (popcnt111 x).toNat = triples x true true true := by
  unfold popcnt111
  have h := bits_triple ((x &&& (x >>> 1) &&& (x >>> 2)) &&& 0x1249249249249249#64)
    (fun k => x.getLsbD (3 * k + 2) == true && x.getLsbD (3 * k + 1) == true && x.getLsbD (3 * k) == true) (by
      intro i hi
      simp only [BitVec.getLsbD_and, mask3 i hi, BitVec.getLsbD_ushiftRight]
      by_cases h3 : i % 3 = 0
      · rw [show 3 * (i / 3) = i by omega, Nat.add_comm 1 i, Nat.add_comm 2 i]
        cases x.getLsbD i <;> cases x.getLsbD (i + 1) <;> cases x.getLsbD (i + 2) <;> simp [h3]
      · have h3' : (i % 3 == 0) = false := by simpa using h3
        rw [h3']; simp)
  rw [popTriples_eq_ones _ h.1, h.2]; rfl

theorem C03_popcnt110 (x : W64) : (popcnt110 x).toNat = triples x true true false := by
  unfold popcnt110
  have h := bits_triple ((~~~x &&& (x >>> 1) &&& (x >>> 2)) &&& 0x1249249249249249#64)
    (fun k => x.getLsbD (3 * k + 2) == true && x.getLsbD (3 * k + 1) == true && x.getLsbD (3 * k) == false) (by
      intro i hi
      simp only [BitVec.getLsbD_and, mask3 i hi, BitVec.getLsbD_ushiftRight, BitVec.getLsbD_not]
      by_cases h3 : i % 3 = 0
      · rw [show 3 * (i / 3) = i by omega, Nat.add_comm 1 i, Nat.add_comm 2 i]
        cases x.getLsbD i <;> cases x.getLsbD (i + 1) <;> cases x.getLsbD (i + 2) <;> simp [h3, hi]
      · have h3' : (i % 3 == 0) = false := by simpa using h3
        rw [h3']; simp)
  rw [popTriples_eq_ones _ h.1, h.2]; rfl

theorem C03_popcnt101 (x : W64) : (popcnt101 x).toNat = triples x true false true := by
  unfold popcnt101
  have h := bits_triple ((x &&& (~~~x >>> 1) &&& (x >>> 2)) &&& 0x1249249249249249#64)
    (fun k => x.getLsbD (3 * k + 2) == true && x.getLsbD (3 * k + 1) == false && x.getLsbD (3 * k) == true) (by
      intro i hi
      simp only [BitVec.getLsbD_and, mask3 i hi, BitVec.getLsbD_ushiftRight, BitVec.getLsbD_not]
      by_cases h3 : i % 3 = 0
      · rw [show 3 * (i / 3) = i by omega, Nat.add_comm 1 i, Nat.add_comm 2 i]
        by_cases h63 : i < 63
        · simp only [show i + 1 < 64 by omega, decide_true, Bool.true_and]
          cases x.getLsbD i <;> cases x.getLsbD (i + 1) <;> cases x.getLsbD (i + 2) <;> simp [h3, h63]
        · simp [h63]
      · have h3' : (i % 3 == 0) = false := by simpa using h3
        rw [h3']; simp)
  rw [popTriples_eq_ones _ h.1, h.2]; rfl

theorem C03_popcnt100 (x : W64) : (popcnt100 x).toNat = triples x true false false := by
  unfold popcnt100
  have h := bits_triple ((~~~x &&& (~~~x >>> 1) &&& (x >>> 2)) &&& 0x1249249249249249#64)
    (fun k => x.getLsbD (3 * k + 2) == true && x.getLsbD (3 * k + 1) == false && x.getLsbD (3 * k) == false) (by
      intro i hi
      simp only [BitVec.getLsbD_and, mask3 i hi, BitVec.getLsbD_ushiftRight, BitVec.getLsbD_not]
      by_cases h3 : i % 3 = 0
      · rw [show 3 * (i / 3) = i by omega, Nat.add_comm 1 i, Nat.add_comm 2 i]
        by_cases h63 : i < 63
        · simp only [show i + 1 < 64 by omega, hi, decide_true, Bool.true_and]
          cases x.getLsbD i <;> cases x.getLsbD (i + 1) <;> cases x.getLsbD (i + 2) <;> simp [h3, h63]
        · simp [h63]
      · have h3' : (i % 3 == 0) = false := by simpa using h3
        rw [h3']; simp)
  rw [popTriples_eq_ones _ h.1, h.2]; rfl

example : pairs 0b110110#64 true true = 1 ∧ pairs 0b110110#64 true false = 1 ∧
    triples 0b111110101100#64 true false false = 1 := by decide

/-! ### C04 -/

theorem C04_ctz64 (x : W64) : IsCtz x (ctz64 x) := ctz64_isCtz x
theorem C04_ctz32 (x : W32) : IsCtz x (ctz32 x) := ctz32_isCtz x
theorem C04_ctz64_popcnt_build (x : W64) : IsCtz x (Hw.ctz x) := hw_ctz_isCtz (by decide) x
theorem C04_ctz32_popcnt_build (x : W32) : IsCtz x (Hw.ctz x) := hw_ctz_isCtz (by decide) x

/-- The specification determines the result. -/
theorem C04_unique {n : Nat} (x : BitVec n) (r r' : Nat) (h : IsCtz x r) (h' : IsCtz x r') : r = r' :=
  isCtz_unique x r r' h h'

example : ctz64 0xF0#64 = 4 ∧ ctz32 0x80000000#32 = 31 ∧ Hw.ctz (0xF0#64) = 4 := by decide

/-! ### C05 -/

theorem C05_clz64 (x : W64) : IsClz x (clz64 x) := clz64_isClz x
theorem C05_clz64_popcnt_build (x : W64) : IsClz x (Hw.clz64 x) := hw_clz64_isClz x

theorem C05_unique {n : Nat} (x : BitVec n) (r r' : Nat) (h : IsClz x r) (h' : IsClz x r') : r = r' :=
  isClz_unique x r r' h h'

example : clz64 0xF0#64 = 56 ∧ Hw.clz64 0xF0#64 = 56 := by decide

/-! ### C06 -/

/-- The build with `__POPCNT__` counts leading zeros of 32 bit words correctly. -/
theorem C06_clz32_popcnt_build (x : W32) : IsClz x (Hw.clz32 x) := hw_clz32_isClz x

/-- The portable build is right only at zero; elsewhere it is 32 too large.
(Full property: `IsClz x (clz32 x)` for all `x`; see `C06_clz32_refuted`.) -/
theorem C06_clz32_partial (x : W32) :
    (IsClz x (clz32 x) ↔ x = 0#32) ∧ (x ≠ 0#32 → ∃ r, IsClz x r ∧ clz32 x = r + 32) := by
  refine ⟨⟨?_, ?_⟩, clz32_shifted x⟩
  · intro h
    apply Classical.byContradiction
    intro hne
    obtain ⟨r, hr, he⟩ := clz32_shifted x hne
    have := isClz_unique x _ _ h hr
    omega
  · rintro rfl
    exact isClz_zero 32

theorem C06_clz32_refuted : ¬ ∀ x : W32, IsClz x (clz32 x) := by
  intro h
  have := ((C06_clz32_partial 1#32).1).1 (h 1#32)
  exact absurd this (by decide)

example : clz32 0xF0#32 = 24 + 32 ∧ Hw.clz32 0xF0#32 = 24 := by decide

/-! ### C07 -/

/-- The BMI2 build selects exactly. -/
theorem C07_sel_bmi2_build (x : W64) (i p : Nat) (h : IsSelect x i p) : Hw.sel x i = some (p + 1) :=
  hw_sel_correct x i p h

example := C07_sel_bmi2_build 0x8421#64 3 10 ⟨by decide, by decide, by decide⟩

/-- The portable build selects exactly for every word whose low half is counted right by
`popcnt32`. (Full property: for all words; see `C07_sel_refuted`.) -/
theorem C07_sel_partial (x : W64) (i p : Nat) (h : IsSelect x i p)
    (he : x &&& 0x0F0F0F0F#64 ≠ 0x0F0F0F0F#64) (ho : x &&& 0xF0F0F0F0#64 ≠ 0xF0F0F0F0#64) :
    sel x i = some (p + 1) := by
  apply sel_correct x i p h
  rw [popcnt32_iff]
  constructor
  · intro hc
    apply he
    apply BitVec.eq_of_getLsbD_eq
    intro j hj
    by_cases h32 : j < 32
    · have := congrArg (fun z => BitVec.getLsbD z j) hc
      simp only [BitVec.getLsbD_and, BitVec.getLsbD_setWidth, h32, decide_true, Bool.true_and] at this
      have hm : ∀ j, j < 32 → (0x0F0F0F0F#64).getLsbD j = (0x0F0F0F0F#32).getLsbD j := by decide +kernel
      rw [BitVec.getLsbD_and, hm j h32]
      exact this
    · have hm : ∀ j, j < 64 → ¬ j < 32 → (0x0F0F0F0F#64).getLsbD j = false := by decide +kernel
      rw [BitVec.getLsbD_and, hm j hj h32, Bool.and_false]
  · intro hc
    apply ho
    apply BitVec.eq_of_getLsbD_eq
    intro j hj
    by_cases h32 : j < 32
    · have := congrArg (fun z => BitVec.getLsbD z j) hc
      simp only [BitVec.getLsbD_and, BitVec.getLsbD_setWidth, h32, decide_true, Bool.true_and] at this
      have hm : ∀ j, j < 32 → (0xF0F0F0F0#64).getLsbD j = (0xF0F0F0F0#32).getLsbD j := by decide +kernel
      rw [BitVec.getLsbD_and, hm j h32]
      exact this
    · have hm : ∀ j, j < 64 → ¬ j < 32 → (0xF0F0F0F0#64).getLsbD j = false := by decide +kernel
      rw [BitVec.getLsbD_and, hm j hj h32, Bool.and_false]

/-- For every `i` between 1 and the number of ones there is a position to select, so the
hypothesis `IsSelect` above covers all valid calls. -/
theorem C07_select_exists (x : W64) (i : Nat) (h1 : 1 ≤ i) (h2 : i ≤ ones x) : ∃ p, IsSelect x i p := by
  have key : ∀ n, n ≤ 64 → i ≤ onesBelow x n → ∃ p, p < n ∧ x.getLsbD p = true ∧ onesBelow x p + 1 = i := by
    intro n
    induction n with
    | zero => intro _ h; simp [onesBelow] at h; omega
    | succ n ih =>
      intro hn h
      by_cases hle : i ≤ onesBelow x n
      · obtain ⟨p, hp, hx⟩ := ih (by omega) hle
        exact ⟨p, by omega, hx⟩
      · rw [onesBelow_succ] at h
        cases hb : x.getLsbD n
        · rw [hb] at h; simp at h; omega
        · rw [hb] at h; simp at h
          exact ⟨n, by omega, hb, by omega⟩
  exact key 64 (Nat.le_refl _) h2

example := C07_sel_partial 0x8421#64 3 10 ⟨by decide, by decide, by decide⟩ (by decide) (by decide)

theorem C07_sel_refuted : ∃ x i p, IsSelect x i p ∧ sel x i ≠ some (p + 1) :=
  ⟨0xFFFFFFFFFFFFFFFF#64, 2, 1, ⟨by decide, by decide, by decide⟩, by decide⟩

example : IsSelect 0x8421#64 3 10 ∧ sel 0x8421#64 3 = some 11 ∧ Hw.sel 0x8421#64 3 = some 11 :=
  ⟨⟨by decide, by decide, by decide⟩, by decide, by decide +kernel⟩

/-! ### C08 -/

theorem C08_swaps (x : W64) (j : Nat) (hj : j < 64) :
    (swapPi1 x).getLsbD j = x.getLsbD (j ^^^ 1) ∧ (swapPi2 x).getLsbD j = x.getLsbD (j ^^^ 2) ∧
    (swapPi4 x).getLsbD j = x.getLsbD (j ^^^ 4) ∧ (swapPi8 x).getLsbD j = x.getLsbD (j ^^^ 8) ∧
    (swapPi16 x).getLsbD j = x.getLsbD (j ^^^ 16) ∧ (swapPi32 x).getLsbD j = x.getLsbD (j ^^^ 32) :=
  ⟨swapPi1_bit x j hj, swapPi2_bit x j hj, swapPi4_bit x j hj, swapPi8_bit x j hj, swapPi16_bit x j hj,
    swapPi32_bit x j hj⟩

example := C08_swaps 0xABCD#64 13 (by decide)

theorem invol_of_bit (f : W64 → W64) (k : Nat) (hk : k < 64)
    (hf : ∀ x j, j < 64 → (f x).getLsbD j = x.getLsbD (j ^^^ k)) (x : W64) : f (f x) = x := by
  apply BitVec.eq_of_getLsbD_eq
  intro j hj
  have : j ^^^ k < 64 := Nat.xor_lt_two_pow (n := 6) hj hk
  rw [hf _ j hj, hf _ _ this, Nat.xor_assoc, Nat.xor_self, Nat.xor_zero]

theorem C08_swaps_involutive (x : W64) :
    swapPi1 (swapPi1 x) = x ∧ swapPi2 (swapPi2 x) = x ∧ swapPi4 (swapPi4 x) = x ∧
    swapPi8 (swapPi8 x) = x ∧ swapPi16 (swapPi16 x) = x ∧ swapPi32 (swapPi32 x) = x :=
  ⟨invol_of_bit _ 1 (by decide) swapPi1_bit x, invol_of_bit _ 2 (by decide) swapPi2_bit x,
   invol_of_bit _ 4 (by decide) swapPi4_bit x, invol_of_bit _ 8 (by decide) swapPi8_bit x,
   invol_of_bit _ 16 (by decide) swapPi16_bit x, invol_of_bit _ 32 (by decide) swapPi32_bit x⟩

theorem ones_of_bit (f : W64 → W64) (k : Nat) (hp : ((List.range 64).map (· ^^^ k)).Perm (List.range 64))
    (hf : ∀ x j, j < 64 → (f x).getLsbD j = x.getLsbD (j ^^^ k)) (x : W64) : ones (f x) = ones x := by
  have h2 : ones (f x) = ((List.range 64).map (· ^^^ k)).countP (fun i => x.getLsbD i) := by
    rw [List.countP_map]
    apply List.countP_congr
    intro a ha
    rw [hf x a (List.mem_range.1 ha)]; rfl
  rw [h2]
  exact hp.countP_eq _

theorem C08_swaps_keep_count (x : W64) :
    ones (swapPi1 x) = ones x ∧ ones (swapPi2 x) = ones x ∧ ones (swapPi4 x) = ones x ∧
    ones (swapPi8 x) = ones x ∧ ones (swapPi16 x) = ones x ∧ ones (swapPi32 x) = ones x :=
  ⟨ones_of_bit _ 1 (by decide +kernel) swapPi1_bit x, ones_of_bit _ 2 (by decide +kernel) swapPi2_bit x,
   ones_of_bit _ 4 (by decide +kernel) swapPi4_bit x, ones_of_bit _ 8 (by decide +kernel) swapPi8_bit x,
   ones_of_bit _ 16 (by decide +kernel) swapPi16_bit x, ones_of_bit _ 32 (by decide +kernel) swapPi32_bit x⟩

example : swapPi1 0b0110#64 = 0b1001#64 ∧ swapPi32 0x1#64 = 0x100000000#64 := by decide

/-! ### C09 -/

theorem C09_widthMask (w : Nat) (hw : w < 64) :
    ∃ m, widthMask w = some m ∧ ∀ j, m.getLsbD j = decide (j < w) := by
  refine ⟨(1#64 <<< w) - 1#64, by simp [widthMask, hw], ?_⟩
  intro j
  have h2p : (2:Nat) ^ w < 2 ^ 64 := Nat.pow_lt_pow_right (by omega) hw
  have hone : (1#64 <<< w).toNat = 2 ^ w := by
    rw [BitVec.toNat_shiftLeft, Nat.shiftLeft_eq]
    simp only [BitVec.toNat_ofNat, Nat.reduceMod, Nat.one_mul, Nat.reducePow]
    exact Nat.mod_eq_of_lt (by simpa using h2p)
  have hval : ((1#64 <<< w) - 1#64).toNat = 2 ^ w - 1 := by
    have : 0 < 2 ^ w := Nat.two_pow_pos w
    rw [sub_toNat _ _ (by rw [hone]; simp; omega), hone]; rfl
  rw [BitVec.getLsbD, hval, Nat.testBit_two_pow_sub_one]

example := C09_widthMask 63 (by decide)

theorem C09_widthMask_overflow (w : Nat) (hw : 64 ≤ w) : widthMask w = none := by
  simp [widthMask]; omega

theorem C09_width_mask_constant (w : Nat) (hw : w ≤ 64) (j : Nat) (hj : j < 64) :
    (widthMaskT w).getLsbD j = decide (j < w) := by
  by_cases h : w = 64
  · subst h
    rw [widthMaskT, if_pos rfl, BitVec.getLsbD_allOnes]
  · obtain ⟨m, hm, hb⟩ := C09_widthMask w (by omega)
    have : widthMaskT w = m := by
      simp only [widthMask, show w < 64 by omega, if_true, Option.some.injEq] at hm
      simp [widthMaskT, h, hm]
    rw [this, hb]

example := C09_width_mask_constant 64 (by decide) 63 (by decide)

theorem C09_offsetMask (o : Nat) (ho : o < 64) :
    ∃ m, offsetMask o = some m ∧ ∀ j, m.getLsbD j = decide (j = o) := by
  refine ⟨1#64 <<< o, by simp [offsetMask, ho], ?_⟩
  intro j
  rw [BitVec.getLsbD_shiftLeft]
  by_cases h : j = o
  · subst h; simp [ho]
  · by_cases h2 : j < o
    · simp [h2, h]
    · have : j - o ≠ 0 := by omega
      simp [h, h2, this]

example := C09_offsetMask 63 (by decide)

theorem C09_bextr (x : W64) (s l : Nat) (hs : s < 64) (hl : l < 64) :
    ∃ y, bextr x s l = some y ∧ ∀ j, y.getLsbD j = (decide (j < l) && x.getLsbD (s + j)) := by
  obtain ⟨m, hm, hb⟩ := C09_widthMask l hl
  refine ⟨(x >>> s) &&& m, by simp [bextr, hm, hs], ?_⟩
  intro j
  rw [BitVec.getLsbD_and, hb, BitVec.getLsbD_ushiftRight, Bool.and_comm]

theorem C09_cnt (x : W64) (w : Nat) (hw : w < 64) :
    ∃ c, cnt x w = some c ∧ c.toNat = onesBelow x w := by
  obtain ⟨m, hm, hb⟩ := C09_widthMask w hw
  refine ⟨popcnt64 (x &&& m), by simp [cnt, hm], ?_⟩
  rw [popcnt64_toNat]
  have h0 : ones (x &&& m) = onesBelow (x &&& m) (w + (64 - w)) := by
    rw [show w + (64 - w) = 64 by omega]; rfl
  rw [h0, onesBelow_shift]
  have h1 : onesBelow ((x &&& m) >>> w) (64 - w) = 0 := by
    unfold onesBelow
    rw [List.countP_eq_zero]
    intro a ha
    rw [BitVec.getLsbD_ushiftRight, BitVec.getLsbD_and, hb]
    simp
  rw [h1, Nat.add_zero]
  apply onesBelow_congr
  intro i hi
  rw [BitVec.getLsbD_and, hb]
  simp [hi]

example := C09_cnt 0xFF#64 3 (by decide)
example := C09_bextr 0xABCD#64 4 8 (by decide) (by decide)
example := C09_widthMask_overflow 64 (by decide)

example : widthMask 5 = some 31#64 ∧ bextr 0xABCD#64 4 8 = some 0xBC#64 ∧ cnt 0xFF#64 3 = some 3#64 := by decide

/-! ### C10 -/

theorem bit_word (x : W256) (j : Nat) (hj : j < 64) :
    x.bit j = x.w0.getLsbD j ∧ x.bit (64 + j) = x.w1.getLsbD j ∧ x.bit (128 + j) = x.w2.getLsbD j ∧
    x.bit (192 + j) = x.w3.getLsbD j := by
  refine ⟨?_, ?_, ?_, ?_⟩
  · simp [W256.bit, hj]
  · simp only [W256.bit]
    rw [if_neg (by omega), if_pos (by omega)]
    exact congrArg _ (by omega)
  · simp only [W256.bit]
    rw [if_neg (by omega), if_neg (by omega), if_pos (by omega)]
    exact congrArg _ (by omega)
  · simp only [W256.bit]
    rw [if_neg (by omega), if_neg (by omega), if_neg (by omega)]
    exact congrArg _ (by omega)

theorem countP_shift (P : Nat → Bool) (a b : Nat) :
    (List.range (a + b)).countP P = (List.range a).countP P + (List.range b).countP (fun i => P (a + i)) := by
  rw [List.range_add, List.countP_append, List.countP_map]; rfl

theorem C10_popcnt256 (x : W256) : popcnt256 x = ones256 x := by
  unfold popcnt256 ones256
  rw [popcnt64_toNat, popcnt64_toNat, popcnt64_toNat, popcnt64_toNat]
  have e := countP_shift x.bit 192 64
  have e2 := countP_shift x.bit 128 64
  have e3 := countP_shift x.bit 64 64
  have h0 : (List.range 64).countP x.bit = ones x.w0 :=
    List.countP_congr (fun a ha => by rw [(bit_word x a (List.mem_range.1 ha)).1])
  have h1 : (List.range 64).countP (fun i => x.bit (64 + i)) = ones x.w1 :=
    List.countP_congr (fun a ha => by rw [(bit_word x a (List.mem_range.1 ha)).2.1])
  have h2 : (List.range 64).countP (fun i => x.bit (128 + i)) = ones x.w2 :=
    List.countP_congr (fun a ha => by rw [(bit_word x a (List.mem_range.1 ha)).2.2.1])
  have h3 : (List.range 64).countP (fun i => x.bit (192 + i)) = ones x.w3 :=
    List.countP_congr (fun a ha => by rw [(bit_word x a (List.mem_range.1 ha)).2.2.2])
  simp only [Nat.reduceAdd] at e e2 e3
  omega

theorem zero_bits (w : W64) (h : ¬ w ≠ 0#64) (j : Nat) : w.getLsbD j = false := by
  have : w = 0#64 := Classical.byContradiction h
  rw [this]; simp

theorem ctz_lt (w : W64) (h : w ≠ 0#64) : ctz64 w < 64 := by
  obtain ⟨a, b, _⟩ := ctz64_isCtz w
  rcases Nat.lt_or_ge (ctz64 w) 64 with hlt | hge
  · exact hlt
  · obtain ⟨u, hu⟩ := (ne_zero_iff w).1 h
    have := b u (by have := BitVec.lt_of_getLsbD hu; omega)
    rw [hu] at this
    exact absurd this (by decide)

theorem bit_word' (x : W256) (j : Nat) (hj : j < 256) :
    x.bit j = (if j / 64 = 0 then x.w0 else if j / 64 = 1 then x.w1 else if j / 64 = 2 then x.w2 else x.w3).getLsbD
      (j % 64) := by
  rcases (show j / 64 = 0 ∨ j / 64 = 1 ∨ j / 64 = 2 ∨ j / 64 = 3 by omega) with h | h | h | h
  · rw [if_pos h, ← (bit_word x (j % 64) (by omega)).1]; exact congrArg _ (by omega)
  · rw [if_neg (by omega), if_pos h, ← (bit_word x (j % 64) (by omega)).2.1]; exact congrArg _ (by omega)
  · rw [if_neg (by omega), if_neg (by omega), if_pos h, ← (bit_word x (j % 64) (by omega)).2.2.1]
    exact congrArg _ (by omega)
  · rw [if_neg (by omega), if_neg (by omega), if_neg (by omega), ← (bit_word x (j % 64) (by omega)).2.2.2]
    exact congrArg _ (by omega)

theorem C10_ctz256 (x : W256) : IsCtz256 x (ctz256 x) := by
  unfold ctz256
  have z := zero_bits
  split
  · next h =>
    obtain ⟨_, b, c⟩ := ctz64_isCtz x.w0
    have hl := ctz_lt _ h
    refine ⟨by omega, ?_, ?_⟩
    · intro j hj
      rw [(bit_word x j (by omega)).1]
      exact b j (by omega)
    · intro _
      rw [(bit_word x _ (show 64 * 0 + ctz64 x.w0 < 64 by omega)).1, Nat.mul_zero, Nat.zero_add]
      exact c hl
  · next h0 =>
    split
    · next h =>
      obtain ⟨_, b, c⟩ := ctz64_isCtz x.w1
      have hl := ctz_lt _ h
      refine ⟨by omega, ?_, ?_⟩
      · intro j hj
        by_cases hj0 : j < 64
        · rw [(bit_word x j hj0).1]; exact z _ h0 _
        · have := (bit_word x (j - 64) (by omega)).2.1
          rw [show 64 + (j - 64) = j by omega] at this
          rw [this]; exact b _ (by omega)
      · intro _
        have := (bit_word x _ hl).2.1
        rw [show 64 * 1 + ctz64 x.w1 = 64 + ctz64 x.w1 by omega, this]
        exact c hl
    · next h1 =>
      split
      · next h =>
        obtain ⟨_, b, c⟩ := ctz64_isCtz x.w2
        have hl := ctz_lt _ h
        refine ⟨by omega, ?_, ?_⟩
        · intro j hj
          rw [bit_word' x j (by omega)]
          split
          · exact z _ h0 _
          · split
            · exact z _ h1 _
            · rw [if_pos (by omega)]; exact b _ (by omega)
        · intro _
          have := (bit_word x _ hl).2.2.1
          rw [show 64 * 2 + ctz64 x.w2 = 128 + ctz64 x.w2 by omega, this]
          exact c hl
      · next h2 =>
        split
        · next h =>
          obtain ⟨_, b, c⟩ := ctz64_isCtz x.w3
          have hl := ctz_lt _ h
          refine ⟨by omega, ?_, ?_⟩
          · intro j hj
            rw [bit_word' x j (by omega)]
            split
            · exact z _ h0 _
            · split
              · exact z _ h1 _
              · split
                · exact z _ h2 _
                · exact b _ (by omega)
          · intro _
            have := (bit_word x _ hl).2.2.2
            rw [show 64 * 3 + ctz64 x.w3 = 192 + ctz64 x.w3 by omega, this]
            exact c hl
        · next h3 =>
          refine ⟨Nat.le_refl _, ?_, fun h => by omega⟩
          intro j hj
          rw [bit_word' x j (by omega)]
          split
          · exact z _ h0 _
          · split
            · exact z _ h1 _
            · split
              · exact z _ h2 _
              · exact z _ h3 _

theorem C10_isZero256 (x : W256) : isZero256 x = true ↔ ∀ j, j < 256 → x.bit j = false := by
  constructor
  · intro h j hj
    unfold isZero256 at h
    split at h
    · simp at h
    · next h0 =>
      split at h
      · simp at h
      · next h1 =>
        split at h
        · simp at h
        · next h2 =>
          split at h
          · simp at h
          · next h3 =>
            rw [bit_word' x j hj]
            split
            · exact zero_bits _ h0 _
            · split
              · exact zero_bits _ h1 _
              · split
                · exact zero_bits _ h2 _
                · exact zero_bits _ h3 _
  · intro h
    have : x = zero256 := by
      apply W256.ext_bit
      intro j hj
      rw [h j hj, bit_word' zero256 j hj]
      simp [zero256]
    rw [this]; decide

theorem C10_set256 (b : Bool) (j : Nat) (hj : j < 256) : (set256 b).bit j = b := by
  rw [bit_word' _ j hj]
  have : j % 64 < 64 := Nat.mod_lt _ (by decide)
  cases b
  · simp [set256]
  · simp only [set256, if_true]
    split <;> (try split) <;> (try split) <;> (rw [BitVec.getLsbD_allOnes]; simpa using this)

example := C10_set256 true 200 (by decide)

theorem C10_copy256 (x : W256) : copy256 x = x := rfl

example : popcnt256 ⟨1#64, 0#64, 3#64, 0#64⟩ = 3 ∧ ctz256 ⟨0#64, 0#64, 8#64, 1#64⟩ = 131 := by decide

/-! ### C11 -/

/-- `clz256` is right exactly for zero. (Full property: for all words; see `C11_clz256_refuted`.) -/
theorem C11_clz256_partial (x : W256) : IsClz256 x (clz256 x) ↔ x = zero256 := by
  have hclt : ∀ w : W64, w ≠ 0#64 → clz64 w < 64 ∧ w.getLsbD (63 - clz64 w) = true ∧
      ∀ u, w.getLsbD u = true → u ≤ 63 - clz64 w := by
    intro w hw
    obtain ⟨a, b, c⟩ := clz64_isClz w
    have hlt : clz64 w < 64 := by
      rcases Nat.lt_or_ge (clz64 w) 64 with hlt | hge
      · exact hlt
      · obtain ⟨u, hu⟩ := (ne_zero_iff w).1 hw
        have hu64 := BitVec.lt_of_getLsbD hu
        have := b (63 - u) (by omega)
        rw [show 64 - 1 - (63 - u) = u by omega, hu] at this
        exact absurd this (by decide)
    refine ⟨hlt, c hlt, ?_⟩
    intro u hu
    have hu64 := BitVec.lt_of_getLsbD hu
    apply Classical.byContradiction
    intro hn
    have := b (63 - u) (by omega)
    rw [show 64 - 1 - (63 - u) = u by omega, hu] at this
    exact absurd this (by decide)
  constructor
  · intro h
    apply Classical.byContradiction
    intro hne
    obtain ⟨a, b, c⟩ := h
    -- the highest one at index t would have to satisfy 255 - t = clz256 x
    unfold clz256 at a b c
    split at a
    · next h3 =>
      rw [if_pos h3] at b c
      obtain ⟨l3, t3, m3⟩ := hclt _ h3
      have := b (clz64 x.w3) (by omega)
      rw [show 255 - clz64 x.w3 = 192 + (63 - clz64 x.w3) by omega, (bit_word x _ (by omega)).2.2.2, t3] at this
      exact absurd this (by decide)
    · next h3 =>
      rw [if_neg h3] at b c
      split at a
      · next h2 =>
        rw [if_pos h2] at b c
        obtain ⟨l2, t2, m2⟩ := hclt _ h2
        have := b (64 + clz64 x.w2) (by omega)
        rw [show 255 - (64 + clz64 x.w2) = 128 + (63 - clz64 x.w2) by omega, (bit_word x _ (by omega)).2.2.1, t2] at this
        exact absurd this (by decide)
      · next h2 =>
        rw [if_neg h2] at b c
        split at a
        · next h1 =>
          rw [if_pos h1] at b c
          obtain ⟨l1, t1, m1⟩ := hclt _ h1
          have := c (by omega)
          rw [show 255 - (64 * 1 + clz64 x.w1) = 128 + (63 - clz64 x.w1) by omega, (bit_word x _ (by omega)).2.2.1,
            zero_bits _ h2] at this
          exact absurd this (by decide)
        · next h1 =>
          rw [if_neg h1] at b c
          split at a
          · next h0 =>
            rw [if_pos h0] at b c
            obtain ⟨l0, t0, m0⟩ := hclt _ h0
            have := c (by omega)
            rw [show 255 - (64 * 0 + clz64 x.w0) = 192 + (63 - clz64 x.w0) by omega, (bit_word x _ (by omega)).2.2.2,
              zero_bits _ h3] at this
            exact absurd this (by decide)
          · next h0 =>
            apply hne
            apply W256.ext_bit
            intro j hj
            rw [bit_word' x j hj, bit_word' zero256 j hj]
            have z : (if j / 64 = 0 then zero256.w0 else if j / 64 = 1 then zero256.w1 else if j / 64 = 2 then
              zero256.w2 else zero256.w3).getLsbD (j % 64) = false := by simp [zero256]
            rw [z]
            split
            · exact zero_bits _ h0 _
            · split
              · exact zero_bits _ h1 _
              · split
                · exact zero_bits _ h2 _
                · exact zero_bits _ h3 _
  · rintro rfl
    have : clz256 zero256 = 256 := by decide
    rw [this]
    refine ⟨Nat.le_refl _, ?_, fun h => by omega⟩
    intro j hj
    rw [bit_word' _ _ (by omega)]
    simp [zero256]

theorem C11_clz256_refuted : ¬ ∀ x, IsClz256 x (clz256 x) := by
  intro h
  exact absurd ((C11_clz256_partial ⟨1#64, 0#64, 0#64, 0#64⟩).1 (h _)) (by decide)

example : clz256 ⟨1#64, 0#64, 0#64, 0#64⟩ = 63 ∧ IsClz256 ⟨1#64, 0#64, 0#64, 0#64⟩ 255 :=
  ⟨by decide, by decide, by decide +kernel, by decide⟩

/-! ### C12 -/

theorem C12_xorMap (x : W256) (mask : BitVec 8) (j : Nat) (hj : j < 256) :
    (xorMap x mask).bit j = x.bit (j ^^^ mask.toNat) := xorMap_bit x mask j hj

example := C12_xorMap ⟨1#64, 2#64, 4#64, 8#64⟩ 0xA5#8 200 (by decide)

theorem C12_xorMap_involutive (x : W256) (mask : BitVec 8) : xorMap (xorMap x mask) mask = x := by
  apply W256.ext_bit
  intro j hj
  have := xor256 j mask.toNat hj mask.isLt
  rw [xorMap_bit _ _ _ hj, xorMap_bit _ _ _ this, Nat.xor_assoc, Nat.xor_self, Nat.xor_zero]

example : xorMap ⟨1#64, 0#64, 0#64, 0#64⟩ 0xC1#8 = ⟨0#64, 0#64, 0#64, 2#64⟩ := by decide

end Verif.Bits
