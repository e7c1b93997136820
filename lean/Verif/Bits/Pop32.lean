/-
Helper lemmas: exact behaviour of the portable 32 bit popcount.
-/
import Verif.Bits.PopLemmas

namespace Verif.Bits

theorem exists_nibbles {x : Nat} (h : x < 2 ^ 32) :
    ∃ a b c d e f g i : Nat, a < 16 ∧ b < 16 ∧ c < 16 ∧ d < 16 ∧ e < 16 ∧ f < 16 ∧ g < 16 ∧
      i < 16 ∧ x = ofD 4 [a, b, c, d, e, f, g, i] := by
  refine ⟨x % 16, x / 16 % 16, x / 256 % 16, x / 4096 % 16, x / 65536 % 16, x / 1048576 % 16,
    x / 16777216 % 16, x / 268435456 % 16, ?_, ?_, ?_, ?_, ?_, ?_, ?_, ?_, ?_⟩ <;>
    first
      | exact Nat.mod_lt _ (by decide)
      | (simp only [ofD]; omega)

/-- Nibble level effect of the first two steps. -/
def g1 (a : Nat) : Nat := a - (a / 2 &&& 5)
def g2 (a : Nat) : Nat := (a &&& 3) + (a / 4 &&& 3)

theorem nib1 : ∀ a : Fin 16, ∀ r : Fin 2,
    ((a.val / 2 + 8 * r.val) &&& 5) = (a.val / 2 &&& 5) ∧ (a.val / 2 &&& 5) ≤ a.val := by
  decide +kernel

theorem nib2 : ∀ a : Fin 16, ∀ r : Fin 4,
    ((a.val / 4 + 4 * r.val) &&& 3) = (a.val / 4 &&& 3) := by
  decide +kernel

theorem nib12 : ∀ a : Fin 16, g1 a.val < 16 ∧ g2 (g1 a.val) ≤ 4 ∧ g2 (g1 a.val) = onesN 4 a.val ∧
    (onesN 4 a.val = 4 ↔ a.val = 15) := by
  decide +kernel

theorem nstage1 : ∀ l : List Nat, (∀ a ∈ l, a < 16) →
    (ofD 4 l / 2 &&& ofD 4 (l.map fun _ => 5)) ≤ ofD 4 l ∧
    ofD 4 l - (ofD 4 l / 2 &&& ofD 4 (l.map fun _ => 5)) = ofD 4 (l.map g1)
  | [], _ => by simp [ofD]
  | a :: l, h => by
    simp only [List.mem_cons, forall_eq_or_imp] at h
    obtain ⟨ih1, ih2⟩ := nstage1 l h.2
    simp only [ofD, List.map_cons]
    generalize ofD 4 l = L at *
    have e : (a + 2 ^ 4 * L) / 2 = (a / 2 + 8 * (L % 2)) + 2 ^ 4 * (L / 2) := by omega
    have b1 := nib1 ⟨a, h.1⟩ ⟨L % 2, by omega⟩
    simp only at b1
    rw [e, and_split _ _ (by omega) (by decide), b1.1]
    generalize L / 2 &&& ofD 4 (l.map fun _ => 5) = M at *
    generalize ofD 4 (l.map g1) = R at *
    simp only [g1]
    have := b1.2
    generalize a / 2 &&& 5 = q at *
    omega

theorem nstage2 : ∀ l : List Nat, (∀ a ∈ l, a < 16) →
    (ofD 4 l &&& ofD 4 (l.map fun _ => 3)) + (ofD 4 l / 4 &&& ofD 4 (l.map fun _ => 3)) =
      ofD 4 (l.map g2)
  | [], _ => by simp [ofD]
  | a :: l, h => by
    simp only [List.mem_cons, forall_eq_or_imp] at h
    have ih := nstage2 l h.2
    simp only [ofD, List.map_cons]
    generalize ofD 4 l = L at *
    have e : (a + 2 ^ 4 * L) / 4 = (a / 4 + 4 * (L % 4)) + 2 ^ 4 * (L / 4) := by omega
    have b1 := nib2 ⟨a, h.1⟩ ⟨L % 4, by omega⟩
    simp only at b1
    rw [e, and_split _ _ (by omega) (by decide), and_split _ _ (by omega) (by decide), b1, ← ih]
    simp only [g2]
    omega

theorem sum4a (a b c d e f g i : Nat) (ha : a ≤ 4) (hb : b ≤ 4) (hc : c ≤ 4) (hd : d ≤ 4) (he : e ≤ 4)
    (hf : f ≤ 4) (_hg : g ≤ 4) (_hi : i ≤ 4) :
    (0x10101010 * ofD 4 [a, b, c, d, e, f, g, i]) % 2 ^ 32 / 2 ^ 28 = (a + c + e + g) % 16 := by
  have key : ∀ lo s h : Nat, lo < 2 ^ 28 → (lo + 2 ^ 28 * s + 2 ^ 32 * h) % 2 ^ 32 / 2 ^ 28 = s % 16 := by
    intro lo s h h1
    omega
  rw [← key (16 * a + 16 ^ 2 * b + 16 ^ 3 * (a + c) + 16 ^ 4 * (b + d) + 16 ^ 5 * (a + c + e) + 16 ^ 6 * (b + d + f))
    (a + c + e + g)
    (b + d + f + i + 16 * (c + e + g) + 16 ^ 2 * (d + f + i) + 16 ^ 3 * (e + g) + 16 ^ 4 * (f + i) + 16 ^ 5 * g + 16 ^ 6 * i)
    (by omega)]
  congr 2
  simp only [ofD]
  omega

theorem sum4b (a b c d e f g i : Nat) (ha : a ≤ 4) (hb : b ≤ 4) (hc : c ≤ 4) (hd : d ≤ 4) (he : e ≤ 4)
    (hf : f ≤ 4) (_hg : g ≤ 4) (_hi : i ≤ 4) :
    (0x01010101 * ofD 4 [a, b, c, d, e, f, g, i]) % 2 ^ 32 / 2 ^ 28 =
      (b + d + f + i + (a + c + e + g) / 16) % 16 := by
  have key : ∀ lo t s h : Nat, lo < 2 ^ 24 → (lo + 2 ^ 24 * t + 2 ^ 28 * s + 2 ^ 32 * h) % 2 ^ 32 / 2 ^ 28 = (s + t / 16) % 16 := by
    intro lo t s h h1
    omega
  rw [← key (a + 16 * b + 16 ^ 2 * (a + c) + 16 ^ 3 * (b + d) + 16 ^ 4 * (a + c + e) + 16 ^ 5 * (b + d + f))
    (a + c + e + g) (b + d + f + i)
    (c + e + g + 16 * (d + f + i) + 16 ^ 2 * (e + g) + 16 ^ 3 * (f + i) + 16 ^ 4 * g + 16 ^ 5 * i)
    (by omega)]
  congr 2
  simp only [ofD]
  omega

/-- Exact value of the portable popcnt32 in terms of the nibble counts. -/
theorem popcnt32_digits (x : W32) (a b c d e f g i : Nat) (ha : a < 16) (hb : b < 16) (hc : c < 16) (hd : d < 16)
    (he : e < 16) (hf : f < 16) (hg : g < 16) (hi : i < 16)
    (hx : x.toNat = ofD 4 [a, b, c, d, e, f, g, i]) :
    (popcnt32 x).toNat = (onesN 4 a + onesN 4 c + onesN 4 e + onesN 4 g) % 16 +
      (onesN 4 b + onesN 4 d + onesN 4 f + onesN 4 i +
        (onesN 4 a + onesN 4 c + onesN 4 e + onesN 4 g) / 16) % 16 := by
  have hall : ∀ t ∈ [a, b, c, d, e, f, g, i], t < 16 := by
    simp only [List.mem_cons, List.not_mem_nil, or_false, forall_eq_or_imp, forall_eq]
    exact ⟨ha, hb, hc, hd, he, hf, hg, hi⟩
  have h1 := nstage1 [a, b, c, d, e, f, g, i] hall
  have m5 : (0x55555555#32).toNat = ofD 4 [5, 5, 5, 5, 5, 5, 5, 5] := by decide
  have m3 : (0x33333333#32).toNat = ofD 4 [3, 3, 3, 3, 3, 3, 3, 3] := by decide
  simp only [List.map_cons, List.map_nil] at h1
  have e1 : (x - ((x >>> 1) &&& 0x55555555#32)).toNat =
      ofD 4 [g1 a, g1 b, g1 c, g1 d, g1 e, g1 f, g1 g, g1 i] := by
    rw [sub_toNat, BitVec.toNat_and, BitVec.toNat_ushiftRight, hx, m5, Nat.shiftRight_eq_div_pow, h1.2]
    rw [BitVec.toNat_and, BitVec.toNat_ushiftRight, hx, m5, Nat.shiftRight_eq_div_pow]
    exact h1.1
  have hn : ∀ t, t < 16 → g1 t < 16 ∧ g2 (g1 t) = onesN 4 t ∧ onesN 4 t ≤ 4 := by
    intro t ht
    have h := nib12 ⟨t, ht⟩
    simp only at h
    exact ⟨h.1, h.2.2.1, h.2.2.1 ▸ h.2.1⟩
  have h2 := nstage2 ([a, b, c, d, e, f, g, i].map g1) (by
    intro t ht
    obtain ⟨s, hs, rfl⟩ := List.mem_map.1 ht
    exact (hn s (hall s hs)).1)
  simp only [List.map_cons, List.map_nil] at h2
  unfold popcnt32
  simp only
  generalize x - ((x >>> 1) &&& 0x55555555#32) = y at e1
  have e2 : ((y &&& 0x33333333#32) + ((y >>> 2) &&& 0x33333333#32)).toNat =
      ofD 4 [onesN 4 a, onesN 4 b, onesN 4 c, onesN 4 d, onesN 4 e, onesN 4 f, onesN 4 g, onesN 4 i] := by
    rw [BitVec.toNat_add, BitVec.toNat_and, BitVec.toNat_and, BitVec.toNat_ushiftRight, e1, m3,
      Nat.shiftRight_eq_div_pow, h2, (hn a ha).2.1, (hn b hb).2.1, (hn c hc).2.1, (hn d hd).2.1,
      (hn e he).2.1, (hn f hf).2.1, (hn g hg).2.1, (hn i hi).2.1, Nat.mod_eq_of_lt]
    apply ofD_lt (w := 4) [onesN 4 a, onesN 4 b, onesN 4 c, onesN 4 d, onesN 4 e, onesN 4 f, onesN 4 g, onesN 4 i]
    simp only [List.mem_cons, List.not_mem_nil, or_false, forall_eq_or_imp, forall_eq]
    have := (hn a ha).2.2; have := (hn b hb).2.2; have := (hn c hc).2.2; have := (hn d hd).2.2
    have := (hn e he).2.2; have := (hn f hf).2.2; have := (hn g hg).2.2; have := (hn i hi).2.2
    omega
  generalize (y &&& 0x33333333#32) + ((y >>> 2) &&& 0x33333333#32) = z at e2
  rw [BitVec.toNat_add, BitVec.toNat_ushiftRight, BitVec.toNat_ushiftRight, BitVec.toNat_mul, BitVec.toNat_mul,
    e2, Nat.shiftRight_eq_div_pow, Nat.shiftRight_eq_div_pow,
    show (0x10101010#32).toNat = 0x10101010 from rfl, show (0x01010101#32).toNat = 0x01010101 from rfl,
    sum4a _ _ _ _ _ _ _ _ (hn a ha).2.2 (hn b hb).2.2 (hn c hc).2.2 (hn d hd).2.2 (hn e he).2.2 (hn f hf).2.2
      (hn g hg).2.2 (hn i hi).2.2,
    sum4b _ _ _ _ _ _ _ _ (hn a ha).2.2 (hn b hb).2.2 (hn c hc).2.2 (hn d hd).2.2 (hn e he).2.2 (hn f hf).2.2
      (hn g hg).2.2 (hn i hi).2.2]
  omega

theorem and_eq_iff (x m : Nat) (w : Nat) (hm : m = 2 ^ w - 1) (hx : x < 2 ^ w) : x &&& m = x := by
  rw [hm, Nat.and_two_pow_sub_one_eq_mod, Nat.mod_eq_of_lt hx]

theorem popcnt32_iff (x : W32) : (popcnt32 x).toNat = ones x ↔
    (x &&& 0x0F0F0F0F#32 ≠ 0x0F0F0F0F#32 ∧ x &&& 0xF0F0F0F0#32 ≠ 0xF0F0F0F0#32) := by
  obtain ⟨a, b, c, d, e, f, g, i, ha, hb, hc, hd, he, hf, hg, hi, hx⟩ := exists_nibbles x.isLt
  have hall : ∀ t ∈ [a, b, c, d, e, f, g, i], t < 16 := by
    simp only [List.mem_cons, List.not_mem_nil, or_false, forall_eq_or_imp, forall_eq]
    exact ⟨ha, hb, hc, hd, he, hf, hg, hi⟩
  have hv := popcnt32_digits x a b c d e f g i ha hb hc hd he hf hg hi hx
  have ho := onesN_ofD (w := 4) [a, b, c, d, e, f, g, i] hall
  simp only [List.length_cons, List.length_nil, List.map_cons, List.map_nil, List.sum_cons, List.sum_nil] at ho
  have ho' : onesN 32 (ofD 4 [a, b, c, d, e, f, g, i]) = _ := ho
  rw [hv, ones_eq, hx, ho']
  have e1 : x &&& 0x0F0F0F0F#32 = 0x0F0F0F0F#32 ↔ (a = 15 ∧ c = 15 ∧ e = 15 ∧ g = 15) := by
    rw [← BitVec.toNat_inj, BitVec.toNat_and, hx,
      show (0x0F0F0F0F#32).toNat = ofD 4 [15, 0, 15, 0, 15, 0, 15, 0] by decide,
      ofD_and (w := 4) [a, b, c, d, e, f, g, i] [15, 0, 15, 0, 15, 0, 15, 0] rfl hall (by decide)]
    simp only [List.zipWith_cons_cons, List.zipWith_nil_left, Nat.and_zero,
      and_eq_iff a 15 4 rfl ha, and_eq_iff c 15 4 rfl hc, and_eq_iff e 15 4 rfl he, and_eq_iff g 15 4 rfl hg, ofD]
    omega
  have e2 : x &&& 0xF0F0F0F0#32 = 0xF0F0F0F0#32 ↔ (b = 15 ∧ d = 15 ∧ f = 15 ∧ i = 15) := by
    rw [← BitVec.toNat_inj, BitVec.toNat_and, hx,
      show (0xF0F0F0F0#32).toNat = ofD 4 [0, 15, 0, 15, 0, 15, 0, 15] by decide,
      ofD_and (w := 4) [a, b, c, d, e, f, g, i] [0, 15, 0, 15, 0, 15, 0, 15] rfl hall (by decide)]
    simp only [List.zipWith_cons_cons, List.zipWith_nil_left, Nat.and_zero,
      and_eq_iff b 15 4 rfl hb, and_eq_iff d 15 4 rfl hd, and_eq_iff f 15 4 rfl hf, and_eq_iff i 15 4 rfl hi, ofD]
    omega
  rw [Ne, Ne, e1, e2]
  have hn : ∀ t, t < 16 → onesN 4 t ≤ 4 ∧ (onesN 4 t = 4 ↔ t = 15) := by
    intro t ht
    have h := nib12 ⟨t, ht⟩
    simp only at h
    exact ⟨h.2.2.1 ▸ h.2.1, h.2.2.2⟩
  have four : ∀ p q r s : Nat, p < 16 → q < 16 → r < 16 → s < 16 →
      onesN 4 p + onesN 4 q + onesN 4 r + onesN 4 s ≤ 16 ∧
      (onesN 4 p + onesN 4 q + onesN 4 r + onesN 4 s = 16 ↔ (p = 15 ∧ q = 15 ∧ r = 15 ∧ s = 15)) := by
    intro p q r s hp hq hr hs
    rw [← (hn p hp).2, ← (hn q hq).2, ← (hn r hr).2, ← (hn s hs).2]
    have := (hn p hp).1; have := (hn q hq).1; have := (hn r hr).1; have := (hn s hs).1
    omega
  have h1 := four a c e g ha hc he hg
  have h2 := four b d f i hb hd hf hi
  rw [← h1.2, ← h2.2]
  have s1 : onesN 4 a + (onesN 4 b + (onesN 4 c + (onesN 4 d + (onesN 4 e + (onesN 4 f + (onesN 4 g +
      (onesN 4 i + 0))))))) = (onesN 4 a + onesN 4 c + onesN 4 e + onesN 4 g) +
      (onesN 4 b + onesN 4 d + onesN 4 f + onesN 4 i) := by omega
  rw [s1]
  have b1 := h1.1
  have b2 := h2.1
  clear h1 h2 s1 four hn e1 e2 ho ho' hv
  generalize onesN 4 a + onesN 4 c + onesN 4 e + onesN 4 g = A at *
  generalize onesN 4 b + onesN 4 d + onesN 4 f + onesN 4 i = B at *
  omega

end Verif.Bits
