/-
Helper lemmas: the SWAR popcounts count ones.
-/
import Verif.Bits.Swar

namespace Verif.Bits

theorem ofD_lt {w : Nat} : ∀ l : List Nat, (∀ a ∈ l, a < 2 ^ w) → ofD w l < 2 ^ (w * l.length)
  | [], _ => by simp [ofD]
  | a :: l, h => by
    simp only [List.mem_cons, forall_eq_or_imp] at h
    have ih := ofD_lt l h.2
    simp only [ofD, List.length_cons]
    rw [Nat.mul_add, Nat.mul_one, Nat.add_comm, Nat.pow_add, Nat.mul_comm (2 ^ (w * l.length))]
    have h1 := h.1
    calc 2 ^ w * ofD w l + a < 2 ^ w * ofD w l + 2 ^ w := by omega
      _ = 2 ^ w * (ofD w l + 1) := by rw [Nat.mul_add, Nat.mul_one]
      _ ≤ 2 ^ w * 2 ^ (w * l.length) := Nat.mul_le_mul_left _ ih

theorem ofD8_lt (a b c d e f g i : Nat) (ha : a < 256) (hb : b < 256) (hc : c < 256) (hd : d < 256)
    (he : e < 256) (hf : f < 256) (hg : g < 256) (hi : i < 256) :
    ofD 8 [a, b, c, d, e, f, g, i] < 2 ^ 64 := by
  apply ofD_lt (w := 8) [a, b, c, d, e, f, g, i]
  simp only [List.mem_cons, List.not_mem_nil, or_false, forall_eq_or_imp, forall_eq]
  exact ⟨ha, hb, hc, hd, he, hf, hg, hi⟩

theorem sub_toNat {n : Nat} (x y : BitVec n) (h : y.toNat ≤ x.toNat) :
    (x - y).toNat = x.toNat - y.toNat := by
  rw [BitVec.toNat_sub]
  have := x.isLt
  have e : 2 ^ n - y.toNat + x.toNat = (x.toNat - y.toNat) + 2 ^ n := by omega
  rw [e, Nat.add_mod_right, Nat.mod_eq_of_lt (by omega)]

theorem mask55 : (0x5555555555555555#64).toNat = ofD 8 [0x55, 0x55, 0x55, 0x55, 0x55, 0x55, 0x55, 0x55] := by
  decide
theorem mask33 : (0x3333333333333333#64).toNat = ofD 8 [0x33, 0x33, 0x33, 0x33, 0x33, 0x33, 0x33, 0x33] := by
  decide
theorem mask0F : (0x0F0F0F0F0F0F0F0F#64).toNat = ofD 8 [0x0F, 0x0F, 0x0F, 0x0F, 0x0F, 0x0F, 0x0F, 0x0F] := by
  decide

/-- The tail of the SWAR computation, from pair counts to the result. -/
theorem popPairs_toNat (y : W64) (a b c d e f g i : Nat)
    (hl : ∀ t ∈ [a, b, c, d, e, f, g, i], t < 256 ∧ f2 t < 256 ∧ f2 t % 16 ≤ 4 ∧ f2 t / 16 ≤ 4 ∧ f3 (f2 t) ≤ 8)
    (hy : y.toNat = ofD 8 [a, b, c, d, e, f, g, i]) :
    (popPairs y).toNat = ([a, b, c, d, e, f, g, i].map (fun t => f3 (f2 t))).sum := by
  have h2 := stage2 [a, b, c, d, e, f, g, i] (fun t ht => (hl t ht).1)
  have h3 := stage3 ([a, b, c, d, e, f, g, i].map f2) (by
    intro t ht
    obtain ⟨s, hs, rfl⟩ := List.mem_map.1 ht
    exact ⟨(hl s hs).2.1, (hl s hs).2.2.1, (hl s hs).2.2.2.1⟩)
  simp only [List.map_cons, List.map_nil] at h2 h3
  simp only [List.mem_cons, List.not_mem_nil, or_false, forall_eq_or_imp, forall_eq] at hl
  obtain ⟨ha, hb, hc, hd, he, hf, hg, hi⟩ := hl
  have h2' : ((y &&& 0x3333333333333333#64) + ((y >>> 2) &&& 0x3333333333333333#64)).toNat =
      ofD 8 [f2 a, f2 b, f2 c, f2 d, f2 e, f2 f, f2 g, f2 i] := by
    rw [BitVec.toNat_add, BitVec.toNat_and, BitVec.toNat_and, BitVec.toNat_ushiftRight, hy, mask33,
      Nat.shiftRight_eq_div_pow, h2, Nat.mod_eq_of_lt]
    exact ofD8_lt _ _ _ _ _ _ _ _ ha.2.1 hb.2.1 hc.2.1 hd.2.1 he.2.1 hf.2.1 hg.2.1 hi.2.1
  unfold popPairs
  simp only
  generalize (y &&& 0x3333333333333333#64) + ((y >>> 2) &&& 0x3333333333333333#64) = z at h2'
  have h3' : ((z + (z >>> 4)) &&& 0x0F0F0F0F0F0F0F0F#64).toNat =
      ofD 8 [f3 (f2 a), f3 (f2 b), f3 (f2 c), f3 (f2 d), f3 (f2 e), f3 (f2 f), f3 (f2 g), f3 (f2 i)] := by
    rw [BitVec.toNat_and, BitVec.toNat_add, BitVec.toNat_ushiftRight, h2', mask0F,
      Nat.shiftRight_eq_div_pow, Nat.mod_eq_of_lt, h3]
    simp only [ofD]
    omega
  generalize (z + (z >>> 4)) &&& 0x0F0F0F0F0F0F0F0F#64 = w at h3'
  rw [BitVec.toNat_ushiftRight, BitVec.toNat_mul, h3', Nat.shiftRight_eq_div_pow]
  have := sum8 (f3 (f2 a)) (f3 (f2 b)) (f3 (f2 c)) (f3 (f2 d)) (f3 (f2 e)) (f3 (f2 f)) (f3 (f2 g)) (f3 (f2 i))
    ha.2.2.2.2 hb.2.2.2.2 hc.2.2.2.2 hd.2.2.2.2 he.2.2.2.2 hf.2.2.2.2 hg.2.2.2.2 hi.2.2.2.2
  simp only [List.map_cons, List.map_nil, List.sum_cons, List.sum_nil]
  rw [show (0x0101010101010101#64).toNat = 0x0101010101010101 from rfl, this]
  omega

theorem popcnt64_toNat (x : W64) : (popcnt64 x).toNat = ones x := by
  obtain ⟨a, b, c, d, e, f, g, i, ha, hb, hc, hd, he, hf, hg, hi, hx⟩ := exists_bytes x.isLt
  have hall : ∀ t ∈ [a, b, c, d, e, f, g, i], t < 256 := by
    simp only [List.mem_cons, List.not_mem_nil, or_false, forall_eq_or_imp, forall_eq]
    exact ⟨ha, hb, hc, hd, he, hf, hg, hi⟩
  have h1 := stage1 [a, b, c, d, e, f, g, i] hall
  simp only [List.map_cons, List.map_nil] at h1
  have e1 : (x - ((x >>> 1) &&& 0x5555555555555555#64)).toNat =
      ofD 8 [f1 a, f1 b, f1 c, f1 d, f1 e, f1 f, f1 g, f1 i] := by
    rw [sub_toNat, BitVec.toNat_and, BitVec.toNat_ushiftRight, hx, mask55, Nat.shiftRight_eq_div_pow, h1.2]
    rw [BitVec.toNat_and, BitVec.toNat_ushiftRight, hx, mask55, Nat.shiftRight_eq_div_pow]
    exact h1.1
  have hp := popPairs_toNat _ _ _ _ _ _ _ _ _ (by
    have h : ∀ s ∈ [a, b, c, d, e, f, g, i].map f1, s < 256 ∧ f2 s < 256 ∧ f2 s % 16 ≤ 4 ∧ f2 s / 16 ≤ 4 ∧
        f3 (f2 s) ≤ 8 := by
      intro s hs
      obtain ⟨t, ht, rfl⟩ := List.mem_map.1 hs
      have h0 := byte12 ⟨t, hall t ht⟩
      simp only at h0
      refine ⟨h0.1, h0.2.1, h0.2.2.1, h0.2.2.2.1, ?_⟩
      rw [h0.2.2.2.2.1]
      exact h0.2.2.2.2.2
    simpa only [List.map_cons, List.map_nil] using h) e1
  have hpop : popcnt64 x = popPairs (x - ((x >>> 1) &&& 0x5555555555555555#64)) := rfl
  rw [hpop, hp, ones_eq, hx]
  have ho := onesN_ofD (w := 8) [a, b, c, d, e, f, g, i] hall
  simp only [List.length_cons, List.length_nil] at ho
  rw [show (64 : Nat) = 8 * (0 + 1 + 1 + 1 + 1 + 1 + 1 + 1 + 1) from rfl, ho]
  have hb : ∀ t, t < 256 → f3 (f2 (f1 t)) = onesN 8 t := fun t ht => (byte12 ⟨t, ht⟩).2.2.2.2.1
  simp only [List.map_cons, List.map_nil, hb _ ha, hb _ ‹b < 256›, hb _ hc, hb _ hd, hb _ he, hb _ hf, hb _ hg, hb _ hi]

/-- `popPairs` counts the ones of a word that only has bits at even positions. -/
theorem popPairs_eq_ones (y : W64) (h : y &&& 0x5555555555555555#64 = y) : (popPairs y).toNat = ones y := by
  obtain ⟨a, b, c, d, e, f, g, i, ha, hb, hc, hd, he, hf, hg, hi, hx⟩ := exists_bytes y.isLt
  have hall : ∀ t ∈ [a, b, c, d, e, f, g, i], t < 256 := by
    simp only [List.mem_cons, List.not_mem_nil, or_false, forall_eq_or_imp, forall_eq]
    exact ⟨ha, hb, hc, hd, he, hf, hg, hi⟩
  have hm := congrArg BitVec.toNat h
  rw [BitVec.toNat_and, hx, mask55, ofD_and (w := 8) [a, b, c, d, e, f, g, i] [0x55, 0x55, 0x55, 0x55, 0x55, 0x55, 0x55, 0x55] rfl hall
      (by decide)] at hm
  simp only [List.zipWith_cons_cons, List.zipWith_nil_left, ofD] at hm
  have hlt : ∀ t, t &&& 0x55 < 2 ^ 8 := fun t => Nat.and_lt_two_pow t (by decide)
  have l1 := hlt a; have l2 := hlt b; have l3 := hlt c; have l4 := hlt d
  have l5 := hlt e; have l6 := hlt f; have l7 := hlt g; have l8 := hlt i
  have key : (a &&& 0x55 = a) ∧ (b &&& 0x55 = b) ∧ (c &&& 0x55 = c) ∧ (d &&& 0x55 = d) ∧ (e &&& 0x55 = e) ∧
      (f &&& 0x55 = f) ∧ (g &&& 0x55 = g) ∧ (i &&& 0x55 = i) := by
    generalize a &&& 0x55 = a' at *
    generalize b &&& 0x55 = b' at *
    generalize c &&& 0x55 = c' at *
    generalize d &&& 0x55 = d' at *
    generalize e &&& 0x55 = e' at *
    generalize f &&& 0x55 = f' at *
    generalize g &&& 0x55 = g' at *
    generalize i &&& 0x55 = i' at *
    omega
  have hfix : ∀ t ∈ [a, b, c, d, e, f, g, i], t &&& 0x55 = t := by
    simp only [List.mem_cons, List.not_mem_nil, or_false, forall_eq_or_imp, forall_eq]
    exact key
  have h8 : ∀ t, t < 256 → onesN 8 t ≤ 8 := fun t ht => (byte12 ⟨t, ht⟩).2.2.2.2.2
  rw [popPairs_toNat y a b c d e f g i (by
    intro t ht
    have h0 := byte55 ⟨t, hall t ht⟩ (hfix t ht)
    simp only at h0
    refine ⟨hall t ht, h0.1, h0.2.1, h0.2.2.1, ?_⟩
    rw [h0.2.2.2]
    exact h8 t (hall t ht)) hx, ones_eq, hx]
  have ho := onesN_ofD (w := 8) [a, b, c, d, e, f, g, i] hall
  simp only [List.length_cons, List.length_nil] at ho
  rw [show (64 : Nat) = 8 * (0 + 1 + 1 + 1 + 1 + 1 + 1 + 1 + 1) from rfl, ho]
  congr 1
  apply List.map_congr_left
  intro t ht
  exact (byte55 ⟨t, hall t ht⟩ (hfix t ht)).2.2.2

end Verif.Bits
