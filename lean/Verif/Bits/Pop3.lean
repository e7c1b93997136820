/-
Helper lemmas: two and three bit field counts.
-/
import Verif.Bits.PopLemmas
import Mathlib.Tactic.Ring
import Mathlib.Tactic.Tauto

namespace Verif.Bits

theorem exists_sextets {x : Nat} (h : x < 2 ^ 64) :
    ∃ a b c d e f g i j k l : Nat, a < 64 ∧ b < 64 ∧ c < 64 ∧ d < 64 ∧ e < 64 ∧ f < 64 ∧ g < 64 ∧
      i < 64 ∧ j < 64 ∧ k < 64 ∧ l < 64 ∧ x = ofD 6 [a, b, c, d, e, f, g, i, j, k, l] := by
  refine ⟨x % 2 ^ 6, x / 2 ^ 6 % 2 ^ 6, x / 2 ^ 12 % 2 ^ 6, x / 2 ^ 18 % 2 ^ 6, x / 2 ^ 24 % 2 ^ 6, x / 2 ^ 30 % 2 ^ 6,
    x / 2 ^ 36 % 2 ^ 6, x / 2 ^ 42 % 2 ^ 6, x / 2 ^ 48 % 2 ^ 6, x / 2 ^ 54 % 2 ^ 6, x / 2 ^ 60 % 2 ^ 6,
    ?_, ?_, ?_, ?_, ?_, ?_, ?_, ?_, ?_, ?_, ?_, ?_⟩ <;>
    first
      | exact Nat.mod_lt _ (by decide)
      | (simp only [ofD]; omega)

/-- Sextet level effect of `(x + (x >> 3)) & 3`. -/
def h3 (a : Nat) : Nat := (a + a / 8) &&& 3

theorem sext3 : ∀ a : Fin 64, ∀ r : Fin 2, a.val &&& 9 = a.val →
    a.val + a.val / 8 + 8 * r.val < 64 ∧ ((a.val + a.val / 8 + 8 * r.val) &&& 3) = h3 a.val ∧
    h3 a.val ≤ 2 ∧ a.val % 8 ≤ 1 ∧ h3 a.val = onesN 6 a.val ∧ a.val ≤ 9 := by
  decide +kernel

theorem ofD6_mod8 : ∀ l : List Nat, (∀ a ∈ l, a % 8 ≤ 1) → ofD 6 l % 8 ≤ 1
  | [], _ => by simp [ofD]
  | a :: l, h => by
    simp only [List.mem_cons, forall_eq_or_imp] at h
    simp only [ofD]
    omega

theorem tstage : ∀ l : List Nat, (∀ a ∈ l, a < 64 ∧ a &&& 9 = a) →
    (ofD 6 l + ofD 6 l / 8) &&& ofD 6 (l.map fun _ => 3) = ofD 6 (l.map h3)
  | [], _ => by simp [ofD]
  | a :: l, h => by
    simp only [List.mem_cons, forall_eq_or_imp] at h
    have ih := tstage l h.2
    have hm := ofD6_mod8 l (fun a ha => (sext3 ⟨a, (h.2 a ha).1⟩ 0 (h.2 a ha).2).2.2.2.1)
    simp only [ofD, List.map_cons]
    generalize ofD 6 l = L at *
    have e : (a + 2 ^ 6 * L) + (a + 2 ^ 6 * L) / 8 =
        (a + a / 8 + 8 * (L % 8)) + 2 ^ 6 * (L + L / 8) := by omega
    have b1 := sext3 ⟨a, h.1.1⟩ ⟨L % 8, by omega⟩ h.1.2
    simp only at b1
    rw [e, and_split _ _ b1.1 (by decide), b1.2.1, ih]

theorem sum6 (a b c d e f g i j k l : Nat) (ha : a ≤ 2) (hb : b ≤ 2) (hc : c ≤ 2) (hd : d ≤ 2) (he : e ≤ 2)
    (hf : f ≤ 2) (hg : g ≤ 2) (hi : i ≤ 2) (hj : j ≤ 2) (hk : k ≤ 2) :
    (0x0041041041041041 * ofD 6 [a, b, c, d, e, f, g, i, j, k, l]) % 2 ^ 64 / 2 ^ 54 % 64 =
      a + b + c + d + e + f + g + i + j + k := by
  have key : ∀ lo s h : Nat, lo < 2 ^ 54 → s < 64 → (lo + 2 ^ 54 * s + 2 ^ 60 * h) % 2 ^ 64 / 2 ^ 54 % 64 = s := by
    intro lo s h h1
    omega
  have hlo : ofD 6 [a, a + b, a + b + c, a + b + c + d, a + b + c + d + e, a + b + c + d + e + f, a + b + c + d + e + f + g, a + b + c + d + e + f + g + i, a + b + c + d + e + f + g + i + j] < 2 ^ 54 := by
    apply ofD_lt (w := 6) [a, a + b, a + b + c, a + b + c + d, a + b + c + d + e, a + b + c + d + e + f, a + b + c + d + e + f + g, a + b + c + d + e + f + g + i, a + b + c + d + e + f + g + i + j]
    simp only [List.mem_cons, List.not_mem_nil, or_false, forall_eq_or_imp, forall_eq]
    omega
  have e : 0x0041041041041041 * ofD 6 [a, b, c, d, e, f, g, i, j, k, l] = ofD 6 [a, a + b, a + b + c, a + b + c + d, a + b + c + d + e, a + b + c + d + e + f, a + b + c + d + e + f + g, a + b + c + d + e + f + g + i, a + b + c + d + e + f + g + i + j] + 2 ^ 54 * (a + b + c + d + e + f + g + i + j + k) +
      2 ^ 60 * ofD 6 [b + c + d + e + f + g + i + j + k + l, c + d + e + f + g + i + j + k + l, d + e + f + g + i + j + k + l, e + f + g + i + j + k + l, f + g + i + j + k + l, g + i + j + k + l, i + j + k + l, j + k + l, k + l, l] := by
    simp only [ofD]
    ring
  rw [e]
  exact key _ _ _ hlo (by omega)

theorem ofD_append (w : Nat) : ∀ l m : List Nat, ofD w (l ++ m) = ofD w l + 2 ^ (w * l.length) * ofD w m
  | [], m => by simp [ofD]
  | a :: l, m => by
    simp only [List.cons_append, ofD, List.length_cons]
    rw [ofD_append w l m]
    ring

theorem ofD6_top (a b c d e f g i j k l : Nat) (h : ∀ t ∈ [a, b, c, d, e, f, g, i, j, k], t < 2 ^ 6) :
    ofD 6 [a, b, c, d, e, f, g, i, j, k, l] / 2 ^ 60 = l ∧
    ofD 6 [a, b, c, d, e, f, g, i, j, k, l] < 2 ^ 60 * (l + 1) := by
  have hlt := ofD_lt (w := 6) [a, b, c, d, e, f, g, i, j, k] h
  have ee := ofD_append 6 [a, b, c, d, e, f, g, i, j, k] [l]
  rw [show ofD 6 [l] = l by simp [ofD]] at ee
  simp only [List.length_cons, List.length_nil, List.cons_append, List.nil_append] at ee hlt
  rw [ee]
  generalize ofD 6 [a, b, c, d, e, f, g, i, j, k] = X at *
  omega

/-- `popTriples` counts the ones of a word with bits only at positions 0, 3, ..., 60. -/
theorem popTriples_eq_ones (y : W64) (h : y &&& 0x1249249249249249#64 = y) : (popTriples y).toNat = ones y := by
  obtain ⟨a, b, c, d, e, f, g, i, j, k, l, ha, hb, hc, hd, he, hf, hg, hi, hj, hk, hl, hx⟩ := exists_sextets y.isLt
  have hall : ∀ t ∈ [a, b, c, d, e, f, g, i, j, k, l], t < 64 := by
    simp only [List.mem_cons, List.not_mem_nil, or_false, forall_eq_or_imp, forall_eq]
    exact ⟨ha, hb, hc, hd, he, hf, hg, hi, hj, hk, hl⟩
  have hm := congrArg BitVec.toNat h
  rw [BitVec.toNat_and, hx, show (0x1249249249249249#64).toNat = ofD 6 [9, 9, 9, 9, 9, 9, 9, 9, 9, 9, 1] by decide,
    ofD_and (w := 6) [a, b, c, d, e, f, g, i, j, k, l] [9, 9, 9, 9, 9, 9, 9, 9, 9, 9, 1] rfl hall (by decide)] at hm
  simp only [List.zipWith_cons_cons, List.zipWith_nil_left, ofD] at hm
  have hlt : ∀ t, t &&& 9 < 2 ^ 6 := fun t => Nat.and_lt_two_pow t (by decide)
  have l1 := hlt a; have l2 := hlt b; have l3 := hlt c; have l4 := hlt d
  have l5 := hlt e; have l6 := hlt f; have l7 := hlt g; have l8 := hlt i
  have l9 := hlt j; have l10 := hlt k
  have l11 : l &&& 1 < 2 ^ 6 := Nat.and_lt_two_pow l (by decide)
  have key : (a &&& 9 = a) ∧ (b &&& 9 = b) ∧ (c &&& 9 = c) ∧ (d &&& 9 = d) ∧ (e &&& 9 = e) ∧
      (f &&& 9 = f) ∧ (g &&& 9 = g) ∧ (i &&& 9 = i) ∧ (j &&& 9 = j) ∧ (k &&& 9 = k) ∧ (l &&& 1 = l) := by
    generalize a &&& 9 = a' at *
    generalize b &&& 9 = b' at *
    generalize c &&& 9 = c' at *
    generalize d &&& 9 = d' at *
    generalize e &&& 9 = e' at *
    generalize f &&& 9 = f' at *
    generalize g &&& 9 = g' at *
    generalize i &&& 9 = i' at *
    generalize j &&& 9 = j' at *
    generalize k &&& 9 = k' at *
    generalize l &&& 1 = l' at *
    omega
  clear hm l1 l2 l3 l4 l5 l6 l7 l8 l9 l10 l11
  obtain ⟨ka, kb, kc, kd, ke, kf, kg, ki, kj, kk, kl⟩ := key
  have hlle : l ≤ 1 := by rw [← kl]; exact Nat.and_le_right
  have kl9 : l &&& 9 = l := by
    have : ∀ t : Fin 2, t.val &&& 9 = t.val := by decide
    exact this ⟨l, by omega⟩
  have hfix : ∀ t ∈ [a, b, c, d, e, f, g, i, j, k, l], t < 64 ∧ t &&& 9 = t := by
    simp only [List.mem_cons, List.not_mem_nil, or_false, forall_eq_or_imp, forall_eq]
    exact ⟨⟨ha, ka⟩, ⟨hb, kb⟩, ⟨hc, kc⟩, ⟨hd, kd⟩, ⟨he, ke⟩, ⟨hf, kf⟩, ⟨hg, kg⟩, ⟨hi, ki⟩, ⟨hj, kj⟩, ⟨hk, kk⟩, ⟨hl, kl9⟩⟩
  have hs := tstage _ hfix
  simp only [List.map_cons, List.map_nil] at hs
  have ho := onesN_ofD (w := 6) [a, b, c, d, e, f, g, i, j, k, l] hall
  simp only [List.length_cons, List.length_nil, List.map_cons, List.map_nil, List.sum_cons, List.sum_nil] at ho
  have hv : ∀ t, t < 64 → t &&& 9 = t → h3 t ≤ 2 ∧ h3 t = onesN 6 t ∧ t ≤ 9 :=
    fun t ht h => ⟨(sext3 ⟨t, ht⟩ 0 h).2.2.1, (sext3 ⟨t, ht⟩ 0 h).2.2.2.2.1, (sext3 ⟨t, ht⟩ 0 h).2.2.2.2.2⟩
  have e1 : ((y + (y >>> 3)) &&& 0x30C30C30C30C30C3#64).toNat =
      ofD 6 [h3 a, h3 b, h3 c, h3 d, h3 e, h3 f, h3 g, h3 i, h3 j, h3 k, h3 l] := by
    rw [BitVec.toNat_and, BitVec.toNat_add, BitVec.toNat_ushiftRight, hx, Nat.shiftRight_eq_div_pow,
      show (0x30C30C30C30C30C3#64).toNat = ofD 6 [3, 3, 3, 3, 3, 3, 3, 3, 3, 3, 3] by decide,
      Nat.mod_eq_of_lt, hs]
    have := (hv a ha ka).2.2; have := (hv b hb kb).2.2; have := (hv c hc kc).2.2; have := (hv d hd kd).2.2
    have := (hv e he ke).2.2; have := (hv f hf kf).2.2; have := (hv g hg kg).2.2; have := (hv i hi ki).2.2
    have := (hv j hj kj).2.2; have := (hv k hk kk).2.2
    have := (ofD6_top a b c d e f g i j k l (fun t ht => (hall t (by simp only [List.mem_cons] at ht ⊢; tauto)))).2
    generalize ofD 6 [a, b, c, d, e, f, g, i, j, k, l] = X at *
    omega
  have o64 : ones y = onesN 6 a + (onesN 6 b + (onesN 6 c + (onesN 6 d + (onesN 6 e + (onesN 6 f + (onesN 6 g +
      (onesN 6 i + (onesN 6 j + (onesN 6 k + (onesN 6 l + 0)))))))))) := by
    rw [← ho, ones_eq, ← hx]
    rw [show 6 * (0 + 1 + 1 + 1 + 1 + 1 + 1 + 1 + 1 + 1 + 1 + 1) = 64 + 2 by norm_num, onesN_add 64 2 y.toNat,
      show (y.toNat / 2 ^ 64) = 0 from Nat.div_eq_of_lt y.isLt, show onesN 2 0 = 0 by decide, Nat.add_zero]
  unfold popTriples
  simp only
  generalize (y + (y >>> 3)) &&& 0x30C30C30C30C30C3#64 = z at e1
  rw [o64, BitVec.toNat_add, BitVec.toNat_ushiftRight, BitVec.toNat_and, BitVec.toNat_ushiftRight, BitVec.toNat_mul, e1,
    Nat.shiftRight_eq_div_pow, Nat.shiftRight_eq_div_pow,
    show (0x0041041041041041#64).toNat = 0x0041041041041041 from rfl,
    show (0x3F#64).toNat = 2 ^ 6 - 1 from rfl, Nat.and_two_pow_sub_one_eq_mod,
    sum6 _ _ _ _ _ _ _ _ _ _ _ (hv a ha ka).1 (hv b hb kb).1 (hv c hc kc).1 (hv d hd kd).1 (hv e he ke).1 (hv f hf kf).1
      (hv g hg kg).1 (hv i hi ki).1 (hv j hj kj).1 (hv k hk kk).1]
  have := (hv a ha ka); have := (hv b hb kb); have := (hv c hc kc); have := (hv d hd kd)
  have := (hv e he ke); have := (hv f hf kf); have := (hv g hg kg); have := (hv i hi ki)
  have := (hv j hj kj); have := (hv k hk kk); have hl' := (hv l hl kl9)
  have top : ofD 6 [h3 a, h3 b, h3 c, h3 d, h3 e, h3 f, h3 g, h3 i, h3 j, h3 k, h3 l] / 2 ^ 60 = h3 l := by
    refine (ofD6_top _ _ _ _ _ _ _ _ _ _ _ ?_).1
    simp only [List.mem_cons, List.not_mem_nil, or_false, forall_eq_or_imp, forall_eq]
    omega
  rw [top, ← (hv a ha ka).2.1, ← (hv b hb kb).2.1, ← (hv c hc kc).2.1, ← (hv d hd kd).2.1, ← (hv e he ke).2.1,
    ← (hv f hf kf).2.1, ← (hv g hg kg).2.1, ← (hv i hi ki).2.1, ← (hv j hj kj).2.1, ← (hv k hk kk).2.1,
    ← (hv l hl kl9).2.1, Nat.mod_eq_of_lt (by omega)]
  omega

/-- Ones of a word whose bits sit at multiples of `s`, counted per field. -/
theorem ones_fields (s n : Nat) (hs : 0 < s) (P : Nat → Bool) :
    (List.range (s * n)).countP (fun i => i % s == 0 && P (i / s)) = (List.range n).countP P := by
  induction n with
  | zero => simp
  | succ n ih =>
    rw [Nat.mul_add, Nat.mul_one, List.range_add, List.countP_append, ih, List.range_succ, List.countP_append]
    congr 1
    rw [List.countP_map]
    obtain ⟨t, rfl⟩ : ∃ t, s = 1 + t := ⟨s - 1, by omega⟩
    rw [List.range_add, List.countP_append, List.countP_map]
    have z : List.countP ((((fun i => i % (1 + t) == 0 && P (i / (1 + t))) ∘ fun x => (1 + t) * n + x) ∘ fun x => 1 + x))
        (List.range t) = 0 := by
      rw [List.countP_eq_zero]
      intro x hx
      have hx := List.mem_range.1 hx
      simp only [Function.comp, Bool.and_eq_true, beq_iff_eq, not_and]
      intro h0
      rw [Nat.mul_add_mod, Nat.mod_eq_of_lt (by omega)] at h0
      omega
    rw [z]
    simp only [List.range_one, List.countP_singleton, Function.comp, Nat.add_zero, Nat.mul_mod_right, beq_self_eq_true,
      Bool.true_and]
    rw [Nat.mul_div_cancel_left _ (by omega)]

end Verif.Bits
