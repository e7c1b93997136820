/-
Property theorems C02 and C07, continued: exactly what the portable `popcnt32` and `sel` compute.
-/
import Verif.Bits.Props

namespace Verif.Bits

/-- What `popcnt32` misses: the sum of the odd nibbles is taken modulo 16, and if all even nibbles are 15 their sum 16 is counted as one more
there. -/
def lost (x : W32) : Nat :=
  if x &&& 0x0F0F0F0F#32 = 0x0F0F0F0F#32 then (if 15 ≤ ones (x &&& 0xF0F0F0F0#32) then 31 else 15)
  else if x &&& 0xF0F0F0F0#32 = 0xF0F0F0F0#32 then 16 else 0

/-- The value of the portable `popcnt32` for every word. -/
theorem C02_popcnt32_value (x : W32) : (popcnt32 x).toNat + lost x = ones x := by
  obtain ⟨a, b, c, d, e, f, g, i, ha, hb, hc, hd, he, hf, hg, hi, hx⟩ := exists_nibbles x.isLt
  have hall : ∀ t ∈ [a, b, c, d, e, f, g, i], t < 16 := by
    simp only [List.mem_cons, List.not_mem_nil, or_false, forall_eq_or_imp, forall_eq]
    exact ⟨ha, hb, hc, hd, he, hf, hg, hi⟩
  have hv := popcnt32_digits x a b c d e f g i ha hb hc hd he hf hg hi hx
  have ho := onesN_ofD (w := 4) [a, b, c, d, e, f, g, i] hall
  simp only [List.length_cons, List.length_nil, List.map_cons, List.map_nil, List.sum_cons, List.sum_nil] at ho
  have ho' : onesN 32 (ofD 4 [a, b, c, d, e, f, g, i]) = _ := ho
  rw [hv, ones_eq, hx, ho']
  have e1 : x &&& 0x0F0F0F0F#32 = 0x0F0F0F0F#32 ↔ (a = 15 ∧ c = 15 ∧ e = 15 ∧ g = 15) := by
    rw [← BitVec.toNat_inj, BitVec.toNat_and, hx,
      show (0x0F0F0F0F#32).toNat = ofD 4 [15, 0, 15, 0, 15, 0, 15, 0] by decide,
      ofD_and (w := 4) [a, b, c, d, e, f, g, i] [15, 0, 15, 0, 15, 0, 15, 0] rfl hall (by decide)]
    simp only [List.zipWith_cons_cons, List.zipWith_nil_left, Nat.and_zero,
      and_eq_iff a 15 4 rfl ha, and_eq_iff c 15 4 rfl hc, and_eq_iff e 15 4 rfl he, and_eq_iff g 15 4 rfl hg, ofD]
    omega
  have e2 : x &&& 0xF0F0F0F0#32 = 0xF0F0F0F0#32 ↔ (b = 15 ∧ d = 15 ∧ f = 15 ∧ i = 15) := by
    rw [← BitVec.toNat_inj, BitVec.toNat_and, hx,
      show (0xF0F0F0F0#32).toNat = ofD 4 [0, 15, 0, 15, 0, 15, 0, 15] by decide,
      ofD_and (w := 4) [a, b, c, d, e, f, g, i] [0, 15, 0, 15, 0, 15, 0, 15] rfl hall (by decide)]
    simp only [List.zipWith_cons_cons, List.zipWith_nil_left, Nat.and_zero,
      and_eq_iff b 15 4 rfl hb, and_eq_iff d 15 4 rfl hd, and_eq_iff f 15 4 rfl hf, and_eq_iff i 15 4 rfl hi, ofD]
    omega
  have hn : ∀ t, t < 16 → onesN 4 t ≤ 4 ∧ (onesN 4 t = 4 ↔ t = 15) := by
    intro t ht
    have h := nib12 ⟨t, ht⟩
    simp only at h
    exact ⟨h.2.2.1 ▸ h.2.1, h.2.2.2⟩
  have four : ∀ p q r s : Nat, p < 16 → q < 16 → r < 16 → s < 16 →
      onesN 4 p + onesN 4 q + onesN 4 r + onesN 4 s ≤ 16 ∧
      (onesN 4 p + onesN 4 q + onesN 4 r + onesN 4 s = 16 ↔ (p = 15 ∧ q = 15 ∧ r = 15 ∧ s = 15)) := by
    intro p q r s hp hq hr hs
    rw [← (hn p hp).2, ← (hn q hq).2, ← (hn r hr).2, ← (hn s hs).2]
    have := (hn p hp).1; have := (hn q hq).1; have := (hn r hr).1; have := (hn s hs).1
    omega
  have h1 := four a c e g ha hc he hg
  have h2 := four b d f i hb hd hf hi
  have e3 : ones (x &&& 0xF0F0F0F0#32) = onesN 4 b + onesN 4 d + onesN 4 f + onesN 4 i := by
    have hz : onesN 4 0 = 0 := by decide
    have h3 := onesN_ofD (w := 4) [0, b, 0, d, 0, f, 0, i] (by
      simp only [List.mem_cons, List.not_mem_nil, or_false, forall_eq_or_imp, forall_eq]
      exact ⟨by decide, hb, by decide, hd, by decide, hf, by decide, hi⟩)
    simp only [List.length_cons, List.length_nil, List.map_cons, List.map_nil, List.sum_cons, List.sum_nil, hz] at h3
    have h3' : onesN 32 (ofD 4 [0, b, 0, d, 0, f, 0, i]) = _ := h3
    rw [ones_eq, BitVec.toNat_and, hx, show (0xF0F0F0F0#32).toNat = ofD 4 [0, 15, 0, 15, 0, 15, 0, 15] by decide,
      ofD_and (w := 4) [a, b, c, d, e, f, g, i] [0, 15, 0, 15, 0, 15, 0, 15] rfl hall (by decide)]
    simp only [List.zipWith_cons_cons, List.zipWith_nil_left, Nat.and_zero,
      and_eq_iff b 15 4 rfl hb, and_eq_iff d 15 4 rfl hd, and_eq_iff f 15 4 rfl hf, and_eq_iff i 15 4 rfl hi]
    rw [h3']
    omega
  unfold lost
  rw [e3]
  simp only [e1, e2, ← h1.2, ← h2.2]
  have s1 : onesN 4 a + (onesN 4 b + (onesN 4 c + (onesN 4 d + (onesN 4 e + (onesN 4 f + (onesN 4 g +
      (onesN 4 i + 0))))))) = (onesN 4 a + onesN 4 c + onesN 4 e + onesN 4 g) +
      (onesN 4 b + onesN 4 d + onesN 4 f + onesN 4 i) := by omega
  rw [s1]
  have b1 := h1.1
  have b2 := h2.1
  clear h1 h2 s1 four hn e1 e2 e3 ho ho' hv
  generalize onesN 4 a + onesN 4 c + onesN 4 e + onesN 4 g = A at *
  generalize onesN 4 b + onesN 4 d + onesN 4 f + onesN 4 i = B at *
  by_cases hA : A = 16
  · subst hA
    rw [if_pos rfl]
    split <;> omega
  · rw [if_neg hA]
    split <;> omega

/-- A word with all odd nibbles full and 5 other ones. -/
example : (popcnt32 0xF1F1F3F1#32).toNat = 5 ∧ ones 0xF1F1F3F1#32 = 21 ∧ lost 0xF1F1F3F1#32 = 16 := by decide

/-- The steps of `sel` after the first. -/
def selTail (x : W64) (ret i : Nat) : Option Nat :=
  match (if popcnt16 (x.setWidth 16) < i then (x >>> 16, ret + 16, i - popcnt16 (x.setWidth 16)) else (x, ret, i)) with
  | (x, ret, i) => (match (if popcnt8 (x.setWidth 8) < i then (x >>> 8, ret + 8, i - popcnt8 (x.setWidth 8)) else (x, ret, i)) with
    | (x, ret, i) => (do
      let row ← kLtSel[i]?
      let v ← row[(x &&& 0xFF#64).toNat]?
      pure (ret + v)))

theorem table_pos : ∀ i : Fin 9, 0 < i.val → ∀ r, kLtSel[i.val]? = some r → ∀ v ∈ r, 1 ≤ v := by
  decide +kernel

theorem table_len : kLtSel.length = 9 := by decide

theorem row_pos {i : Nat} (hi : 1 ≤ i) {b ret r : Nat}
    (h : (do let row ← kLtSel[i]?
             let v ← row[b]?
             pure (ret + v)) = some r) : i ≤ 8 ∧ ret + 1 ≤ r := by
  cases hr : kLtSel[i]? with
  | none => rw [hr] at h; simp at h
  | some row =>
    have hl := (List.getElem?_eq_some_iff.1 hr).1
    rw [table_len] at hl
    rw [hr] at h
    simp only [Option.bind_eq_bind, Option.bind_some] at h
    cases hv : row[b]? with
    | none => rw [hv] at h; simp at h
    | some v =>
      rw [hv] at h
      simp only [Option.bind_some, Option.pure_def, Option.some.injEq] at h
      have := table_pos ⟨i, hl⟩ hi row hr v (List.mem_of_getElem? hv)
      omega

/-- A result of the later steps lies behind the start, and in the last byte if there are too few ones. -/
theorem selTail_some (x : W64) (ret i r : Nat) (hi : 1 ≤ i) (h : selTail x ret i = some r) :
    ret + 1 ≤ r ∧ (onesBelow x 24 < i → ret + 25 ≤ r ∧ i ≤ onesBelow x 24 + 8) := by
  have h8 : ∀ y : W64, popcnt8 (y.setWidth 8) = onesBelow y 8 := fun y => by rw [popcnt8_eq, ones_setWidth]
  have h16 : ∀ y : W64, popcnt16 (y.setWidth 16) = onesBelow y 16 := fun y => by rw [popcnt16_eq, ones_setWidth]
  have hs := onesBelow_shift x 16 8
  rw [show 16 + 8 = 24 from rfl] at hs
  have hm := onesBelow_mono x (show 16 ≤ 24 by omega)
  unfold selTail at h
  rw [h16] at h
  by_cases h1 : onesBelow x 16 < i
  · rw [if_pos h1] at h
    simp only [h8] at h
    by_cases h2 : onesBelow (x >>> 16) 8 < i - onesBelow x 16
    · rw [if_pos h2] at h
      simp only at h
      have := row_pos (by omega) h
      omega
    · rw [if_neg h2] at h
      simp only at h
      have := row_pos (by omega) h
      omega
  · rw [if_neg h1] at h
    simp only [h8] at h
    by_cases h2 : onesBelow x 8 < i
    · rw [if_pos h2] at h
      simp only at h
      have := row_pos (by omega) h
      omega
    · rw [if_neg h2] at h
      simp only at h
      have := row_pos (by omega) h
      omega

theorem selTail_right (x : W64) (ret i p : Nat) (hp : p < 32) (hx : x.getLsbD p = true) (ho : onesBelow x p + 1 = i) :
    selTail x ret i = some (ret + (p + 1)) := by
  have h8 : ∀ y : W64, popcnt8 (y.setWidth 8) = onesBelow y 8 := fun y => by rw [popcnt8_eq, ones_setWidth]
  have h16 : ∀ y : W64, popcnt16 (y.setWidth 16) = onesBelow y 16 := fun y => by rw [popcnt16_eq, ones_setWidth]
  have fin8 : ∀ (x : W64) (i p ret : Nat), p < 16 → x.getLsbD p = true → onesBelow x p + 1 = i →
      (match (if popcnt8 (x.setWidth 8) < i then (x >>> 8, ret + 8, i - popcnt8 (x.setWidth 8)) else (x, ret, i)) with
        | (x, ret, i) => (do
          let row ← kLtSel[i]?
          let v ← row[(x &&& 0xFF#64).toNat]?
          pure (ret + v))) = some (ret + (p + 1)) := by
    intro x i p ret hp hx ho
    have st := sel_step x 8 i p _ (h8 x) hx ho
    split at st
    · next hc =>
      rw [if_pos hc]
      simp only
      rw [← st.2.2, sel_finish (x >>> 8) (p - 8) (ret + 8) (by omega) st.2.1]
      congr 1; omega
    · next hc =>
      rw [if_neg hc]
      simp only
      rw [← ho, sel_finish x p ret st hx]
  have st := sel_step x 16 i p _ (h16 x) hx ho
  unfold selTail
  split at st
  · next hc =>
    rw [if_pos hc]
    refine (fin8 (x >>> 16) _ (p - 16) (ret + 16) (by omega) st.2.1 st.2.2).trans ?_
    congr 1; omega
  · next hc =>
    rw [if_neg hc]
    exact fin8 x i p ret st hx ho

theorem exists_sel (x : W64) (i n : Nat) (h1 : 1 ≤ i) (h2 : i ≤ onesBelow x n) : ∃ p, p < n ∧ x.getLsbD p = true ∧ onesBelow x p + 1 = i := by
  induction n with
  | zero => simp [onesBelow] at h2; omega
  | succ n ih =>
    by_cases hle : i ≤ onesBelow x n
    · obtain ⟨p, hp, hx⟩ := ih hle
      exact ⟨p, by omega, hx⟩
    · rw [onesBelow_succ] at h2
      cases hb : x.getLsbD n
      · rw [hb] at h2; simp at h2; omega
      · rw [hb] at h2; simp at h2
        exact ⟨n, by omega, hb, by omega⟩

/-- The portable `sel` is right exactly where `popcnt32` loses nothing of the low half, or what is left of it still has the `i`-th one.
(Full property: for all words; see `C07_sel_refuted`.) -/
theorem C07_sel_exact_partial (x : W64) (i p : Nat) (h : IsSelect x i p) :
    sel x i = some (p + 1) ↔ lost (x.setWidth 32) = 0 ∨ i + lost (x.setWidth 32) ≤ onesBelow x 32 := by
  have hval := C02_popcnt32_value (x.setWidth 32)
  rw [ones_setWidth] at hval
  have hsel : sel x i = if (popcnt32 (x.setWidth 32)).toNat < i then selTail (x >>> 32) 32 (i - (popcnt32 (x.setWidth 32)).toNat)
      else selTail x 0 i := by
    unfold sel selTail
    by_cases hc : (popcnt32 (x.setWidth 32)).toNat < i
    · simp only [if_pos hc, Nat.zero_add]
    · simp only [if_neg hc]
  by_cases hz : lost (x.setWidth 32) = 0
  · refine ⟨fun _ => Or.inl hz, fun _ => sel_correct x i p h ?_⟩
    rw [ones_setWidth]
    omega
  · have h15 : 15 ≤ lost (x.setWidth 32) := by
      unfold lost at hz ⊢
      split
      · split <;> omega
      · split
        · omega
        · next h1 h2 => rw [if_neg h1, if_neg h2] at hz; exact absurd rfl hz
    obtain ⟨hp, hx, ho⟩ := h
    rw [hsel]
    by_cases hc : (popcnt32 (x.setWidth 32)).toNat < i
    · rw [if_pos hc]
      refine ⟨fun e => ?_, fun h => by omega⟩
      exfalso
      have h1 := selTail_some _ _ _ _ (by omega) e
      by_cases hp32 : p < 32
      · omega
      · have hsh : onesBelow x p = onesBelow x 32 + onesBelow (x >>> 32) (p - 32) := by
          rw [← onesBelow_shift, show 32 + (p - 32) = p by omega]
        by_cases hin : i - (popcnt32 (x.setWidth 32)).toNat ≤ onesBelow (x >>> 32) 32
        · obtain ⟨q, hq, hqx, hqo⟩ := exists_sel (x >>> 32) _ 32 (by omega) hin
          have e' := selTail_right (x >>> 32) 32 _ q hq hqx hqo
          rw [e] at e'
          have hqp := Option.some.inj e'
          have : q = p - 32 := by omega
          subst this
          omega
        · have h24 := onesBelow_mono (x >>> 32) (show 24 ≤ 32 by omega)
          have h2 := h1.2 (by omega)
          have := onesBelow_mono (x >>> 32) (show 24 ≤ p - 32 by omega)
          omega
    · rw [if_neg hc]
      refine ⟨fun _ => Or.inr (by omega), fun _ => ?_⟩
      have hp32 : p < 32 := by
        apply Decidable.byContradiction
        intro hcc
        have := onesBelow_mono x (show 32 ≤ p by omega)
        omega
      rw [selTail_right x 0 i p hp32 hx ho, Nat.zero_add]

theorem sel_split (x : W64) (i : Nat) : sel x i = if (popcnt32 (x.setWidth 32)).toNat < i then
    selTail (x >>> 32) 32 (i - (popcnt32 (x.setWidth 32)).toNat) else selTail x 0 i := by
  unfold sel selTail
  by_cases hc : (popcnt32 (x.setWidth 32)).toNat < i
  · simp only [if_pos hc, Nat.zero_add]
  · simp only [if_neg hc]

theorem sel_pos (x : W64) (i r : Nat) (hi : 1 ≤ i) (h : sel x i = some r) : 1 ≤ r := by
  rw [sel_split] at h
  split at h
  · have := (selTail_some _ _ _ _ (by omega) h).1
    omega
  · have := (selTail_some _ _ _ _ hi h).1
    omega

/-- A word where the second one is found and the sixth is not. -/
example : IsSelect 0xF1F1F3F1#64 2 4 ∧ lost ((0xF1F1F3F1#64).setWidth 32) = 16 ∧ sel 0xF1F1F3F1#64 2 = some 5 ∧
    IsSelect 0xF1F1F3F1#64 6 8 ∧ sel 0xF1F1F3F1#64 6 ≠ some 9 := by
  refine ⟨⟨by decide, by decide, by decide⟩, by decide, by decide, ⟨by decide, by decide, by decide⟩, by decide⟩

end Verif.Bits
