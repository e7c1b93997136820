/-
Helper facts for MultipleVector.
-/
import Verif.Mult.Model
import Verif.Serial.Props

namespace Verif.Mult
open Verif.Serial

/-- The little endian number in `w` bytes from `off`. -/
def leB (bs : List Byte) (off : Nat) : Nat → Nat
  | 0 => 0
  | w + 1 => (bs.getD off 0#8).toNat + 256 * leB bs (off + 1) w

theorem leB_lt (bs : List Byte) : ∀ (w off : Nat), leB bs off w < 256 ^ w
  | 0, off => by simp [leB]
  | w + 1, off => by
    have h1 := leB_lt bs w (off + 1)
    have h2 := (bs.getD off 0#8).isLt
    rw [leB, Nat.pow_succ]; omega

theorem leB_congr (bs bs' : List Byte) : ∀ (w off off' : Nat), (∀ k, k < w → bs.getD (off + k) 0#8 = bs'.getD (off' + k) 0#8) →
    leB bs off w = leB bs' off' w
  | 0, _, _, _ => rfl
  | w + 1, off, off', h => by
    have h0 := h 0 (by omega)
    simp only [Nat.add_zero] at h0
    rw [leB, leB, h0, leB_congr bs bs' w (off + 1) (off' + 1)]
    intro k hk
    have := h (k + 1) (by omega)
    rwa [show off + (k + 1) = off + 1 + k by omega, show off' + (k + 1) = off' + 1 + k by omega] at this

theorem leB_split (bs : List Byte) (b : Nat) : ∀ (a off : Nat), leB bs off (a + b) = leB bs off a + 256 ^ a * leB bs (off + a) b
  | 0, off => by simp [leB]
  | a + 1, off => by
    rw [show a + 1 + b = (a + b) + 1 by omega, leB, leB_split bs b a (off + 1), leB, Nat.pow_succ,
      show off + 1 + a = off + (a + 1) by omega]
    rw [Nat.mul_add, Nat.mul_comm (256 ^ a) 256, Nat.mul_assoc, Nat.add_assoc]

theorem leB_snoc (bs : List Byte) (a off : Nat) : leB bs off (a + 1) = leB bs off a + 256 ^ a * (bs.getD (off + a) 0#8).toNat := by
  rw [leB_split bs 1 a off]; simp [leB]

theorem leB_zero (bs : List Byte) : ∀ (w off : Nat), (∀ k, k < w → bs.getD (off + k) 0#8 = 0#8) → leB bs off w = 0
  | 0, _, _ => rfl
  | w + 1, off, h => by
    have h0 := h 0 (by omega)
    simp only [Nat.add_zero] at h0
    rw [leB, h0, leB_zero bs w (off + 1)]
    · rfl
    · intro k hk
      have := h (k + 1) (by omega)
      rwa [show off + (k + 1) = off + 1 + k by omega] at this

/-- Bytes holding the digits of `x`. -/
theorem leB_digits (bs : List Byte) (x : Nat) : ∀ (w off : Nat),
    (∀ k, k < w → bs.getD (off + k) 0#8 = BitVec.ofNat 8 (x >>> (k * 8))) → leB bs off w = x % 256 ^ w
  | 0, off, _ => by simp [leB, Nat.mod_one]
  | w + 1, off, h => by
    rw [leB_snoc, leB_digits bs x w off (fun k hk => h k (by omega)), h w (by omega), BitVec.toNat_ofNat,
      Nat.shiftRight_eq_div_pow]
    have : (2:Nat) ^ (w * 8) = 256 ^ w := by rw [Nat.mul_comm, Nat.pow_mul]
    rw [this, Nat.pow_succ 256 w, Nat.mod_mul]

theorem getB_spec (bs : List Byte) (off w : Nat) (hoff : off + w ≤ bs.length) (h8 : w ≤ 8) :
    ∀ (n i : Nat), n + i = w → getB bs off n i (leB bs off i) = some (leB bs off w)
  | 0, i, h => by
    obtain rfl : i = w := by omega
    rfl
  | n + 1, i, h => by
    have hlt : off + i < bs.length := by omega
    rw [getB, if_neg (by omega), List.getElem?_eq_getElem hlt]
    simp only [Option.bind_eq_bind, Option.bind_some]
    have e : leB bs off i ||| (bs[off + i].toNat <<< (i * 8)) = leB bs off (i + 1) := by
      rw [leB_snoc, Nat.shiftLeft_eq]
      have hp : (2:Nat) ^ (i * 8) = 256 ^ i := by rw [Nat.mul_comm, Nat.pow_mul]
      have hl : leB bs off i < 2 ^ (i * 8) := by rw [hp]; exact leB_lt bs i off
      rw [Nat.or_comm, Nat.mul_comm, ← Nat.two_pow_add_eq_or_of_lt hl, hp]
      simp only [List.getD_eq_getElem?_getD, List.getElem?_eq_getElem hlt, Option.getD_some]
      omega
    rw [e]
    exact getB_spec bs off w hoff h8 n (i + 1) (by omega)

theorem setB_spec (off x w : Nat) (h8 : w ≤ 8) :
    ∀ (n i : Nat) (bs : List Byte), n + i = w → off + w ≤ bs.length →
      ∃ bs', setB off x n i bs = some bs' ∧ bs'.length = bs.length ∧
        ∀ q, bs'.getD q 0#8 = if off + i ≤ q ∧ q < off + w then BitVec.ofNat 8 (x >>> ((q - off) * 8)) else bs.getD q 0#8
  | 0, i, bs, h, _ => ⟨bs, rfl, rfl, fun q => by rw [if_neg (by omega)]⟩
  | n + 1, i, bs, h, hoff => by
    have hlt : off + i < bs.length := by omega
    obtain ⟨bs', e, hl, hb⟩ := setB_spec off x w h8 n (i + 1) (bs.set (off + i) (BitVec.ofNat 8 (x >>> (i * 8)))) (by omega)
      (by rw [List.length_set]; exact hoff)
    refine ⟨bs', ?_, by rw [hl, List.length_set], ?_⟩
    · rw [setB, if_neg (by omega), wr_eq _ _ _ hlt]
      exact e
    · intro q
      rw [hb]
      by_cases h1 : off + (i + 1) ≤ q ∧ q < off + w
      · rw [if_pos h1, if_pos (by omega)]
      · rw [if_neg h1, List.getD_eq_getElem?_getD, List.getElem?_set]
        by_cases hq : off + i = q
        · rw [if_pos hq, if_pos hlt, if_pos (by omega), show q - off = i by omega]; rfl
        · rw [if_neg hq, if_neg (by omega), ← List.getD_eq_getElem?_getD]

/-! ### The layout -/

theorem entries_getElem? : ∀ (sizes : List Nat) (pos f : Nat),
    (entries sizes pos)[f]? = (sizes[f]?).map fun s => (pos + (sizes.take f).sum, s)
  | [], _, _ => by simp [entries]
  | s :: ss, pos, 0 => by simp [entries]
  | s :: ss, pos, f + 1 => by
    simp only [entries, List.getElem?_cons_succ, entries_getElem? ss (pos + s) f, List.take_succ_cons, List.sum_cons]
    congr 1; funext t; congr 1; omega

theorem entries_length : ∀ (sizes : List Nat) (pos : Nat), (entries sizes pos).length = sizes.length
  | [], _ => rfl
  | s :: ss, pos => by simp [entries, entries_length ss]

theorem entries_snd : ∀ (sizes : List Nat) (pos : Nat), (entries sizes pos).map (·.2) = sizes
  | [], _ => rfl
  | s :: ss, pos => by simp [entries, entries_snd ss]

theorem sum_take_succ (l : List Nat) (f : Nat) (h : f < l.length) : (l.take (f + 1)).sum = (l.take f).sum + l[f] := by
  rw [List.take_add_one, List.getElem?_eq_getElem h, List.sum_append]
  simp

theorem sum_take_mono (l : List Nat) {a b : Nat} (h : a ≤ b) : (l.take a).sum ≤ (l.take b).sum := by
  induction b with
  | zero => obtain rfl : a = 0 := by omega
            exact Nat.le_refl _
  | succ b ih =>
    by_cases hab : a ≤ b
    · apply Nat.le_trans (ih hab)
      rw [List.take_add_one, List.sum_append]; omega
    · obtain rfl : a = b + 1 := by omega
      exact Nat.le_refl _

theorem blockSize_spec (sizes : List Nat) (hne : sizes ≠ []) (bs : List Byte) :
    MVec.blockSize ⟨entries sizes 0, bs⟩ = some sizes.sum := by
  have hpos := List.length_pos_iff.2 hne
  unfold MVec.blockSize
  rw [List.getLast?_eq_getElem?, entries_length, entries_getElem?, List.getElem?_eq_getElem (by omega)]
  simp only [Option.map_some, Nat.zero_add]
  rw [← sum_take_succ sizes (sizes.length - 1) (by omega), show sizes.length - 1 + 1 = sizes.length by omega, List.take_length]

/-- A usable layout: at least one field, fields of 1..8 bytes. -/
def Layout (sizes : List Nat) : Prop := sizes ≠ [] ∧ ∀ s ∈ sizes, 1 ≤ s ∧ s ≤ 8

theorem Layout.pos {sizes : List Nat} (h : Layout sizes) : 0 < sizes.sum := by
  obtain ⟨hne, hs⟩ := h
  cases sizes with
  | nil => exact absurd rfl hne
  | cons a l => have := (hs a (by simp)).1; simp only [List.sum_cons]; omega

/-- `v` holds `n` records of the layout. -/
structure WF (v : MVec) (sizes : List Nat) (n : Nat) : Prop where
  table : v.table = entries sizes 0
  len : v.bytes.length = n * sizes.sum

/-- The records. -/
def recs (v : MVec) (sizes : List Nat) (n : Nat) : List (List Nat) :=
  (List.range n).map fun i => (List.range sizes.length).map fun f =>
    leB v.bytes (i * sizes.sum + (sizes.take f).sum) (sizes.getD f 0)

theorem WF.block {v : MVec} {sizes : List Nat} {n : Nat} (h : WF v sizes n) (hl : Layout sizes) :
    v.blockSize = some sizes.sum := by
  have := blockSize_spec sizes hl.1 v.bytes
  rw [← h.table] at this
  exact this

theorem WF.sz {v : MVec} {sizes : List Nat} {n : Nat} (h : WF v sizes n) (hl : Layout sizes) : v.size = some n := by
  have := hl.pos
  unfold MVec.size
  rw [h.block hl]
  simp only [Option.bind_eq_bind, Option.bind_some]
  rw [if_neg (by omega), h.len, Nat.mul_div_cancel _ this]
  rfl

theorem slot {i n : Nat} (b : Nat) (h : i < n) : i * b + b ≤ n * b := by
  rw [← Nat.succ_mul]; exact Nat.mul_le_mul_right _ h

theorem field_in (sizes : List Nat) (f : Nat) (hf : f < sizes.length) : (sizes.take f).sum + sizes[f] ≤ sizes.sum := by
  rw [← sum_take_succ sizes f hf]
  have := sum_take_mono sizes (show f + 1 ≤ sizes.length by omega)
  rwa [List.take_length] at this

theorem field_sep (sizes : List Nat) (f g : Nat) (hf : f < sizes.length) (hfg : f < g) :
    (sizes.take f).sum + sizes[f] ≤ (sizes.take g).sum := by
  rw [← sum_take_succ sizes f hf]
  exact sum_take_mono sizes (by omega)

theorem recs_length (v : MVec) (sizes : List Nat) (n : Nat) : (recs v sizes n).length = n := by simp [recs]

theorem recs_getElem? (v : MVec) (sizes : List Nat) (n i : Nat) (h : i < n) : (recs v sizes n)[i]? = some
    ((List.range sizes.length).map fun f => leB v.bytes (i * sizes.sum + (sizes.take f).sum) (sizes.getD f 0)) := by
  simp [recs, h]

/-- Value of a field. -/
def fld (v : MVec) (sizes : List Nat) (i f : Nat) : Nat := leB v.bytes (i * sizes.sum + (sizes.take f).sum) (sizes.getD f 0)

theorem getR_spec {v : MVec} {sizes : List Nat} {n : Nat} (h : WF v sizes n) (hl : Layout sizes) (i f t : Nat) (hi : i < n)
    (hf : f < sizes.length) : v.getR i f t = some (fld v sizes i f % 256 ^ t) := by
  have hs := hl.2 sizes[f] (List.getElem_mem hf)
  have hin := field_in sizes f hf
  have hsl := slot sizes.sum hi
  unfold MVec.getR
  rw [h.block hl, h.table, entries_getElem?, List.getElem?_eq_getElem hf]
  simp only [Option.bind_eq_bind, Option.bind_some, Option.map_some, Nat.zero_add]
  have hb : i * sizes.sum + (sizes.take f).sum + min sizes[f] t ≤ v.bytes.length := by rw [h.len]; omega
  have := getB_spec v.bytes (i * sizes.sum + (sizes.take f).sum) (min sizes[f] t) hb (by omega) (min sizes[f] t) 0 rfl
  simp only [leB] at this
  rw [this]
  congr 1
  have hgd : sizes.getD f 0 = sizes[f] := by simp [List.getD_eq_getElem?_getD, hf]
  unfold fld
  rw [hgd]
  by_cases ht : t ≤ sizes[f]
  · rw [Nat.min_eq_right ht, show sizes[f] = t + (sizes[f] - t) by omega, leB_split, Nat.add_mul_mod_self_left,
      Nat.mod_eq_of_lt (leB_lt _ _ _)]
  · rw [Nat.min_eq_left (by omega), Nat.mod_eq_of_lt]
    exact Nat.lt_of_lt_of_le (leB_lt _ _ _) (Nat.pow_le_pow_right (by decide) (by omega))

theorem get_eq_getR (v : MVec) (i f : Nat) : (∀ e, v.table[f]? = some e → e.2 ≤ 8) → v.get i f = v.getR i f 8 := by
  intro h
  unfold MVec.get MVec.getR
  cases hb : v.blockSize with
  | none => rfl
  | some b =>
    cases he : v.table[f]? with
    | none => rfl
    | some e =>
      simp only [Option.bind_eq_bind, Option.bind_some]
      rw [Nat.min_eq_left (h e he)]

theorem set_eq_setR (v : MVec) (i f x : Nat) : (∀ e, v.table[f]? = some e → e.2 ≤ 8) → v.set i f x = v.setR i f 8 x := by
  intro h
  unfold MVec.set MVec.setR
  cases hb : v.blockSize with
  | none => rfl
  | some b =>
    cases he : v.table[f]? with
    | none => rfl
    | some e =>
      simp only [Option.bind_eq_bind, Option.bind_some]
      rw [Nat.min_eq_left (h e he)]

theorem WF.small {v : MVec} {sizes : List Nat} {n : Nat} (h : WF v sizes n) (hl : Layout sizes) (f : Nat) :
    ∀ e, v.table[f]? = some e → e.2 ≤ 8 := by
  intro e he
  rw [h.table, entries_getElem?] at he
  cases hs : sizes[f]? with
  | none => rw [hs] at he; cases he
  | some s =>
    rw [hs] at he
    simp only [Option.map_some, Option.some.injEq] at he
    subst he
    exact (hl.2 s (List.mem_of_getElem? hs)).2

theorem get_spec {v : MVec} {sizes : List Nat} {n : Nat} (h : WF v sizes n) (hl : Layout sizes) (i f : Nat) (hi : i < n)
    (hf : f < sizes.length) : v.get i f = some (fld v sizes i f) := by
  rw [get_eq_getR v i f (h.small hl f), getR_spec h hl i f 8 hi hf, Nat.mod_eq_of_lt]
  have hs := hl.2 sizes[f] (List.getElem_mem hf)
  have hgd : sizes.getD f 0 = sizes[f] := by simp [List.getD_eq_getElem?_getD, hf]
  unfold fld
  rw [hgd]
  exact Nat.lt_of_lt_of_le (leB_lt _ _ _) (Nat.pow_le_pow_right (by decide) hs.2)

theorem setR_spec {v : MVec} {sizes : List Nat} {n : Nat} (h : WF v sizes n) (hl : Layout sizes) (i f t x : Nat) (hi : i < n)
    (hf : f < sizes.length) : ∃ v', v.setR i f t x = some v' ∧ WF v' sizes n ∧
      fld v' sizes i f = fld v sizes i f / 256 ^ (min sizes[f] t) * 256 ^ (min sizes[f] t) + x % 256 ^ (min sizes[f] t) ∧
      ∀ j g, j < n → g < sizes.length → (j ≠ i ∨ g ≠ f) → fld v' sizes j g = fld v sizes j g := by
  have hs := hl.2 sizes[f] (List.getElem_mem hf)
  have hin := field_in sizes f hf
  have hsl := slot sizes.sum hi
  have hgd : ∀ f (hf : f < sizes.length), sizes.getD f 0 = sizes[f] := by intro f hf; simp [List.getD_eq_getElem?_getD, hf]
  have hb : i * sizes.sum + (sizes.take f).sum + min sizes[f] t ≤ v.bytes.length := by rw [h.len]; omega
  obtain ⟨bs, e, hlen, hbs⟩ := setB_spec (i * sizes.sum + (sizes.take f).sum) x (min sizes[f] t) (by omega) (min sizes[f] t) 0
    v.bytes rfl hb
  refine ⟨{ v with bytes := bs }, ?_, ⟨h.table, by rw [← h.len]; exact hlen⟩, ?_, ?_⟩
  · unfold MVec.setR
    rw [h.block hl, h.table, entries_getElem?, List.getElem?_eq_getElem hf]
    simp only [Option.bind_eq_bind, Option.bind_some, Option.map_some, Nat.zero_add, e]
    rw [← h.table]; rfl
  · unfold fld
    rw [hgd f hf]
    have hm : min sizes[f] t ≤ sizes[f] := Nat.min_le_left _ _
    generalize min sizes[f] t = m at *
    rw [show sizes[f] = m + (sizes[f] - m) by omega, leB_split, leB_split]
    have e1 : leB bs (i * sizes.sum + (sizes.take f).sum) m = x % 256 ^ m := by
      apply leB_digits
      intro k hk
      rw [hbs, if_pos (by omega)]
      congr 2; omega
    have e2 : leB bs (i * sizes.sum + (sizes.take f).sum + m) (sizes[f] - m) =
        leB v.bytes (i * sizes.sum + (sizes.take f).sum + m) (sizes[f] - m) := by
      apply leB_congr
      intro k hk
      rw [hbs, if_neg (by omega)]
    show leB bs _ m + _ * leB bs _ _ = _
    rw [e1, e2, Nat.add_mul_div_left _ _ (Nat.pow_pos (by decide)), Nat.div_eq_of_lt (leB_lt _ _ _), Nat.zero_add,
      Nat.mul_comm (256 ^ m), Nat.add_comm]
  · intro j g hj hg hne
    unfold fld
    rw [hgd g hg]
    apply leB_congr
    intro k hk
    show bs.getD _ _ = _
    rw [hbs, if_neg]
    have hing := field_in sizes g hg
    by_cases hij : j = i
    · subst hij
      have hgf : g ≠ f := by rcases hne with h | h; exact absurd rfl h; exact h
      rcases Nat.lt_or_gt_of_ne hgf with hlt | hlt
      · have := field_sep sizes g f hg hlt; omega
      · have := field_sep sizes f g hf hlt; omega
    · rcases Nat.lt_or_gt_of_ne hij with hlt | hlt
      · have := slot sizes.sum hlt; omega
      · have := slot sizes.sum hlt; omega

theorem resize_spec {v : MVec} {sizes : List Nat} {n : Nat} (h : WF v sizes n) (hl : Layout sizes) (m : Nat) :
    ∃ v', v.resize m = some v' ∧ WF v' sizes m ∧ ∀ i f, i < m → f < sizes.length →
      fld v' sizes i f = if i < n then fld v sizes i f else 0 := by
  refine ⟨⟨v.table, vresize v.bytes (m * sizes.sum) 0#8⟩, ?_, ⟨h.table, vresize_length _ _ _⟩, ?_⟩
  · unfold MVec.resize
    rw [h.block hl]; rfl
  · intro i f hi hf
    have hgd : sizes.getD f 0 = sizes[f] := by simp [List.getD_eq_getElem?_getD, hf]
    have hin := field_in sizes f hf
    have hsl := slot sizes.sum hi
    unfold fld
    rw [hgd]
    by_cases hin2 : i < n
    · rw [if_pos hin2]
      have hsn := slot sizes.sum hin2
      apply leB_congr
      intro k hk
      have hlt : i * sizes.sum + (sizes.take f).sum + k < v.bytes.length := by rw [h.len]; omega
      show (vresize v.bytes _ 0#8).getD _ _ = _
      rw [List.getD_eq_getElem?_getD, vresize_getElem?, if_pos (by omega), dif_pos hlt, List.getD_eq_getElem?_getD,
        List.getElem?_eq_getElem hlt]
    · rw [if_neg hin2]
      apply leB_zero
      intro k hk
      have : n * sizes.sum ≤ i * sizes.sum := Nat.mul_le_mul_right _ (by omega)
      show (vresize v.bytes _ 0#8).getD _ _ = _
      rw [List.getD_eq_getElem?_getD, vresize_getElem?, if_pos (by omega), dif_neg (by rw [h.len]; omega)]
      rfl

end Verif.Mult
