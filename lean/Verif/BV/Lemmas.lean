/-
Helper lemmas for BitVector.
-/
import Verif.BV.Model
import Verif.Bits.Props

namespace Verif.BV
open Verif.Bits Verif.Serial

/-- Bit `i` of a word array (0 outside). -/
def bitAt (ws : List W64) (i : Nat) : Bool := (ws.getD (i / 64) 0#64).getLsbD (i % 64)

theorem getD_set (ws : List W64) (k : Nat) (v : W64) (j : Nat) (hk : k < ws.length) :
    (ws.set k v).getD j 0#64 = if j = k then v else ws.getD j 0#64 := by
  simp only [List.getD_eq_getElem?_getD, List.getElem?_set]
  by_cases h : k = j
  · subst h; simp [hk]
  · simp [h, Ne.symm h]

theorem rdSeg_nat (ws : List W64) (k : Nat) (hk : k < ws.length) : rdSeg ws (k : Int) = some (ws.getD k 0#64) := by
  simp [rdSeg, hk, List.getD_eq_getElem?_getD]

theorem wrSeg_nat (ws : List W64) (k : Nat) (v : W64) (hk : k < ws.length) :
    wrSeg ws (k : Int) v = some (ws.set k v) := by
  simp [wrSeg, wr, hk]

/-- Absolute position of an iterator. -/
def Iter.pos (x : Iter) : Int := 64 * x.seg + x.ctz

theorem mkIter_pos (n : Nat) : (mkIter n).pos = n := by
  simp only [mkIter, Iter.pos]; omega

theorem mkIter_ctz (n : Nat) : (mkIter n).ctz < 64 := Nat.mod_lt _ (by decide)

theorem Iter.ext_pos (x y : Iter) (hx : x.ctz < 64) (hy : y.ctz < 64) (h : x.pos = y.pos) : x = y := by
  cases x; cases y
  simp only [Iter.pos, Iter.mk.injEq] at *
  omega

theorem add_spec (x : Iter) (d : Int) (hx : x.ctz < 64) : (x.add d).pos = x.pos + d ∧ (x.add d).ctz < 64 := by
  unfold Iter.add Iter.pos
  by_cases h : d ≥ 0
  · simp only [h, if_true]
    rw [Int.tdiv_eq_ediv_of_nonneg (by omega)]
    constructor <;> omega
  · simp only [h, if_false]
    have e : (d - 64 + (x.ctz : Int) + 1) = -(63 - x.ctz - d) := by omega
    rw [e, Int.neg_tdiv, Int.tdiv_eq_ediv_of_nonneg (by omega)]
    constructor <;> omega

theorem mkIter_add (n : Nat) (d : Nat) : (mkIter n).add d = mkIter (n + d) := by
  have h := add_spec (mkIter n) d (mkIter_ctz n)
  apply Iter.ext_pos _ _ h.2 (mkIter_ctz _)
  rw [h.1, mkIter_pos, mkIter_pos]; omega

theorem mkIter_inc (n : Nat) : (mkIter n).inc = mkIter (n + 1) := by
  unfold Iter.inc mkIter
  split
  · next h =>
    simp only at h
    simp only [Iter.mk.injEq]; omega
  · next h =>
    simp only at h
    simp only [Iter.mk.injEq]; omega

theorem mkIter_sub_one (n : Nat) (h : 0 < n) : (mkIter n).sub 1 = mkIter (n - 1) := by
  have hs := add_spec (mkIter n) (-1) (mkIter_ctz n)
  apply Iter.ext_pos _ _ hs.2 (mkIter_ctz _)
  rw [hs.1, mkIter_pos, mkIter_pos]; omega

theorem lt_spec (x y : Iter) (hx : x.ctz < 64) (hy : y.ctz < 64) : x.lt y = true ↔ x.pos < y.pos := by
  simp only [Iter.lt, Iter.pos, Bool.or_eq_true, Bool.and_eq_true, decide_eq_true_eq, beq_iff_eq]
  omega

theorem le_spec (x y : Iter) (hx : x.ctz < 64) (hy : y.ctz < 64) : x.le y = true ↔ x.pos ≤ y.pos := by
  rw [Iter.le, Bool.not_eq_true', ← Bool.not_eq_true, lt_spec y x hy hx]
  omega

theorem eq_spec (x y : Iter) (hx : x.ctz < 64) (hy : y.ctz < 64) : x.eq y = true ↔ x.pos = y.pos := by
  simp only [Iter.eq, Iter.pos, Bool.and_eq_true, beq_iff_eq]
  omega

theorem fillWords_spec (v : W64) : ∀ (n : Nat) (ws : List W64) (s : Nat), s + n ≤ ws.length →
    ∃ ws', fillWords ws (s : Int) v n = some ws' ∧ ws'.length = ws.length ∧
      ∀ j, ws'.getD j 0#64 = if s ≤ j ∧ j < s + n then v else ws.getD j 0#64
  | 0, ws, s, h => ⟨ws, rfl, rfl, fun j => by rw [if_neg (by omega)]⟩
  | n + 1, ws, s, h => by
    obtain ⟨ws', h1, h2, h3⟩ := fillWords_spec v n (ws.set s v) (s + 1) (by simp; omega)
    refine ⟨ws', ?_, by simpa using h2, ?_⟩
    · simp only [fillWords]
      rw [wrSeg_nat ws s v (by omega)]
      simp only [Option.bind_eq_bind, Option.bind_some]
      exact h1
    · intro j
      rw [h3, getD_set ws s v j (by omega)]
      by_cases hj : j = s
      · subst hj
        rw [if_neg (by omega), if_pos rfl, if_pos (by omega)]
      · by_cases hc : s + 1 ≤ j ∧ j < s + 1 + n
        · rw [if_pos hc, if_pos (by omega)]
        · rw [if_neg hc, if_neg hj, if_neg (by omega)]

theorem allOnes_shl (c j : Nat) : (BitVec.allOnes 64 <<< c).getLsbD j = (decide (j < 64) && decide (c ≤ j)) := by
  rw [BitVec.getLsbD_shiftLeft, BitVec.getLsbD_allOnes]
  by_cases h : j < 64 <;> by_cases h2 : c ≤ j
  · simp [h, h2, show j - c < 64 by omega]
  · simp [h2, show j < c by omega]
  · simp [h]
  · simp [h]

theorem allOnes_shr (c j : Nat) : (BitVec.allOnes 64 >>> c).getLsbD j = decide (j < 64 - c) := by
  rw [BitVec.getLsbD_ushiftRight, BitVec.getLsbD_allOnes]
  by_cases h : j < 64 - c
  · simp [h]; omega
  · simp [h]; omega

/-- What `_fill` writes into the word with index `k` of the range `[b, e)`. -/
theorem fill_spec (ws : List W64) (b e : Nat) (bit : Bool) (he : e ≤ 64 * ws.length) :
    ∃ ws', fill ws (mkIter b) (mkIter e) bit = some ws' ∧ ws'.length = ws.length ∧
      ∀ i, bitAt ws' i = if b ≤ i ∧ i < e then bit else bitAt ws i := by
  by_cases hbe : e ≤ b
  · refine ⟨ws, ?_, rfl, fun i => by rw [if_neg (by omega)]⟩
    unfold fill
    rw [if_pos]
    rw [le_spec _ _ (mkIter_ctz _) (mkIter_ctz _), mkIter_pos, mkIter_pos]
    omega
  have hle : ¬ ((mkIter e).le (mkIter b) = true) := by
    rw [le_spec _ _ (mkIter_ctz _) (mkIter_ctz _), mkIter_pos, mkIter_pos]
    omega
  have hback : (mkIter e).sub 1 = mkIter (e - 1) := mkIter_sub_one e (by omega)
  have hbl : b / 64 < ws.length := by omega
  have hel : (e - 1) / 64 < ws.length := by omega
  unfold fill
  rw [if_neg hle]
  simp only [hback]
  by_cases hseg : b / 64 < (e - 1) / 64
  · have hseg' : (mkIter b).seg < (mkIter (e - 1)).seg := by simp only [mkIter]; omega
    have hn : ((mkIter (e - 1)).seg - ((mkIter b).seg + 1)).toNat = (e - 1) / 64 - (b / 64 + 1) := by
      simp only [mkIter]; omega
    have hb1 : (mkIter b).seg + 1 = ((b / 64 + 1 : Nat) : Int) := by simp [mkIter]
    -- common shape of both branches
    have key : ∀ (f1 f2 : W64 → W64) (v : W64),
        (∀ w j, j < 64 → (f1 w).getLsbD j = if b % 64 ≤ j then bit else w.getLsbD j) →
        (∀ w j, j < 64 → (f2 w).getLsbD j = if j ≤ (e - 1) % 64 then bit else w.getLsbD j) →
        (∀ j, j < 64 → v.getLsbD j = bit) →
        ∃ ws', (do
          let w ← rdSeg ws (mkIter b).seg
          let ws ← wrSeg ws (mkIter b).seg (f1 w)
          let ws ← fillWords ws ((mkIter b).seg + 1) v ((mkIter (e - 1)).seg - ((mkIter b).seg + 1)).toNat
          let w ← rdSeg ws (mkIter (e - 1)).seg
          wrSeg ws (mkIter (e - 1)).seg (f2 w)) = some ws' ∧ ws'.length = ws.length ∧
          ∀ i, bitAt ws' i = if b ≤ i ∧ i < e then bit else bitAt ws i := by
      intro f1 f2 v h1 h2 hv
      rw [show (mkIter b).seg = ((b / 64 : Nat) : Int) from rfl] at *
      rw [show (mkIter (e - 1)).seg = (((e - 1) / 64 : Nat) : Int) from rfl] at *
      rw [rdSeg_nat ws _ hbl]
      simp only [Option.bind_eq_bind, Option.bind_some]
      rw [wrSeg_nat ws _ _ hbl]
      simp only [Option.bind_some]
      rw [hn, hb1]
      obtain ⟨ws2, g1, g2, g3⟩ := fillWords_spec v ((e - 1) / 64 - (b / 64 + 1))
        (ws.set (b / 64) (f1 (ws.getD (b / 64) 0#64))) (b / 64 + 1) (by simp; omega)
      rw [g1]
      simp only [Option.bind_some]
      rw [List.length_set] at g2
      rw [rdSeg_nat ws2 _ (by omega)]
      simp only [Option.bind_some]
      rw [wrSeg_nat ws2 _ _ (by omega)]
      refine ⟨_, rfl, by simp [g2], ?_⟩
      intro i
      have him : i % 64 < 64 := Nat.mod_lt _ (by decide)
      unfold bitAt
      rw [getD_set _ _ _ _ (by omega)]
      by_cases hi1 : i / 64 = (e - 1) / 64
      · rw [if_pos hi1, h2 _ _ him]
        by_cases hc : i % 64 ≤ (e - 1) % 64
        · rw [if_pos hc, if_pos (by omega)]
        · rw [if_neg hc, g3, if_neg (by omega), getD_set _ _ _ _ hbl,
            if_neg (show ¬ (e - 1) / 64 = b / 64 by omega), if_neg (by omega), hi1]
      · rw [if_neg hi1, g3]
        by_cases hi2 : b / 64 + 1 ≤ i / 64 ∧ i / 64 < b / 64 + 1 + ((e - 1) / 64 - (b / 64 + 1))
        · rw [if_pos hi2, hv _ him, if_pos (by omega)]
        · rw [if_neg hi2, getD_set _ _ _ _ hbl]
          by_cases hi3 : i / 64 = b / 64
          · rw [if_pos hi3, h1 _ _ him]
            by_cases hc : b % 64 ≤ i % 64
            · rw [if_pos hc, if_pos (by omega)]
            · rw [if_neg hc, if_neg (by omega), hi3]
          · rw [if_neg hi3, if_neg (by omega)]
    cases bit
    · simp only [Bool.false_eq_true, if_false, hseg', if_true]
      apply key (fun w => w &&& ~~~(BitVec.allOnes 64 <<< (mkIter b).ctz))
        (fun w => w &&& (if (mkIter e).ctz > 0 then BitVec.allOnes 64 <<< (mkIter e).ctz else 0#64)) 0#64
      · intro w j hj
        rw [BitVec.getLsbD_and, BitVec.getLsbD_not, allOnes_shl]
        simp only [mkIter, hj, decide_true, Bool.true_and]
        by_cases hc : b % 64 ≤ j <;> simp [hc]
      · intro w j hj
        rw [BitVec.getLsbD_and]
        have hctz : (mkIter e).ctz = e % 64 := rfl
        by_cases h0 : (mkIter e).ctz > 0
        · rw [if_pos h0, allOnes_shl, hctz]
          rw [hctz] at h0
          by_cases hc : j ≤ (e - 1) % 64
          · rw [if_pos hc]; simp; omega
          · rw [if_neg hc]; simp [hj, show e % 64 ≤ j by omega]
        · rw [if_neg h0, if_pos (by omega)]; simp
      · intro j hj; simp
    · simp only [if_true, hseg']
      apply key (fun w => w ||| (BitVec.allOnes 64 <<< (mkIter b).ctz))
        (fun w => w ||| (if (mkIter e).ctz > 0 then ~~~(BitVec.allOnes 64 <<< (mkIter e).ctz) else BitVec.allOnes 64))
        (BitVec.allOnes 64)
      · intro w j hj
        rw [BitVec.getLsbD_or, allOnes_shl]
        simp only [mkIter, hj, decide_true, Bool.true_and]
        by_cases hc : b % 64 ≤ j <;> simp [hc]
      · intro w j hj
        rw [BitVec.getLsbD_or]
        have hctz : (mkIter e).ctz = e % 64 := rfl
        by_cases h0 : (mkIter e).ctz > 0
        · rw [if_pos h0, BitVec.getLsbD_not, allOnes_shl, hctz]
          rw [hctz] at h0
          by_cases hc : j ≤ (e - 1) % 64
          · rw [if_pos hc]; simp [hj, show ¬ e % 64 ≤ j by omega]
          · rw [if_neg hc]; simp [hj, show e % 64 ≤ j by omega]
        · rw [if_neg h0, if_pos (by omega), BitVec.getLsbD_allOnes]; simp [hj]
      · intro j hj
        rw [BitVec.getLsbD_allOnes]; simp [hj]
  · have hseg' : ¬ (mkIter b).seg < (mkIter (e - 1)).seg := by simp only [mkIter]; omega
    have key : ∀ (f1 : W64 → W64),
        (∀ w j, j < 64 → (f1 w).getLsbD j = if b % 64 ≤ j ∧ j ≤ (e - 1) % 64 then bit else w.getLsbD j) →
        ∃ ws', (do
          let w ← rdSeg ws (mkIter b).seg
          wrSeg ws (mkIter b).seg (f1 w)) = some ws' ∧ ws'.length = ws.length ∧
          ∀ i, bitAt ws' i = if b ≤ i ∧ i < e then bit else bitAt ws i := by
      intro f1 h1
      rw [show (mkIter b).seg = ((b / 64 : Nat) : Int) from rfl, rdSeg_nat ws _ hbl]
      simp only [Option.bind_eq_bind, Option.bind_some]
      rw [wrSeg_nat ws _ _ hbl]
      refine ⟨_, rfl, by simp, ?_⟩
      intro i
      have him : i % 64 < 64 := Nat.mod_lt _ (by decide)
      unfold bitAt
      rw [getD_set _ _ _ _ hbl]
      by_cases hi : i / 64 = b / 64
      · rw [if_pos hi, h1 _ _ him]
        by_cases hc : b % 64 ≤ i % 64 ∧ i % 64 ≤ (e - 1) % 64
        · rw [if_pos hc, if_pos (by omega)]
        · rw [if_neg hc, if_neg (by omega), hi]
      · rw [if_neg hi, if_neg (by omega)]
    have hbits : ∀ j, j < 64 → ((BitVec.allOnes 64 <<< (mkIter b).ctz) &&&
        (BitVec.allOnes 64 >>> (64 - ((mkIter (e - 1)).ctz + 1)))).getLsbD j =
        decide (b % 64 ≤ j ∧ j ≤ (e - 1) % 64) := by
      intro j hj
      rw [BitVec.getLsbD_and, allOnes_shl, allOnes_shr]
      rw [Bool.eq_iff_iff]
      simp only [Bool.and_eq_true, decide_eq_true_eq]
      have h1 : (mkIter b).ctz = b % 64 := rfl
      have h2 : (mkIter (e - 1)).ctz = (e - 1) % 64 := rfl
      omega
    cases bit
    · simp only [Bool.false_eq_true, if_false, hseg']
      apply key (fun w => w &&& ~~~((BitVec.allOnes 64 <<< (mkIter b).ctz) &&&
        (BitVec.allOnes 64 >>> (64 - ((mkIter (e - 1)).ctz + 1)))))
      intro w j hj
      rw [BitVec.getLsbD_and, BitVec.getLsbD_not, hbits j hj]
      by_cases hc : b % 64 ≤ j ∧ j ≤ (e - 1) % 64 <;> simp [hc, hj]
    · simp only [if_true, if_false, hseg']
      apply key (fun w => w ||| ((BitVec.allOnes 64 <<< (mkIter b).ctz) &&&
        (BitVec.allOnes 64 >>> (64 - ((mkIter (e - 1)).ctz + 1)))))
      intro w j hj
      rw [BitVec.getLsbD_or, hbits j hj]
      by_cases hc : b % 64 ≤ j ∧ j ≤ (e - 1) % 64 <;> simp [hc]

theorem and_offset_ne (w : W64) (o : Nat) (ho : o < 64) : (w &&& (1#64 <<< o) != 0#64) = w.getLsbD o := by
  obtain ⟨m, hm, hb⟩ := C09_offsetMask o ho
  have : m = 1#64 <<< o := by simpa [offsetMask, ho] using hm.symm
  subst this
  rw [Bool.eq_iff_iff, bne_iff_ne, ne_zero_iff]
  constructor
  · rintro ⟨u, hu⟩
    rw [BitVec.getLsbD_and, hb] at hu
    simp at hu
    rw [← hu.2]; exact hu.1
  · intro h
    exact ⟨o, by rw [BitVec.getLsbD_and, hb, h]; simp⟩

theorem set_bit (w : W64) (o : Nat) (ho : o < 64) (b : Bool) (j : Nat) (hj : j < 64) :
    (if b then w ||| (1#64 <<< o) else w &&& ~~~(1#64 <<< o)).getLsbD j = if j = o then b else w.getLsbD j := by
  obtain ⟨m, hm, hb⟩ := C09_offsetMask o ho
  have : m = 1#64 <<< o := by simpa [offsetMask, ho] using hm.symm
  subst this
  cases b
  · simp only [Bool.false_eq_true, if_false]
    rw [BitVec.getLsbD_and, BitVec.getLsbD_not, hb]
    by_cases h : j = o
    · simp [h]
    · simp [h, hj]
  · simp only [if_true]
    rw [BitVec.getLsbD_or, hb]
    by_cases h : j = o <;> simp [h]

theorem set_spec (ws : List W64) (i : Nat) (b : Bool) (hi : i < 64 * ws.length) :
    ∃ ws', (mkIter i).set ws b = some ws' ∧ ws'.length = ws.length ∧
      ∀ j, bitAt ws' j = if j = i then b else bitAt ws j := by
  have hk : i / 64 < ws.length := by omega
  have ho : i % 64 < 64 := Nat.mod_lt _ (by decide)
  refine ⟨ws.set (i / 64) (if b then ws.getD (i / 64) 0#64 ||| (1#64 <<< (i % 64))
    else ws.getD (i / 64) 0#64 &&& ~~~(1#64 <<< (i % 64))), ?_, by simp, ?_⟩
  · unfold Iter.set
    rw [show (mkIter i).seg = ((i / 64 : Nat) : Int) from rfl, rdSeg_nat _ _ hk]
    simp only [Option.bind_eq_bind, Option.bind_some, mkIter, offsetMask, ho, if_true]
    exact wrSeg_nat _ _ _ hk
  · intro j
    have hjm : j % 64 < 64 := Nat.mod_lt _ (by decide)
    unfold bitAt
    rw [getD_set _ _ _ _ hk]
    by_cases hj : j / 64 = i / 64
    · rw [if_pos hj, set_bit _ _ ho _ _ hjm, hj]
      by_cases h : j % 64 = i % 64
      · rw [if_pos h, if_pos (by omega)]
      · rw [if_neg h, if_neg (by omega)]
    · rw [if_neg hj, if_neg (by omega)]

theorem get_spec (ws : List W64) (i : Nat) (hi : i < 64 * ws.length) :
    (mkIter i).get ws = some (bitAt ws i) := by
  have hk : i / 64 < ws.length := by omega
  have ho : i % 64 < 64 := Nat.mod_lt _ (by decide)
  unfold Iter.get
  rw [show (mkIter i).seg = ((i / 64 : Nat) : Int) from rfl, rdSeg_nat _ _ hk]
  simp only [Option.bind_eq_bind, Option.bind_some, mkIter, offsetMask, ho, if_true, Option.pure_def, bitAt]
  rw [and_offset_ne _ _ ho]

theorem writeSeq_spec : ∀ (bits : List Bool) (ws : List W64) (i : Nat), i + bits.length ≤ 64 * ws.length →
    ∃ ws', writeSeq ws (mkIter i) bits = some ws' ∧ ws'.length = ws.length ∧
      ∀ j, bitAt ws' j = if h : i ≤ j ∧ j < i + bits.length then bits[j - i]'(by omega) else bitAt ws j
  | [], ws, i, h => ⟨ws, rfl, rfl, fun j => by rw [dif_neg (by simp only [List.length_nil]; omega)]⟩
  | b :: bs, ws, i, h => by
    simp only [List.length_cons] at h
    obtain ⟨w1, a1, a2, a3⟩ := set_spec ws i b (by omega)
    obtain ⟨w2, b1, b2, b3⟩ := writeSeq_spec bs w1 (i + 1) (by rw [a2]; omega)
    refine ⟨w2, ?_, by rw [b2, a2], ?_⟩
    · simp only [writeSeq, a1, Option.bind_eq_bind, Option.bind_some, mkIter_inc]
      exact b1
    · intro j
      rw [b3]
      by_cases hj : j = i
      · subst hj
        rw [dif_neg (by omega), a3, if_pos rfl, dif_pos (by simp)]
        simp
      · by_cases hc : i + 1 ≤ j ∧ j < i + 1 + bs.length
        · rw [dif_pos hc, dif_pos (by simp; omega)]
          have : j - i = (j - (i + 1)) + 1 := by omega
          simp [this]
        · rw [dif_neg hc, a3, if_neg hj, dif_neg (by simp; omega)]

theorem wordSize_le (n : Nat) : n ≤ 64 * wordSize n := by
  unfold wordSize; split <;> omega

theorem wordSize_mono {m n : Nat} (h : m ≤ n) : wordSize m ≤ wordSize n := by
  unfold wordSize; split <;> split <;> omega

theorem bitAt_replicate (k i : Nat) : bitAt (List.replicate k 0#64) i = false := by
  unfold bitAt
  rw [List.getD_eq_getElem?_getD, List.getElem?_replicate]
  split <;> simp

theorem bitAt_vresize (ws : List W64) (n i : Nat) (hi : i < 64 * n) (hi2 : i < 64 * ws.length) :
    bitAt (vresize ws n 0#64) i = bitAt ws i := by
  unfold bitAt
  rw [List.getD_eq_getElem?_getD, vresize_getElem?, if_pos (by omega), dif_pos (by omega),
    List.getD_eq_getElem?_getD, List.getElem?_eq_getElem (by omega)]

end Verif.BV
