/-
Helper lemmas: hardware variants of ctz/clz, and select inside a word (both variants).
-/
import Verif.Bits.Zeros
import Verif.Bits.PopLemmas
import Verif.Bits.Pop32

namespace Verif.Bits

theorem countP_range_lt (n t : Nat) (h : t ≤ n) :
    (List.range n).countP (fun i => decide (i < t)) = t := by
  induction n generalizing t with
  | zero => simp; omega
  | succ n ih =>
    rw [List.range_succ, List.countP_append]
    by_cases hn : t = n + 1
    · subst hn
      have : (List.range n).countP (fun i => decide (i < n + 1)) = n := by
        rw [List.countP_eq_length.2]
        · simp
        · intro a ha
          have := List.mem_range.1 ha
          simp; omega
      rw [this]; simp
    · rw [ih t (by omega)]
      simp; omega

theorem countP_range_gt (n t : Nat) (h : t < n) :
    (List.range n).countP (fun i => decide (t < i)) = n - 1 - t := by
  have h1 := List.length_eq_countP_add_countP (fun i => decide (i < t + 1)) (l := List.range n)
  rw [countP_range_lt n (t + 1) (by omega), List.length_range] at h1
  have : (List.range n).countP (fun i => decide (t < i)) =
      (List.range n).countP (fun a => decide ¬decide (a < t + 1) = true) := by
    apply List.countP_congr
    intro x _
    simp
    omega
  omega

theorem hw_ctz_isCtz {n : Nat} (hn : 0 < n) (x : BitVec n) : IsCtz x (Hw.ctz x) := by
  by_cases h : x = 0#n
  · subst h
    have : Hw.ctz (0#n) = n := by
      unfold Hw.ctz Hw.popcnt
      rw [List.countP_eq_length.2]
      · simp
      · intro a ha
        have := List.mem_range.1 ha
        rw [BitVec.zero_and, BitVec.zero_sub, BitVec.neg_one_eq_allOnes, BitVec.getLsbD_allOnes]
        simpa using this
    rw [this]
    exact isCtz_zero n
  · obtain ⟨t, ht, h1, h2⟩ := exists_low x h
    have hand : x &&& -x = BitVec.twoPow n t := by
      apply BitVec.eq_of_getLsbD_eq
      intro i hi
      rw [BitVec.getLsbD_and, BitVec.getLsbD_neg, BitVec.getLsbD_twoPow]
      by_cases hit : i = t
      · subst hit
        have : ¬ ∃ j < i, x.getLsbD j = true := by
          rintro ⟨j, hj, hx⟩
          have := h2 j hx
          omega
        simp [h1, ht, this]
      · cases hx : x.getLsbD i
        · simp [hi, Ne.symm hit]
        · have := h2 i hx
          have hex : ∃ j < i, x.getLsbD j = true := ⟨t, by omega, h1⟩
          simp [hi, hex, Ne.symm hit]
    have : Hw.ctz x = t := by
      unfold Hw.ctz Hw.popcnt
      rw [hand]
      refine Eq.trans ?_ (countP_range_lt n t (by omega))
      apply List.countP_congr
      intro a ha
      have ha' := List.mem_range.1 ha
      have h2p : (2:Nat) ^ t < 2 ^ n := Nat.pow_lt_pow_right (by omega) ht
      have hval : (BitVec.twoPow n t - 1#n).toNat = 2 ^ t - 1 := by
        rw [BitVec.toNat_sub_of_le]
        · rw [BitVec.toNat_twoPow, Nat.mod_eq_of_lt h2p]
          congr 1
          simp [BitVec.toNat_ofNat]
          omega
        · rw [BitVec.le_def, BitVec.toNat_twoPow, Nat.mod_eq_of_lt h2p]
          simp [BitVec.toNat_ofNat]
          have : 0 < 2 ^ t := Nat.two_pow_pos t
          have := Nat.mod_le 1 (2^n)
          omega
      rw [BitVec.getLsbD, hval, Nat.testBit_two_pow_sub_one]
    rw [this]
    exact isCtz_of x t ht h1 h2

theorem smear_step {n : Nat} (x y : BitVec n) (m : Nat)
    (h : ∀ i, y.getLsbD i = true ↔ ∃ d, d < m ∧ x.getLsbD (i + d) = true) (i : Nat) :
    (y ||| (y >>> m)).getLsbD i = true ↔ ∃ d, d < m + m ∧ x.getLsbD (i + d) = true := by
  rw [BitVec.getLsbD_or, BitVec.getLsbD_ushiftRight, Bool.or_eq_true, h, h]
  constructor
  · rintro (⟨d, hd, hx⟩ | ⟨d, hd, hx⟩)
    · exact ⟨d, by omega, hx⟩
    · exact ⟨m + d, by omega, by rw [← hx]; congr 1; omega⟩
  · rintro ⟨d, hd, hx⟩
    by_cases hdm : d < m
    · exact Or.inl ⟨d, hdm, hx⟩
    · exact Or.inr ⟨d - m, by omega, by rw [← hx]; congr 1; omega⟩

theorem hw_clz_of {n : Nat} (x y : BitVec n)
    (h : ∀ i, y.getLsbD i = true ↔ ∃ d, d < n ∧ x.getLsbD (i + d) = true) :
    IsClz x (Hw.popcnt (~~~y)) := by
  by_cases hx : x = 0#n
  · subst hx
    have : Hw.popcnt (~~~y) = n := by
      unfold Hw.popcnt
      rw [List.countP_eq_length.2]
      · simp
      · intro a ha
        have ha := List.mem_range.1 ha
        rw [BitVec.getLsbD_not]
        have : y.getLsbD a = false := by
          cases hb : y.getLsbD a
          · rfl
          · obtain ⟨d, _, hd⟩ := (h a).1 hb
            simp at hd
        rw [this]; simp [ha]
    rw [this]
    exact isClz_zero n
  · obtain ⟨t, ht, h1, h2⟩ := exists_high x hx
    have : Hw.popcnt (~~~y) = n - 1 - t := by
      unfold Hw.popcnt
      rw [← countP_range_gt n t ht]
      apply List.countP_congr
      intro a ha
      have ha := List.mem_range.1 ha
      rw [BitVec.getLsbD_not]
      have : y.getLsbD a = decide (a ≤ t) := by
        rw [Bool.eq_iff_iff, h]
        simp only [decide_eq_true_eq]
        constructor
        · rintro ⟨d, _, hd⟩
          have := h2 _ hd
          omega
        · intro hle
          exact ⟨t - a, by omega, by rw [← h1]; congr 1; omega⟩
      rw [this]
      simp [ha]
    rw [this]
    exact isClz_of x t ht h1 h2

theorem hw_clz64_isClz (x : W64) : IsClz x (Hw.clz64 x) := by
  have s0 : ∀ i, x.getLsbD i = true ↔ ∃ d, d < 1 ∧ x.getLsbD (i + d) = true := by
    intro i
    constructor
    · intro h; exact ⟨0, by omega, h⟩
    · rintro ⟨d, hd, h⟩
      obtain rfl : d = 0 := by omega
      exact h
  have s1 := smear_step x _ 1 s0
  have s2 := smear_step x _ 2 s1
  have s3 := smear_step x _ 4 s2
  have s4 := smear_step x _ 8 s3
  have s5 := smear_step x _ 16 s4
  have s6 := smear_step x _ 32 s5
  exact hw_clz_of x _ s6

theorem hw_clz32_isClz (x : W32) : IsClz x (Hw.clz32 x) := by
  have s0 : ∀ i, x.getLsbD i = true ↔ ∃ d, d < 1 ∧ x.getLsbD (i + d) = true := by
    intro i
    constructor
    · intro h; exact ⟨0, by omega, h⟩
    · rintro ⟨d, hd, h⟩
      obtain rfl : d = 0 := by omega
      exact h
  have s1 := smear_step x _ 1 s0
  have s2 := smear_step x _ 2 s1
  have s3 := smear_step x _ 4 s2
  have s4 := smear_step x _ 8 s3
  have s5 := smear_step x _ 16 s4
  exact hw_clz_of x _ s5

/-! ### select -/

theorem onesBelow_succ {n : Nat} (x : BitVec n) (k : Nat) :
    onesBelow x (k + 1) = onesBelow x k + (x.getLsbD k).toNat := by
  unfold onesBelow
  rw [List.range_succ, List.countP_append]
  cases h : x.getLsbD k <;> simp [h]

theorem onesBelow_mono {n : Nat} (x : BitVec n) {k l : Nat} (h : k ≤ l) :
    onesBelow x k ≤ onesBelow x l := by
  induction l with
  | zero => obtain rfl : k = 0 := by omega
            exact Nat.le_refl _
  | succ l ih =>
    by_cases hk : k = l + 1
    · subst hk; exact Nat.le_refl _
    · have := ih (by omega)
      rw [onesBelow_succ]
      omega

theorem onesBelow_shift {n : Nat} (x : BitVec n) (w k : Nat) :
    onesBelow x (w + k) = onesBelow x w + onesBelow (x >>> w) k := by
  induction k with
  | zero => simp [onesBelow]
  | succ k ih => rw [← Nat.add_assoc, onesBelow_succ, onesBelow_succ, ih, BitVec.getLsbD_ushiftRight]
                 omega

theorem onesBelow_congr {n m : Nat} (x : BitVec n) (y : BitVec m) (k : Nat)
    (h : ∀ i, i < k → x.getLsbD i = y.getLsbD i) : onesBelow x k = onesBelow y k := by
  unfold onesBelow
  apply List.countP_congr
  intro a ha
  rw [h a (List.mem_range.1 ha)]

theorem ones_setWidth (x : W64) (k : Nat) : ones (x.setWidth k) = onesBelow x k := by
  unfold ones
  apply onesBelow_congr
  intro i hi
  rw [BitVec.getLsbD_setWidth]
  simp [hi]

theorem sel_step (x : W64) (w i p c : Nat) (hc : c = onesBelow x w) (hp : x.getLsbD p = true)
    (ho : onesBelow x p + 1 = i) :
    if c < i then w ≤ p ∧ (x >>> w).getLsbD (p - w) = true ∧ onesBelow (x >>> w) (p - w) + 1 = i - c
    else p < w := by
  by_cases hpw : p < w
  · have h1 := onesBelow_mono x (show p + 1 ≤ w from hpw)
    rw [onesBelow_succ, hp] at h1
    have : ¬ c < i := by simp at h1; omega
    rw [if_neg this]
    exact hpw
  · have h1 := onesBelow_shift x w (p - w)
    rw [show w + (p - w) = p by omega] at h1
    have : c < i := by omega
    rw [if_pos this]
    refine ⟨by omega, ?_, by omega⟩
    rw [BitVec.getLsbD_ushiftRight, show w + (p - w) = p by omega]
    exact hp

theorem sel_table : ∀ b : Fin 256, ∀ p : Fin 8, Nat.testBit b.val p.val = true →
    (do let row ← kLtSel[(List.range p.val).countP (fun i => Nat.testBit b.val i) + 1]?
        row[b.val]?) = some (p.val + 1) := by
  decide +kernel

theorem sel_finish (x : W64) (p ret : Nat) (hp : p < 8) (hx : x.getLsbD p = true) :
    (do let row ← kLtSel[onesBelow x p + 1]?
        let v ← row[(x &&& 0xFF#64).toNat]?
        pure (ret + v)) = some (ret + (p + 1)) := by
  have hb : ∀ i, i < 8 → Nat.testBit (x &&& 0xFF#64).toNat i = x.getLsbD i := by
    intro i hi
    change (x &&& 0xFF#64).getLsbD i = _
    rw [BitVec.getLsbD_and]
    have : ∀ i, i < 8 → (0xFF#64).getLsbD i = true := by decide
    rw [this i hi, Bool.and_true]
  have hlt : (x &&& 0xFF#64).toNat < 256 := by
    rw [BitVec.toNat_and]
    have : (0xFF#64).toNat < 256 := by decide
    exact Nat.lt_of_le_of_lt Nat.and_le_right this
  have h := sel_table ⟨_, hlt⟩ ⟨p, hp⟩ (by rw [hb p hp]; exact hx)
  have hcnt : (List.range p).countP (fun i => Nat.testBit (x &&& 0xFF#64).toNat i) = onesBelow x p := by
    unfold onesBelow
    apply List.countP_congr
    intro a ha
    have := List.mem_range.1 ha
    rw [hb a (by omega)]
  simp only [hcnt] at h
  cases hr : kLtSel[onesBelow x p + 1]? with
  | none => rw [hr] at h; simp at h
  | some row =>
    rw [hr] at h
    simp only [Option.bind_eq_bind, Option.bind_some] at h ⊢
    rw [h]; rfl

theorem popcnt8_eq (x : BitVec 8) : popcnt8 x = ones x := by
  revert x; decide +kernel

theorem popcnt16_eq (x : BitVec 16) : popcnt16 x = ones x := by
  have hb : ∀ b : Fin 256, kLtCnt.getD b.val 0 = (List.range 8).countP (fun i => Nat.testBit b.val i) := by
    decide +kernel
  have hl : ∀ y : BitVec 16, (y &&& 0xFF#16).toNat < 256 := by
    intro y
    rw [BitVec.toNat_and]
    exact Nat.lt_of_le_of_lt Nat.and_le_right (by decide)
  have hcnt : ∀ y : BitVec 16, kLtCnt.getD (y &&& 0xFF#16).toNat 0 = onesBelow y 8 := by
    intro y
    have := hb ⟨_, hl y⟩
    rw [show kLtCnt.getD (y &&& 0xFF#16).toNat 0 = _ from this]
    unfold onesBelow
    apply List.countP_congr
    intro a ha
    have ha := List.mem_range.1 ha
    have : (y &&& 0xFF#16).getLsbD a = y.getLsbD a := by
      rw [BitVec.getLsbD_and]
      have : ∀ i, i < 8 → (0xFF#16).getLsbD i = true := by decide
      rw [this a ha, Bool.and_true]
    rw [← this]; rfl
  unfold popcnt16
  rw [hcnt, hcnt]
  unfold ones
  have := onesBelow_shift x 8 8
  have e : onesBelow x 16 = onesBelow x (8 + 8) := rfl
  omega

theorem sel_correct (x : W64) (i p : Nat) (h : IsSelect x i p)
    (h32 : (popcnt32 (x.setWidth 32)).toNat = ones (x.setWidth 32)) : sel x i = some (p + 1) := by
  obtain ⟨hp, hx, ho⟩ := h
  have h8 : ∀ y : W64, popcnt8 (y.setWidth 8) = onesBelow y 8 := fun y => by rw [popcnt8_eq, ones_setWidth]
  have h16 : ∀ y : W64, popcnt16 (y.setWidth 16) = onesBelow y 16 := fun y => by rw [popcnt16_eq, ones_setWidth]
  rw [ones_setWidth] at h32
  -- the last 8 bits
  have fin8 : ∀ (x : W64) (i p ret : Nat), p < 16 → x.getLsbD p = true → onesBelow x p + 1 = i →
      (match (if popcnt8 (x.setWidth 8) < i then (x >>> 8, ret + 8, i - popcnt8 (x.setWidth 8)) else (x, ret, i)) with
        | (x, ret, i) => (do
          let row ← kLtSel[i]?
          let v ← row[(x &&& 0xFF#64).toNat]?
          pure (ret + v))) = some (ret + (p + 1)) := by
    intro x i p ret hp hx ho
    have st := sel_step x 8 i p _ (h8 x) hx ho
    split at st
    · next hc =>
      rw [if_pos hc]
      simp only
      rw [← st.2.2, sel_finish (x >>> 8) (p - 8) (ret + 8) (by omega) st.2.1]
      congr 1; omega
    · next hc =>
      rw [if_neg hc]
      simp only
      rw [← ho, sel_finish x p ret st hx]
  have fin16 : ∀ (x : W64) (i p ret : Nat), p < 32 → x.getLsbD p = true → onesBelow x p + 1 = i →
      (match (if popcnt16 (x.setWidth 16) < i then (x >>> 16, ret + 16, i - popcnt16 (x.setWidth 16)) else (x, ret, i)) with
        | (x, ret, i) => (match (if popcnt8 (x.setWidth 8) < i then (x >>> 8, ret + 8, i - popcnt8 (x.setWidth 8)) else (x, ret, i)) with
          | (x, ret, i) => (do
            let row ← kLtSel[i]?
            let v ← row[(x &&& 0xFF#64).toNat]?
            pure (ret + v)))) = some (ret + (p + 1)) := by
    intro x i p ret hp hx ho
    have st := sel_step x 16 i p _ (h16 x) hx ho
    split at st
    · next hc =>
      rw [if_pos hc]
      refine (fin8 (x >>> 16) _ (p - 16) (ret + 16) (by omega) st.2.1 st.2.2).trans ?_
      congr 1; omega
    · next hc =>
      rw [if_neg hc]
      exact fin8 x i p ret st hx ho
  have st := sel_step x 32 i p _ h32 hx ho
  unfold sel
  split at st
  · next hc =>
    simp only [if_pos hc]
    have := fin16 (x >>> 32) _ (p - 32) (0 + 32) (by omega) st.2.1 st.2.2
    rw [show p + 1 = 0 + 32 + (p - 32 + 1) by omega]
    exact this
  · next hc =>
    simp only [if_neg hc]
    have := fin16 x i p 0 st hx ho
    rw [show p + 1 = 0 + (p + 1) by omega]
    exact this

theorem foldl_or_bits (f : Nat → Bool) (n : Nat) (i : Nat) :
    ((List.range n).foldl (fun (acc : W64) p => if f p then acc ||| (1#64 <<< p) else acc) 0#64).getLsbD i
      = (decide (i < n) && decide (i < 64) && f i) := by
  induction n with
  | zero => simp
  | succ n ih =>
    rw [List.range_succ, List.foldl_append]
    simp only [List.foldl_cons, List.foldl_nil]
    have hone : (1#64 <<< n).getLsbD i = (decide (i < 64) && decide (i = n)) := by
      rw [BitVec.getLsbD_shiftLeft]
      by_cases h : i = n
      · subst h; simp
      · by_cases h2 : i < n
        · simp [h2, h]
        · have : i - n ≠ 0 := by omega
          simp [h, h2, this]
    split
    · next hf =>
      rw [BitVec.getLsbD_or, ih, hone]
      by_cases h : i = n
      · subst h; simp [hf]
      · by_cases h2 : i < n
        · simp [h2, h, show i < n + 1 by omega]
        · simp [h2, h, show ¬ i < n + 1 by omega]
    · next hf =>
      rw [ih]
      by_cases h : i = n
      · subst h; simp [hf]
      · by_cases h2 : i < n
        · simp [h2, show i < n + 1 by omega]
        · simp [h2, show ¬ i < n + 1 by omega]

theorem hw_sel_correct (x : W64) (i p : Nat) (h : IsSelect x i p) : Hw.sel x i = some (p + 1) := by
  obtain ⟨hp, hx, ho⟩ := h
  have hle : onesBelow x p ≤ p := by
    unfold onesBelow
    exact Nat.le_trans List.countP_le_length (by simp)
  unfold Hw.sel
  rw [if_pos (by omega)]
  congr 2
  have hbit : ∀ q, (Hw.pdep (1#64 <<< (i - 1)) x).getLsbD q = true ↔ q = p := by
    intro q
    unfold Hw.pdep
    rw [foldl_or_bits]
    unfold Hw.pdepBit
    simp only [Bool.and_eq_true, decide_eq_true_eq]
    have hone : ∀ k, (1#64 <<< (i - 1)).getLsbD k = true ↔ k < 64 ∧ k = i - 1 := by
      intro k
      rw [BitVec.getLsbD_shiftLeft]
      by_cases h : k = i - 1
      · subst h; simp
      · by_cases h2 : k < i - 1
        · simp [h2, h]
        · have : k - (i - 1) ≠ 0 := by omega
          simp [h, h2, this]
    rw [hone]
    constructor
    · rintro ⟨⟨hq1, _⟩, hxq, hq2, hq3⟩
      change onesBelow x q = i - 1 at hq3
      rcases Nat.lt_trichotomy q p with hlt | heq | hlt
      · have := onesBelow_mono x (show q + 1 ≤ p from hlt)
        rw [onesBelow_succ, hxq] at this
        simp at this; omega
      · exact heq
      · have := onesBelow_mono x (show p + 1 ≤ q from hlt)
        rw [onesBelow_succ, hx] at this
        simp at this; omega
    · rintro rfl
      refine ⟨⟨hp, hp⟩, hx, ?_, ?_⟩
      · change onesBelow x q < 64; omega
      · change onesBelow x q = i - 1; omega
  have hctz := ctz64_isCtz (Hw.pdep (1#64 <<< (i - 1)) x)
  apply isCtz_unique _ _ _ hctz
  exact isCtz_of _ p hp ((hbit p).2 rfl) (fun u hu => by have := (hbit u).1 hu; omega)

end Verif.Bits
