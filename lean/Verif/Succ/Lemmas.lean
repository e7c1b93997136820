/-
Helper facts for SuccinctBitVector: the rank directory.
-/
import Verif.Succ.Model
import Verif.BV.Props
import Mathlib.Tactic.Ring
import Mathlib.Tactic.IntervalCases

namespace Verif.Succ
open Verif.Bits Verif.Serial Verif.BV

/-- Number of ones among the first `p` bits of a word array. -/
def cntB (ws : List W64) (p : Nat) : Nat := (List.range p).countP (bitAt ws)

theorem cntB_zero (ws : List W64) : cntB ws 0 = 0 := rfl

theorem cntB_succ (ws : List W64) (p : Nat) : cntB ws (p + 1) = cntB ws p + (if bitAt ws p then 1 else 0) := by
  unfold cntB
  rw [List.range_succ, List.countP_append, List.countP_singleton]

theorem cntB_mono (ws : List W64) {a b : Nat} (h : a ≤ b) : cntB ws a ≤ cntB ws b := by
  induction h with
  | refl => exact Nat.le_refl _
  | step _ ih => rw [cntB_succ]; omega

theorem cntB_add_le (ws : List W64) (a d : Nat) : cntB ws (a + d) ≤ cntB ws a + d := by
  induction d with
  | zero => exact Nat.le_refl _
  | succ d ih =>
    rw [← Nat.add_assoc, cntB_succ]
    split <;> omega

theorem cntB_word (ws : List W64) (k j : Nat) (hj : j ≤ 64) :
    cntB ws (64 * k + j) = cntB ws (64 * k) + onesBelow (ws.getD k 0#64) j := by
  induction j with
  | zero => simp [onesBelow]
  | succ j ih =>
    rw [← Nat.add_assoc, cntB_succ, ih (by omega), onesBelow_succ, bitAt]
    have e1 : (64 * k + j) / 64 = k := by omega
    have e2 : (64 * k + j) % 64 = j := by omega
    rw [e1, e2]
    cases BitVec.getLsbD (ws.getD k 0#64) j <;> (simp; try omega)

/-- Ones in the first `k` words. -/
def S (ws : List W64) (k : Nat) : Nat := cntB ws (64 * k)

theorem S_zero (ws : List W64) : S ws 0 = 0 := rfl

theorem S_succ (ws : List W64) (k : Nat) : S ws (k + 1) = S ws k + ones (ws.getD k 0#64) := by
  unfold S
  rw [show 64 * (k + 1) = 64 * k + 64 by ring, cntB_word _ _ _ (Nat.le_refl _)]; rfl

theorem S_mono (ws : List W64) {a b : Nat} (h : a ≤ b) : S ws a ≤ S ws b :=
  cntB_mono ws (Nat.mul_le_mul_left _ h)

theorem S_add_le (ws : List W64) (a d : Nat) : S ws (a + d) ≤ S ws a + 64 * d := by
  unfold S
  rw [Nat.mul_add]
  exact cntB_add_le _ _ _

theorem pop_word (ws : List W64) (k : Nat) (hk : k < ws.length) :
    (popcnt64 ws[k]).toNat + S ws k = S ws (k + 1) := by
  rw [S_succ, popcnt64_toNat, List.getD_eq_getElem?_getD, List.getElem?_eq_getElem hk]
  simp; omega

theorem field_eq (x k : Nat) : field x k = x / 2 ^ (63 - 9 * k) % 512 := by
  have h : (widthMaskT 9).toNat = 2 ^ 9 - 1 := by decide
  unfold field
  rw [h, Nat.and_two_pow_sub_one_eq_mod, Nat.shiftRight_eq_div_pow]

/-- `sw` holds the fields `1..m` with values `g`. -/
def Fields (sw m : Nat) (g : Nat → Nat) : Prop :=
  sw < 2 ^ 63 ∧ sw % 2 ^ (63 - 9 * m) = 0 ∧ ∀ c, 1 ≤ c → c ≤ m → sw / 2 ^ (63 - 9 * c) % 512 = g c

theorem fields_zero (g : Nat → Nat) : Fields 0 0 g := ⟨by decide, by decide, fun c h1 h2 => by omega⟩

theorem fields_add (sw m x : Nat) (g : Nat → Nat) (h : Fields sw m g) (hm : m < 7) (hx : x < 512) (hg : g (m + 1) = x) :
    Fields (sw ||| (x <<< (63 - 9 * (m + 1)))) (m + 1) g := by
  obtain ⟨h1, h2, h3⟩ := h
  have hP : 2 ^ (63 - 9 * m) = 512 * 2 ^ (63 - 9 * (m + 1)) := by
    rw [show 63 - 9 * m = 9 + (63 - 9 * (m + 1)) by omega, Nat.pow_add]
  have hor : sw ||| (x <<< (63 - 9 * (m + 1))) = sw + x * 2 ^ (63 - 9 * (m + 1)) := by
    rw [Nat.shiftLeft_eq]
    have hd : sw = 2 ^ (63 - 9 * m) * (sw / 2 ^ (63 - 9 * m)) := by
      have := Nat.div_add_mod sw (2 ^ (63 - 9 * m)); omega
    have hlt : x * 2 ^ (63 - 9 * (m + 1)) < 2 ^ (63 - 9 * m) := by
      rw [hP]; exact Nat.mul_lt_mul_of_pos_right hx (Nat.two_pow_pos _)
    rw [hd]
    exact (Nat.two_pow_add_eq_or_of_lt hlt _).symm
  rw [hor]
  generalize hP' : 2 ^ (63 - 9 * (m + 1)) = P' at *
  have hPpos : 0 < P' := by rw [← hP']; exact Nat.two_pow_pos _
  obtain ⟨a, ha⟩ : ∃ a, sw = 512 * P' * a := by
    rw [hP] at h2
    exact ⟨sw / (512 * P'), by have := Nat.div_add_mod sw (512 * P'); omega⟩
  have hxP : x * P' < 512 * P' := Nat.mul_lt_mul_of_pos_right hx hPpos
  refine ⟨?_, ?_, ?_⟩
  · -- multiples of 512 P' below 2^63
    obtain ⟨Q, hQ⟩ : ∃ Q, 2 ^ 63 = 512 * P' * Q := by
      refine ⟨2 ^ (9 * m), ?_⟩
      rw [← hP, ← Nat.pow_add]
      congr 1; omega
    rw [hQ, ha] at h1
    have haQ : a < Q := Nat.lt_of_mul_lt_mul_left h1
    rw [hQ, ha]
    calc 512 * P' * a + x * P' < 512 * P' * a + 512 * P' := by omega
      _ = 512 * P' * (a + 1) := by ring
      _ ≤ 512 * P' * Q := Nat.mul_le_mul_left _ haQ
  · rw [ha, show 512 * P' * a + x * P' = P' * (512 * a + x) by ring]
    rw [hP']
    exact Nat.mul_mod_right _ _
  · intro c hc1 hc2
    by_cases hcm : c ≤ m
    · rw [← h3 c hc1 hcm]
      congr 1
      have hQ : 2 ^ (63 - 9 * c) = 512 * P' * 2 ^ (9 * (m - c)) := by
        rw [← hP, ← Nat.pow_add]; congr 1; omega
      have h5 : 0 < 512 * P' := by omega
      rw [hQ, ← Nat.div_div_eq_div_mul _ (512 * P'), ← Nat.div_div_eq_div_mul sw (512 * P'), ha]
      congr 1
      rw [Nat.mul_add_div h5, Nat.mul_div_cancel_left _ h5, Nat.div_eq_of_lt hxP, Nat.add_zero]
    · have : c = m + 1 := by omega
      subst this
      rw [hP', ha, show 512 * P' * a + x * P' = P' * (512 * a + x) by ring, Nat.mul_div_cancel_left _ hPpos, hg]
      omega

/-- A complete directory entry for block `q`. -/
def BlkOK (ws : List W64) (F : Nat) (blk : List Nat) (q : Nat) : Prop :=
  blk[2 * q]? = some (S ws (8 * q)) ∧ ∃ sw, blk[2 * q + 1]? = some sw ∧ sw < 2 ^ 63 ∧
    ∀ c, 1 ≤ c → c ≤ 7 → 8 * q + c ≤ F → sw / 2 ^ (63 - 9 * c) % 512 = S ws (8 * q + c) - S ws (8 * q)

/-- Loop invariant before iteration `i`. -/
structure Inv (ws : List W64) (F : Nat) (i sum sw : Nat) (blk : List Nat) : Prop where
  pos : 1 ≤ i
  hsum : sum = S ws i - S ws (8 * ((i - 1) / 8))
  hsw : Fields sw (i - 1 - 8 * ((i - 1) / 8)) (fun c => S ws (8 * ((i - 1) / 8) + c) - S ws (8 * ((i - 1) / 8)))
  done : ∀ q, q < (i - 1) / 8 → BlkOK ws F blk q
  cur : blk[2 * ((i - 1) / 8)]? = some (S ws (8 * ((i - 1) / 8)))

theorem BlkOK_of_eq (ws : List W64) (F : Nat) (blk blk' : List Nat) (q : Nat) (h : BlkOK ws F blk q)
    (h0 : blk'[2 * q]? = blk[2 * q]?) (h1 : blk'[2 * q + 1]? = blk[2 * q + 1]?) : BlkOK ws F blk' q := by
  unfold BlkOK at *
  rw [h0, h1]; exact h

theorem get_set_ne (l : List Nat) (i j v : Nat) (h : i ≠ j) : (l.set i v)[j]? = l[j]? := by
  simp [h]

theorem get_set_eq (l : List Nat) (i v : Nat) (h : i < l.length) : (l.set i v)[i]? = some v := by
  simp [h]

theorem sum_lt (ws : List W64) (q c : Nat) (hc : c ≤ 7) : S ws (8 * q + c) - S ws (8 * q) < 512 := by
  have := S_add_le ws (8 * q) c; omega

/-- The block change at `i = 8 (q + 1)`. -/
theorem block_change (ws : List W64) (F q sum sw : Nat) (blk : List Nat) (nb : Nat) (hlen : blk.length = nb * 2)
    (hq : q + 1 < nb) (hI : Inv ws F (8 * (q + 1)) sum sw blk) :
    ∃ blk1, wr blk (2 * (q + 1) - 1) sw = some blk1 ∧ blk1[2 * (q + 1) - 2]? = some (S ws (8 * q)) ∧
      S ws (8 * q) + sum = S ws (8 * (q + 1)) ∧
      ∃ blk2, wr blk1 (2 * (q + 1)) (S ws (8 * q) + sum) = some blk2 ∧ blk2.length = nb * 2 ∧
        (∀ q', q' < q + 1 → BlkOK ws F blk2 q') ∧ blk2[2 * (q + 1)]? = some (S ws (8 * (q + 1))) := by
  obtain ⟨h0, hsum, hsw, hdone, hcur⟩ := hI
  have eq1 : (8 * (q + 1) - 1) / 8 = q := by omega
  have eq2 : 8 * (q + 1) - 1 - 8 * q = 7 := by omega
  rw [eq1] at hsum hsw hdone hcur
  rw [eq2] at hsw
  have hmono := S_mono ws (show 8 * q ≤ 8 * (q + 1) by omega)
  have e3 : 2 * (q + 1) - 1 = 2 * q + 1 := by omega
  have e4 : 2 * (q + 1) - 2 = 2 * q := by omega
  rw [e3, e4]
  refine ⟨_, wr_eq _ _ _ (by omega), ?_, by omega, ?_⟩
  · rw [get_set_ne _ _ _ _ (by omega)]; exact hcur
  refine ⟨_, wr_eq _ _ _ (by simp; omega), by simp [hlen], ?_, ?_⟩
  · intro q' hq'
    by_cases e : q' = q
    · subst e
      refine ⟨?_, sw, ?_, hsw.1, fun c a b _ => hsw.2.2 c a b⟩
      · rw [get_set_ne _ _ _ _ (by omega), get_set_ne _ _ _ _ (by omega)]; exact hcur
      · rw [get_set_ne _ _ _ _ (by omega), get_set_eq _ _ _ (by omega)]
    · apply BlkOK_of_eq ws F blk _ _ (hdone q' (by omega))
      · rw [get_set_ne _ _ _ _ (by omega), get_set_ne _ _ _ _ (by omega)]
      · rw [get_set_ne _ _ _ _ (by omega), get_set_ne _ _ _ _ (by omega)]
  · rw [get_set_eq _ _ _ (by simp; omega)]
    have e : S ws (8 * q) + sum = S ws (8 * (q + 1)) := by omega
    rw [e]

theorem buildLoop_spec (ws : List W64) (F nb : Nat) (hnb : F / 8 < nb) (hF : F ≤ ws.length) :
    ∀ (n i sum sw : Nat) (blk : List Nat), (i + n = F ∨ n = 0) → blk.length = nb * 2 → Inv ws F i sum sw blk →
      ∃ sum' sw' blk', buildLoop ws n i sum sw blk = some (i + n, sum', sw', blk') ∧ blk'.length = nb * 2 ∧
        Inv ws F (i + n) sum' sw' blk'
  | 0, i, sum, sw, blk, _, hlen, hI => ⟨sum, sw, blk, rfl, hlen, hI⟩
  | n + 1, i, sum, sw, blk, hn, hlen, hI => by
    have hin : i + (n + 1) = F := by omega
    have hiw : i < ws.length := by omega
    have hpop := pop_word ws i hiw
    rw [buildLoop]
    by_cases h8 : i % 8 = 0
    · obtain ⟨q, hq⟩ : ∃ q, i = 8 * (q + 1) := ⟨i / 8 - 1, by have := hI.pos; omega⟩
      subst hq
      have hq2 : 8 * (q + 1) / 8 * 2 = 2 * (q + 1) := by omega
      obtain ⟨b1, w1, r1, s1, b2, w2, l2, d2, c2⟩ := block_change ws F q sum sw blk nb hlen (by omega) hI
      rw [if_pos h8]
      simp only [hq2, w1, Option.bind_eq_bind, Option.bind_some, r1, w2, List.getElem?_eq_getElem hiw, Option.pure_def]
      have hI' : Inv ws F (8 * (q + 1) + 1) (0 + (popcnt64 ws[8 * (q + 1)]).toNat) 0 b2 := by
        have e1 : (8 * (q + 1) + 1 - 1) / 8 = q + 1 := by omega
        refine ⟨by omega, ?_, ?_, ?_, ?_⟩
        · rw [e1]; omega
        · rw [e1, show 8 * (q + 1) + 1 - 1 - 8 * (q + 1) = 0 by omega]; exact fields_zero _
        · rw [e1]; exact d2
        · rw [e1]; exact c2
      obtain ⟨s', w', b', e, l', i'⟩ := buildLoop_spec ws F nb hnb hF n _ _ _ _ (by omega) l2 hI'
      refine ⟨s', w', b', ?_, l', ?_⟩
      · rw [e, show 8 * (q + 1) + (n + 1) = 8 * (q + 1) + 1 + n by omega]
      · rw [show 8 * (q + 1) + (n + 1) = 8 * (q + 1) + 1 + n by omega]; exact i'
    · rw [if_neg h8]
      simp only [Option.bind_eq_bind, Option.bind_some, List.getElem?_eq_getElem hiw, Option.pure_def]
      obtain ⟨h0, hsum, hsw, hdone, hcur⟩ := hI
      have e1 : (i + 1 - 1) / 8 = (i - 1) / 8 := by omega
      have e2 : i + 1 - 1 - 8 * ((i - 1) / 8) = (i - 1 - 8 * ((i - 1) / 8)) + 1 := by omega
      have e3 : i % 8 = (i - 1 - 8 * ((i - 1) / 8)) + 1 := by omega
      have hm := S_mono ws (show 8 * ((i - 1) / 8) ≤ i by omega)
      have e5 : 8 * ((i - 1) / 8) + (i - 1 - 8 * ((i - 1) / 8) + 1) = i := by omega
      have hlt : sum < 512 := by
        have := sum_lt ws ((i - 1) / 8) (i - 1 - 8 * ((i - 1) / 8) + 1) (by omega)
        rw [e5] at this; omega
      have hI' : Inv ws F (i + 1) (sum + (popcnt64 ws[i]).toNat) (sw ||| (sum <<< (63 - 9 * (i % 8)))) blk := by
        refine ⟨by omega, ?_, ?_, ?_, ?_⟩
        · rw [e1]; omega
        · rw [e1, e2, e3]
          apply fields_add _ _ _ _ hsw (by omega) hlt
          rw [e5]; exact hsum.symm
        · rw [e1]; exact hdone
        · rw [e1]; exact hcur
      obtain ⟨s', w', b', e, l', i'⟩ := buildLoop_spec ws F nb hnb hF n _ _ _ _ (by omega) hlen hI'
      refine ⟨s', w', b', ?_, l', ?_⟩
      · rw [e, show i + (n + 1) = i + 1 + n by omega]
      · rw [show i + (n + 1) = i + 1 + n by omega]; exact i'

theorem buildEnd_spec (ws : List W64) (F nb i sum sw : Nat) (blk : List Nat) (hnb : nb = F / 8 + 1) (hi : i = F ∨ (F = 0 ∧ i = 1))
    (hlen : blk.length = nb * 2) (hI : Inv ws F i sum sw blk) :
    ∃ blk', buildEnd i sum sw blk = some blk' ∧ blk'.length = nb * 2 ∧ ∀ q, q < nb → BlkOK ws F blk' q := by
  unfold buildEnd
  by_cases h8 : i % 8 = 0
  · obtain ⟨q, hq⟩ : ∃ q, i = 8 * (q + 1) := ⟨i / 8 - 1, by have := hI.pos; omega⟩
    subst hq
    have hF : F = 8 * (q + 1) := by omega
    subst hF
    have hq2 : 8 * (q + 1) / 8 * 2 = 2 * (q + 1) := by omega
    obtain ⟨b1, w1, r1, s1, b2, w2, l2, d2, c2⟩ := block_change ws _ q sum sw blk nb hlen (by omega) hI
    simp only [h8, ne_eq, not_true_eq_false, if_false]
    simp only [hq2, w1, Option.bind_eq_bind, Option.bind_some, r1, w2]
    rw [wr_eq _ _ _ (by omega)]
    refine ⟨_, rfl, by simp [l2], ?_⟩
    intro q' hq'
    by_cases e : q' = q + 1
    · subst e
      refine ⟨?_, 0, ?_, by decide, ?_⟩
      · rw [get_set_ne _ _ _ _ (by omega)]; exact c2
      · rw [get_set_eq _ _ _ (by omega)]
      · intro c a b h; omega
    · apply BlkOK_of_eq ws _ b2 _ _ (d2 q' (by omega))
      · rw [get_set_ne _ _ _ _ (by omega)]
      · rw [get_set_ne _ _ _ _ (by omega)]
  · simp only [ne_eq, h8, not_false_eq_true, if_true]
    obtain ⟨h0, hsum, hsw, hdone, hcur⟩ := hI
    have e0 : i / 8 = (i - 1) / 8 := by omega
    have e3 : i % 8 = (i - 1 - 8 * ((i - 1) / 8)) + 1 := by omega
    have e5 : 8 * ((i - 1) / 8) + (i - 1 - 8 * ((i - 1) / 8) + 1) = i := by omega
    have hlt : sum < 512 := by
      have := sum_lt ws ((i - 1) / 8) (i - 1 - 8 * ((i - 1) / 8) + 1) (by omega)
      rw [e5] at this; omega
    have hf := fields_add _ _ sum _ hsw (by omega) hlt (by rw [e5]; exact hsum.symm)
    rw [← e3] at hf
    have hnbq : (i - 1) / 8 + 1 = nb := by omega
    rw [e0, wr_eq _ _ _ (by omega)]
    refine ⟨_, rfl, by simp [hlen], ?_⟩
    intro q' hq'
    by_cases e : q' = (i - 1) / 8
    · subst e
      refine ⟨?_, _, ?_, hf.1, ?_⟩
      · rw [get_set_ne _ _ _ _ (by omega)]; exact hcur
      · rw [Nat.mul_comm 2, get_set_eq _ _ _ (by omega)]
      · intro c a b h
        exact hf.2.2 c a (by omega)
    · apply BlkOK_of_eq ws F blk _ _ (hdone q' (by omega))
      · rw [get_set_ne _ _ _ _ (by omega)]
      · rw [get_set_ne _ _ _ _ (by omega)]

/-- Select tips: for each multiple of 512 the block before the one reaching it. -/
theorem tipsLoop_spec (ws : List W64) (blk : List Nat) (nb : Nat) (hb : ∀ q, q < nb → blk[2 * q]? = some (S ws (8 * q)))
    (hnb : nb ≤ 2 ^ 32) :
    ∀ (n j k : Nat), 1 ≤ j → j + n = nb → 512 * k ≤ S ws (8 * (j - 1)) → S ws (8 * (j - 1)) < 512 * (k + 1) →
      ∃ R, tipsLoop blk n j (512 * (k + 1)) = some R ∧ k + R.length = S ws (8 * (nb - 1)) / 512 ∧
        (∀ x ∈ R, x < 2 ^ 32) ∧
        ∀ t (h : t < R.length), ∃ j', R[t] = j' - 1 ∧ 1 ≤ j' ∧ j' < nb ∧ S ws (8 * (j' - 1)) < 512 * (k + 1 + t) ∧
          512 * (k + 1 + t) ≤ S ws (8 * j')
  | 0, j, k, hj, hn, h1, h2 => by
    refine ⟨[], rfl, ?_, by simp, by simp⟩
    have : nb = j := by omega
    subst this
    simp; omega
  | n + 1, j, k, hj, hn, h1, h2 => by
    rw [tipsLoop, Nat.mul_comm j 2, hb j (by omega)]
    simp only [Option.bind_eq_bind, Option.bind_some]
    have hstep : S ws (8 * j) ≤ S ws (8 * (j - 1)) + 512 := by
      have := S_add_le ws (8 * (j - 1)) 8
      rw [show 8 * (j - 1) + 8 = 8 * j by omega] at this; omega
    have hmono := S_mono ws (show 8 * (j - 1) ≤ 8 * j by omega)
    by_cases hc : 512 * (k + 1) ≤ S ws (8 * j)
    · rw [if_pos hc]
      obtain ⟨R, e, hl, hx, ht⟩ := tipsLoop_spec ws blk nb hb hnb n (j + 1) (k + 1) (by omega) (by omega)
        (by simpa using hc) (by rw [Nat.add_sub_cancel]; omega)
      have e' : tipsLoop blk n (j + 1) (512 * (k + 1) + 512) = some R := e
      have hm : (j - 1) % 2 ^ 32 = j - 1 := Nat.mod_eq_of_lt (by omega)
      refine ⟨(j - 1) :: R, by rw [e', hm]; rfl, by simp; omega, ?_, ?_⟩
      · intro x hx'
        rcases List.mem_cons.1 hx' with rfl | h
        · omega
        · exact hx x h
      · intro t h
        cases t with
        | zero => exact ⟨j, rfl, hj, by omega, h2, hc⟩
        | succ t =>
          obtain ⟨j', a, b, c, d, f⟩ := ht t (by simpa using h)
          refine ⟨j', by simpa using a, b, c, ?_, ?_⟩
          · rw [show k + 1 + (t + 1) = k + 1 + 1 + t by omega]; exact d
          · rw [show k + 1 + (t + 1) = k + 1 + 1 + t by omega]; exact f
    · rw [if_neg hc]
      exact tipsLoop_spec ws blk nb hb hnb n (j + 1) k (by omega) (by omega) (by rw [Nat.add_sub_cancel]; omega)
        (by rw [Nat.add_sub_cancel]; omega)

/-- What `build` produces. -/
structure OK (us : Bool) (v : BVec) (s : SBV) : Prop where
  bits : s.bits = v
  len : s.blk.length = (v.size / 512 + 1) * 2
  blk : ∀ q, q < v.size / 512 + 1 → BlkOK v.words (v.size / 64) s.blk q
  tips0 : us = false ∨ v.size = 0 → s.tips = []
  tips : us = true → 0 < v.size → v.size / 512 + 1 ≤ 2 ^ 32 →
    ∃ R, s.tips = 0 :: R ++ [v.size / 512] ∧ R.length = S v.words (8 * (v.size / 512)) / 512 ∧ (∀ x ∈ R, x < 2 ^ 32) ∧
      ∀ t (h : t < R.length), ∃ j', R[t] = j' - 1 ∧ 1 ≤ j' ∧ j' < v.size / 512 + 1 ∧
        S v.words (8 * (j' - 1)) < 512 * (1 + t) ∧ 512 * (1 + t) ≤ S v.words (8 * j')

theorem tipsLoop_total (blk : List Nat) (nb : Nat) (hb : nb * 2 = blk.length) :
    ∀ n j thr, j + n = nb → ∃ R, tipsLoop blk n j thr = some R
  | 0, _, _, _ => ⟨[], rfl⟩
  | n + 1, j, thr, h => by
    rw [tipsLoop, List.getElem?_eq_getElem (by omega)]
    simp only [Option.bind_eq_bind, Option.bind_some]
    split
    · obtain ⟨R, e⟩ := tipsLoop_total blk nb hb n (j + 1) (thr + 512) (by omega)
      rw [e]; exact ⟨_, rfl⟩
    · exact tipsLoop_total blk nb hb n (j + 1) thr (by omega)

theorem build_spec (us : Bool) (v : BVec) (hw : v.words.length = wordSize v.size) :
    ∃ s, build us v = some s ∧ OK us v s := by
  unfold build
  by_cases h0 : v.size = 0
  · rw [if_pos h0]
    refine ⟨_, rfl, rfl, by simp [h0], ?_, fun _ => rfl, fun _ h => by omega⟩
    intro q hq
    rw [h0] at hq
    have : q = 0 := by omega
    subst this
    exact ⟨rfl, 0, rfl, by decide, fun c a b h => by rw [h0] at h; omega⟩
  · rw [if_neg h0]
    have hws : v.words.length = (v.size - 1) / 64 + 1 := by rw [hw, wordSize, if_neg h0]
    have h0w : 0 < v.words.length := by omega
    simp only [List.getElem?_eq_getElem h0w, Option.bind_eq_bind, Option.bind_some]
    have hpop := pop_word v.words 0 h0w
    rw [S_zero] at hpop
    have hI : Inv v.words (v.size / 64) 1 (popcnt64 v.words[0]).toNat 0 (List.replicate ((v.size / 512 + 1) * 2) 0) := by
      refine ⟨Nat.le_refl _, ?_, ?_, ?_, ?_⟩
      · simp only [Nat.sub_self, Nat.zero_div, Nat.mul_zero, S_zero]; omega
      · simpa using fields_zero _
      · intro q hq; simp at hq
      · simp [S_zero]
    obtain ⟨s', w', b', e, l', i'⟩ := buildLoop_spec v.words (v.size / 64) (v.size / 512 + 1) (by omega) (by omega)
      (v.size / 64 - 1) 1 _ _ _ (by omega) (by simp) hI
    rw [e]
    simp only [Option.bind_some]
    obtain ⟨b2, e2, l2, ok2⟩ := buildEnd_spec v.words (v.size / 64) (v.size / 512 + 1) _ s' w' b' (by omega) (by omega) l' i'
    rw [e2]
    simp only [Option.bind_some]
    cases us
    · simp only [Bool.false_eq_true, if_false]
      exact ⟨_, rfl, rfl, l2, ok2, fun _ => rfl, fun h => absurd h (by decide)⟩
    · simp only [if_true, Nat.add_sub_cancel]
      obtain ⟨R, hR⟩ := tipsLoop_total b2 (v.size / 512 + 1) l2.symm (v.size / 512) 1 512 (by omega)
      rw [hR]
      refine ⟨_, rfl, rfl, l2, ok2, ?_, ?_⟩
      · rintro (h | h)
        · exact absurd h (by decide)
        · exact absurd h h0
      · intro _ _ hnb
        obtain ⟨R', e3, a, b, c⟩ := tipsLoop_spec v.words b2 (v.size / 512 + 1) (fun q hq => (ok2 q hq).1) hnb
          (v.size / 512) 1 0 (Nat.le_refl _) (by omega) (by simp) (by simp [S_zero])
        have : R = R' := by
          have e4 : tipsLoop b2 (v.size / 512) 1 512 = some R' := e3
          rw [hR] at e4; exact Option.some.inj e4
        subst this
        refine ⟨R, ?_, by simpa using a, b, ?_⟩
        · simp only
          rw [Nat.mod_eq_of_lt (by omega)]
        · simpa using c

/-- The field of word `k` of the directory. -/
theorem field_spec (us : Bool) (v : BVec) (s : SBV) (h : OK us v s) (idx : Nat) (hi : idx ≤ v.size / 64) :
    ∃ y, s.blk[idx / 8 * 2 + 1]? = some y ∧ field y (idx % 8) = S v.words idx - S v.words (8 * (idx / 8)) := by
  obtain ⟨h0, sw, h1, h2, h3⟩ := h.blk (idx / 8) (by omega)
  refine ⟨sw, by rw [Nat.mul_comm]; exact h1, ?_⟩
  rw [field_eq]
  by_cases hc : idx % 8 = 0
  · have : idx = 8 * (idx / 8) := by omega
    rw [← this, hc]
    simp only [Nat.mul_zero, Nat.sub_zero, Nat.sub_self]
    rw [Nat.div_eq_of_lt h2]
  · rw [h3 (idx % 8) (by omega) (by omega) (by omega)]
    rw [show 8 * (idx / 8) + idx % 8 = idx by omega]

theorem blk_spec (us : Bool) (v : BVec) (s : SBV) (h : OK us v s) (q : Nat) (hq : q ≤ v.size / 512) :
    s.blk[q * 2]? = some (S v.words (8 * q)) := by
  rw [Nat.mul_comm]
  exact (h.blk q (by omega)).1

/-- `rank_1` counts, whenever the word it reads exists. -/
theorem rank1_spec (us : Bool) (v : BVec) (s : SBV) (h : OK us v s) (i : Nat) (hi : i ≤ v.size)
    (hw : i / 64 < v.words.length) : s.rank1 i = some (cntB v.words i) := by
  have e512 : i / 512 = i / 64 / 8 := by rw [Nat.div_div_eq_div_mul]
  have h1 := blk_spec us v s h (i / 512) (Nat.div_le_div_right hi)
  obtain ⟨y, h2, h3⟩ := field_spec us v s h (i / 64) (Nat.div_le_div_right hi)
  obtain ⟨c, h4, h5⟩ := C09_cnt v.words[i / 64] (i % 64) (Nat.mod_lt _ (by decide))
  unfold SBV.rank1
  rw [e512] at h1 ⊢
  simp only [h1, h2, Option.bind_eq_bind, Option.bind_some, h.bits, List.getElem?_eq_getElem hw, h4, Option.pure_def]
  congr 1
  rw [h3, h5]
  have hm := S_mono v.words (show 8 * (i / 64 / 8) ≤ i / 64 by omega)
  have hc := cntB_word v.words (i / 64) (i % 64) (by omega)
  rw [Nat.div_add_mod] at hc
  rw [hc]
  have hg : v.words.getD (i / 64) 0#64 = v.words[i / 64] := by
    simp [List.getD_eq_getElem?_getD, hw]
  rw [hg]
  have : cntB v.words (64 * (i / 64)) = S v.words (i / 64) := rfl
  omega

end Verif.Succ
