/-
Helper facts for SuccinctBitVector: select.
-/
import Verif.Succ.Lemmas

namespace Verif.Succ
open Verif.Bits Verif.Serial Verif.BV

theorem bsearch_spec (blk : List Nat) (B : Nat → Nat) (nb i : Nat) (hb : ∀ q, q < nb → blk[q * 2]? = some (B q)) :
    ∀ (d left right : Nat), right - left = d → left < right → right ≤ nb → B left ≤ i → (right < nb → i < B right) →
      ∃ q, bsearch blk i left right = some q ∧ q < nb ∧ B q ≤ i ∧ (q + 1 < nb → i < B (q + 1)) := by
  intro d
  induction d using Nat.strong_induction_on with
  | _ d ih =>
    intro left right hd hlt hr hL hR
    rw [bsearch]
    by_cases hc : left + 1 < right
    · rw [dif_pos hc, hb _ (by omega)]
      simp only
      by_cases hi : i < B ((left + right) / 2)
      · rw [if_pos hi]
        exact ih _ (by omega) left _ rfl (by omega) (by omega) hL (fun _ => hi)
      · rw [if_neg hi]
        exact ih _ (by omega) _ right rfl (by omega) hr (by omega) hR
    · rw [dif_neg hc]
      have : right = left + 1 := by omega
      subst this
      exact ⟨left, rfl, by omega, hL, hR⟩

theorem secondTip_spec (us : Bool) (v : BVec) (s : SBV) (h : OK us v s) (idx : Nat) (hi : idx ≤ v.size / 64) :
    secondTip s idx = some (S v.words idx - S v.words (8 * (idx / 8))) := by
  obtain ⟨y, h1, h2⟩ := field_spec us v s h idx hi
  simp [secondTip, h1, h2]

theorem scan_spec (us : Bool) (v : BVec) (s : SBV) (h : OK us v s) (q i1 : Nat) :
    ∀ (d o : Nat), 8 - o = d → 1 ≤ o → o ≤ 8 → 8 * q + (o - 1) ≤ v.size / 64 →
      S v.words (8 * q + (o - 1)) - S v.words (8 * q) < i1 →
      ∃ o', scan s q i1 o = some o' ∧ 1 ≤ o' ∧ o' ≤ 8 ∧ 8 * q + (o' - 1) ≤ v.size / 64 ∧
        S v.words (8 * q + (o' - 1)) - S v.words (8 * q) < i1 ∧
        (o' = 8 ∨ v.size / 64 < 8 * q + o' ∨ i1 ≤ S v.words (8 * q + o') - S v.words (8 * q)) := by
  intro d
  induction d with
  | zero =>
    intro o hd h1 h8 hF hS
    rw [scan, dif_neg (by omega)]
    exact ⟨o, rfl, h1, h8, hF, hS, Or.inl (by omega)⟩
  | succ d ih =>
    intro o hd h1 h8 hF hS
    rw [scan, h.bits]
    by_cases hc : o < 8 ∧ q * 8 + o < v.size / 64 + 1
    · rw [dif_pos hc, secondTip_spec us v s h _ (by omega)]
      simp only
      have e1 : (q * 8 + o) / 8 = q := by omega
      rw [e1, Nat.mul_comm q 8]
      by_cases hgt : i1 > S v.words (8 * q + o) - S v.words (8 * q)
      · rw [if_pos hgt]
        exact ih (o + 1) (by omega) (by omega) (by omega) (by simp; omega) (by simpa using hgt)
      · rw [if_neg hgt]
        exact ⟨o, rfl, h1, h8, hF, hS, Or.inr (Or.inr (by omega))⟩
    · rw [dif_neg hc]
      exact ⟨o, rfl, h1, h8, hF, hS, by omega⟩

theorem ones_zero : ones (0#64) = 0 := by decide

/-- `select` after the block search started with proper bounds. -/
theorem select_core (us : Bool) (v : BVec) (s : SBV) (h : OK us v s)
    (selF : W64 → Nat → Option Nat) (hsel : ∀ w ∈ v.words, ∀ i p, IsSelect w i p → selF w i = some (p + 1))
    (i : Nat) (hi : i < cntB v.words v.size) (left right : Nat) (hlr : left < right) (hr : right ≤ v.size / 512 + 1)
    (hL : S v.words (8 * left) ≤ i) (hR : right < v.size / 512 + 1 → i < S v.words (8 * right)) :
    ∃ p, (do
      let left ← bsearch s.blk i left right
      let b ← s.blk[left * 2]?
      if i + 1 < b then none
      else do
        let i1 := i + 1 - b
        let offset ← scan s left i1 1
        let t ← secondTip s (left * 8 + (offset - 1))
        if i1 < t then none
        else do
          let ret := left * 512 + (offset - 1) * 64
          let w ← s.bits.words[ret / 64]?
          let r ← selF w (i1 - t)
          pure (ret + r - 1)) = some p ∧ p < v.size ∧ bitAt v.words p = true ∧ cntB v.words p = i := by
  obtain ⟨q, e1, hq, hBq, hBq1⟩ := bsearch_spec s.blk (fun q => S v.words (8 * q)) (v.size / 512 + 1) i
    (fun q hq => blk_spec us v s h q (by omega)) _ left right rfl hlr hr hL hR
  rw [e1]
  simp only [Option.bind_eq_bind, Option.bind_some]
  rw [blk_spec us v s h q (by omega)]
  simp only [Option.bind_some]
  rw [if_neg (by omega)]
  obtain ⟨o, e2, ho1, ho8, hoF, hoS, hoE⟩ := scan_spec us v s h q (i + 1 - S v.words (8 * q)) 7 1 rfl (by omega) (by omega)
    (by simp; omega) (by simp; omega)
  rw [e2]
  simp only [Option.bind_some]
  rw [Nat.mul_comm q 8, secondTip_spec us v s h _ hoF]
  simp only [Option.bind_some]
  have eq : (8 * q + (o - 1)) / 8 = q := by omega
  rw [eq]
  generalize hwdef : 8 * q + (o - 1) = w at *
  have hSm := S_mono v.words (show 8 * q ≤ w by omega)
  rw [if_neg (by omega)]
  have hret : (q * 512 + (o - 1) * 64) = 64 * w := by omega
  rw [hret, h.bits, Nat.mul_div_cancel_left _ (by decide : 0 < 64)]
  -- the word holds the wanted one
  have hnext : i < S v.words (w + 1) := by
    have hlast : v.size / 64 ≤ w → i < S v.words (w + 1) := by
      intro hF
      apply Nat.lt_of_lt_of_le hi
      exact cntB_mono _ (by omega)
    rcases hoE with hE | hE | hE
    · by_cases hn : q + 1 < v.size / 512 + 1
      · have := hBq1 hn
        rwa [show 8 * (q + 1) = w + 1 by omega] at this
      · exact hlast (by omega)
    · exact hlast (by omega)
    · rw [show 8 * q + o = w + 1 by omega] at hE
      omega
  have hone := S_succ v.words w
  have hwl : w < v.words.length := by
    by_contra hcon
    have : v.words.getD w 0#64 = 0#64 := by
      rw [List.getD_eq_getElem?_getD, List.getElem?_eq_none (by omega)]; rfl
    rw [this, ones_zero] at hone
    omega
  have hgd : v.words.getD w 0#64 = v.words[w] := by simp [List.getD_eq_getElem?_getD, hwl]
  rw [List.getElem?_eq_getElem hwl]
  simp only [Option.bind_some]
  have hidx : i + 1 - S v.words (8 * q) - (S v.words w - S v.words (8 * q)) = i + 1 - S v.words w := by omega
  rw [hidx]
  rw [hgd] at hone
  obtain ⟨p, hp⟩ := C07_select_exists v.words[w] (i + 1 - S v.words w) (by omega) (by omega)
  rw [hsel _ (List.getElem_mem hwl) _ _ hp]
  obtain ⟨hp1, hp2, hp3⟩ := hp
  have hcnt : cntB v.words (64 * w + p) = i := by
    rw [cntB_word _ _ _ (by omega), hgd]
    have : cntB v.words (64 * w) = S v.words w := rfl
    omega
  refine ⟨64 * w + p, rfl, ?_, ?_, hcnt⟩
  · by_contra hcon
    have := cntB_mono v.words (show v.size ≤ 64 * w + p by omega)
    omega
  · unfold bitAt
    rw [show (64 * w + p) / 64 = w by omega, show (64 * w + p) % 64 = p by omega, hgd]
    exact hp2

theorem select_spec (v : BVec) (s : SBV) (h : OK true v s) (hpos : 0 < v.size)
    (hnb : v.size / 512 + 1 ≤ 2 ^ 32) (selF : W64 → Nat → Option Nat)
    (hsel : ∀ w ∈ v.words, ∀ i p, IsSelect w i p → selF w i = some (p + 1))
    (i : Nat) (hi : i < cntB v.words v.size) (hdom : i / 512 ≤ S v.words (8 * (v.size / 512)) / 512) :
    ∃ p, s.select selF i = some p ∧ p < v.size ∧ bitAt v.words p = true ∧ cntB v.words p = i := by
  obtain ⟨R, ht, hRl, hRx, hR⟩ := h.tips rfl hpos hnb
  have hlen : s.tips.length = R.length + 2 := by rw [ht]; simp
  -- bounds from the tips
  have hleft : ∃ a, s.tips[i / 512]? = some a ∧ S v.words (8 * a) ≤ i ∧ a ≤ v.size / 512 ∧
      (i / 512 ≠ 0 → S v.words (8 * a) < 512 * (i / 512)) := by
    by_cases h0 : i / 512 = 0
    · refine ⟨0, by rw [h0, ht]; rfl, by simp [S_zero], by omega, fun h => absurd h0 h⟩
    · have htl : i / 512 - 1 < R.length := by omega
      obtain ⟨j, e, h1, h2, h3, h4⟩ := hR (i / 512 - 1) htl
      refine ⟨j - 1, ?_, by omega, by omega, by intro _; omega⟩
      rw [ht, ← e, List.cons_append, List.getElem?_cons, if_neg h0, List.getElem?_append_left htl,
        List.getElem?_eq_getElem htl]
  have hright : ∃ b, s.tips[i / 512 + 1]? = some b ∧ b + 1 ≤ v.size / 512 + 1 ∧
      (b + 1 < v.size / 512 + 1 → i < S v.words (8 * (b + 1))) ∧ (b = v.size / 512 ∨ 512 * (i / 512 + 1) ≤ S v.words (8 * (b + 1))) := by
    rw [ht, List.cons_append, List.getElem?_cons_succ]
    by_cases h0 : i / 512 < R.length
    · obtain ⟨j, e, h1, h2, h3, h4⟩ := hR (i / 512) h0
      have hj : j - 1 + 1 = j := by omega
      refine ⟨j - 1, ?_, by omega, ?_, ?_⟩
      · rw [List.getElem?_append_left h0, List.getElem?_eq_getElem h0, e]
      · intro _; rw [hj]; omega
      · right; rw [hj]; omega
    · refine ⟨v.size / 512, ?_, by omega, by intro h; omega, Or.inl rfl⟩
      rw [List.getElem?_append_right (by omega), show i / 512 - R.length = 0 by omega]; rfl
  obtain ⟨a, ha, ha1, ha2, ha3⟩ := hleft
  obtain ⟨b, hb, hb1, hb2, hb3⟩ := hright
  have hab : a < b + 1 := by
    rcases hb3 with e | e
    · omega
    · by_contra hcon
      have := S_mono v.words (show 8 * (b + 1) ≤ 8 * a by omega)
      omega
  obtain ⟨p, hp⟩ := select_core true v s h selF hsel i hi a (b + 1) hab hb1 ha1 hb2
  refine ⟨p, ?_, hp.2⟩
  rw [← hp.1]
  unfold SBV.select
  rw [if_pos (by omega), ha, hb]
  rfl

theorem select_none (v : BVec) (s : SBV) (h : OK true v s) (hpos : 0 < v.size)
    (hnb : v.size / 512 + 1 ≤ 2 ^ 32) (selF : W64 → Nat → Option Nat)
    (i : Nat) (hdom : ¬ i / 512 ≤ S v.words (8 * (v.size / 512)) / 512) : s.select selF i = none := by
  obtain ⟨R, ht, hRl, hRx, hR⟩ := h.tips rfl hpos hnb
  have hlen : s.tips.length = R.length + 2 := by rw [ht]; simp
  have hn : s.tips[i / 512 + 1]? = none := List.getElem?_eq_none (by omega)
  unfold SBV.select
  rw [if_pos (by omega), hn]
  cases s.tips[i / 512]? <;> rfl

/-- Counting on words and on the list. -/
theorem cntB_list (v : BVec) (l : List Bool) (h : Rep v l) : ∀ i, i ≤ l.length → cntB v.words i = (l.take i).count true := by
  intro i
  induction i with
  | zero => intro _; simp [cntB_zero]
  | succ i ih =>
    intro hi
    rw [cntB_succ, ih (by omega), List.take_add_one, List.count_append, List.getElem?_eq_getElem (by omega), h.bits i (by omega)]
    cases l[i] <;> simp

end Verif.Succ
