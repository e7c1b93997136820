/-
Property theorem C21 (SuccinctBitVector), continued: exactly where the portable `select` is right.
-/
import Verif.Succ.Props
import Verif.Bits.PropsSel

namespace Verif.Succ
open Verif.Bits Verif.Serial Verif.BV

/-- `select` from the range of blocks on, up to the last step: the first bit of the word, the word, and the number of the one in it. -/
def locateAt (s : SBV) (i left right : Nat) : Option (Nat × W64 × Nat) :=
  (bsearch s.blk i left right).bind fun left =>
  (s.blk[left * 2]?).bind fun b =>
  if i + 1 < b then none
  else
    (scan s left (i + 1 - b) 1).bind fun offset =>
    (secondTip s (left * 8 + (offset - 1))).bind fun t =>
    if i + 1 - b < t then none
    else
      (s.bits.words[(left * 512 + (offset - 1) * 64) / 64]?).bind fun w =>
      some (left * 512 + (offset - 1) * 64, w, i + 1 - b - t)

/-- `select` up to the last step. -/
def locate (s : SBV) (i : Nat) : Option (Nat × W64 × Nat) :=
  if s.tips.length ≠ 0 then
    (s.tips[i / 512]?).bind fun a => (s.tips[i / 512 + 1]?).bind fun b => locateAt s i a (b + 1)
  else locateAt s i 0 s.numBlocks

theorem select_locate (selF : W64 → Nat → Option Nat) (s : SBV) (i : Nat) :
    s.select selF i = (locate s i).bind (fun x => (selF x.2.1 x.2.2).map (fun r => x.1 + r - 1)) := by
  have h : ∀ left right, ((bsearch s.blk i left right).bind fun left =>
      (s.blk[left * 2]?).bind fun b =>
      if i + 1 < b then none
      else
        (scan s left (i + 1 - b) 1).bind fun offset =>
        (secondTip s (left * 8 + (offset - 1))).bind fun t =>
        if i + 1 - b < t then none
        else
          (s.bits.words[(left * 512 + (offset - 1) * 64) / 64]?).bind fun w =>
          (selF w (i + 1 - b - t)).bind fun r =>
          some (left * 512 + (offset - 1) * 64 + r - 1)) =
      (locateAt s i left right).bind (fun x => (selF x.2.1 x.2.2).map (fun r => x.1 + r - 1)) := by
    intro left right
    unfold locateAt
    cases bsearch s.blk i left right with
    | none => rfl
    | some q =>
      simp only [Option.bind_some]
      cases s.blk[q * 2]? with
      | none => rfl
      | some b =>
        simp only [Option.bind_some]
        split
        · rfl
        · cases scan s q (i + 1 - b) 1 with
          | none => rfl
          | some o =>
            simp only [Option.bind_some]
            cases secondTip s (q * 8 + (o - 1)) with
            | none => rfl
            | some t =>
              simp only [Option.bind_some]
              split
              · rfl
              · cases s.bits.words[(q * 512 + (o - 1) * 64) / 64]? with
                | none => rfl
                | some w =>
                  simp only [Option.bind_some]
                  cases selF w (i + 1 - b - t) <;> rfl
  unfold SBV.select locate
  by_cases ht : s.tips.length ≠ 0
  · simp only [if_pos ht]
    cases s.tips[i / 512]? with
    | none => rfl
    | some a =>
      cases s.tips[i / 512 + 1]? with
      | none => rfl
      | some b => exact h a (b + 1)
  · simp only [if_neg ht]
    exact h 0 s.numBlocks

theorem locateAt_word {s : SBV} {i left right ret k : Nat} {w : W64} (h : locateAt s i left right = some (ret, w, k)) :
    ret % 64 = 0 ∧ s.bits.words[ret / 64]? = some w := by
  unfold locateAt at h
  simp only [Option.bind_eq_some_iff] at h
  obtain ⟨q, _, b, _, h⟩ := h
  split at h
  · simp at h
  · simp only [Option.bind_eq_some_iff] at h
    obtain ⟨o, _, t, _, h⟩ := h
    split at h
    · simp at h
    · simp only [Option.bind_eq_some_iff, Option.some.injEq, Prod.mk.injEq] at h
      obtain ⟨w', hw, h1, h2, _⟩ := h
      subst h1
      subst h2
      exact ⟨by omega, hw⟩

theorem locate_word {s : SBV} {i ret k : Nat} {w : W64} (h : locate s i = some (ret, w, k)) :
    ret % 64 = 0 ∧ s.bits.words[ret / 64]? = some w := by
  unfold locate at h
  split at h
  · simp only [Option.bind_eq_some_iff] at h
    obtain ⟨a, _, b, _, h⟩ := h
    exact locateAt_word h
  · exact locateAt_word h

instance (w : W64) (k q : Nat) : Decidable (IsSelect w k q) := by unfold IsSelect; infer_instance

/-- Portable build, in the domain of the tips: `select(i)` is the position `p` of the `i`-th one if and only if the counting of the low half of the
word with `p` loses nothing, or what is counted of it still includes `p`. Here `k` is the number of ones of the word up to `p`.
Missing: the other `i`, where the result is another one or undefined. -/
theorem C21_select_exact_partial (v : BVec) (l : List Bool) (h : Built v l) (hsz : l.length < 2 ^ 41) :
    ∃ s, build true v = some s ∧ ∀ i, i < l.count true → i / 512 ≤ (l.take (l.length / 512 * 512)).count true / 512 →
      ∃ p w, l[p]? = some true ∧ (l.take p).count true = i ∧ v.words[p / 64]? = some w ∧
        (s.select Bits.sel i = some p ↔
          lost (w.setWidth 32) = 0 ∨ onesBelow w (p % 64) + 1 + lost (w.setWidth 32) ≤ onesBelow w 32) := by
  obtain ⟨s, e, ok⟩ := build_spec true v h.rep.words
  refine ⟨s, e, ?_⟩
  intro i hi hdom
  have hs := h.rep.size
  have hle : l.length ≤ 64 * v.words.length := by rw [h.rep.words, hs]; exact wordSize_le _
  have hne : 0 < l.length := by
    rcases Nat.eq_zero_or_pos l.length with h0 | h0
    · have : l = [] := List.length_eq_zero_iff.1 h0
      subst this; simp at hi
    · exact h0
  have hSd : S v.words (8 * (v.size / 512)) = (l.take (l.length / 512 * 512)).count true := by
    unfold S
    rw [show 64 * (8 * (v.size / 512)) = l.length / 512 * 512 by rw [hs]; omega]
    exact cntB_list v l h.rep _ (by omega)
  have hcount : cntB v.words v.size = l.count true := by
    rw [hs, cntB_list v l h.rep _ (Nat.le_refl _), List.take_length]
  -- a select that fails where there is nothing to find
  obtain ⟨p, h1, h2, h3, h4⟩ := select_spec v s ok (by omega) (by omega)
    (fun w k => ((List.range 64).find? (fun q => decide (IsSelect w k q))).map (· + 1)) (by
      intro w _ k p hp
      have : (List.range 64).find? (fun q => decide (IsSelect w k q)) = some p := by
        rw [List.find?_range_eq_some]
        refine ⟨by simpa using hp, List.mem_range.2 hp.1, ?_⟩
        intro q hq
        simp only [Bool.not_eq_true', decide_eq_false_iff_not]
        rintro ⟨_, hq1, hq2⟩
        obtain ⟨_, hp1, hp2⟩ := hp
        have := onesBelow_mono w (show q + 1 ≤ p from hq)
        rw [onesBelow_succ, hq1] at this
        simp at this
        omega
      simp only [this, Option.map_some]) i (by omega) (by rw [hSd]; exact hdom)
  have hpl : p < l.length := by omega
  rw [select_locate] at h1
  cases hloc : locate s i with
  | none => rw [hloc] at h1; simp at h1
  | some x =>
    obtain ⟨ret, w, k⟩ := x
    rw [hloc] at h1
    simp only [Option.bind_some, Option.map_map, Option.map_eq_some_iff] at h1
    obtain ⟨q, hq, hqp⟩ := h1
    have hsel := List.find?_some hq
    rw [decide_eq_true_eq] at hsel
    obtain ⟨hm, hw⟩ := locate_word hloc
    simp only [Function.comp] at hqp
    have hq64 := hsel.1
    have hpq : p = ret + q := by omega
    have hret : ret / 64 = p / 64 := by omega
    have hqm : q = p % 64 := by omega
    refine ⟨p, w, ?_, ?_, ?_, ?_⟩
    · rw [List.getElem?_eq_getElem hpl, ← h.rep.bits p hpl, h3]
    · rw [← cntB_list v l h.rep p (by omega), h4]
    · rw [← hret, ← ok.bits]
      exact hw
    · rw [← hqm]
      have hk := hsel.2.2
      have hex := C07_sel_exact_partial w k q hsel
      rw [← hk] at hex
      rw [← hex, select_locate, hloc]
      simp only [Option.bind_some, ← hk, Option.map_eq_some_iff]
      constructor
      · rintro ⟨r, hr, hrp⟩
        have hr1 : 1 ≤ r := sel_pos w _ r (by omega) hr
        rw [hr]
        congr 1
        omega
      · intro hr
        exact ⟨q + 1, hr, by omega⟩

/-- Of a word of 64 ones the first one is found, by luck: 1 + 31 ≤ 32. The second is not. -/
example : ∃ v s, runInit (.sizeBit 64 true) = some v ∧ build true v = some s ∧ s.select Bits.sel 0 = some 0 ∧ s.select Bits.sel 1 ≠ some 1 ∧
    lost 0xFFFFFFFF#32 = 31 := ⟨_, _, rfl, rfl, by decide +kernel, by decide +kernel, by decide⟩

end Verif.Succ
