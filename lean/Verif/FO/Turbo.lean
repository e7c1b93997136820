/-
Helper facts for the Turbo-BOM search: what it reports are occurrences.
-/
import Verif.FO.Search
import Verif.PM.Kmp

namespace Verif.FO

open PM (Byte Occ NextOk Bd Closed kmpBack kmpBack_spec)

/-- The first `k` symbols of the key stand before position `i` of the text. -/
def Ends (key text : List Byte) (i k : Nat) : Prop := k ≤ i ∧ k ≤ key.length ∧ ∀ t, t < k → text[i - k + t]? = key[t]?

theorem Ends_closed (key text : List Byte) (i b : Nat) : Closed (fun j => key[j]?) (fun k => k ≤ b ∧ Ends key text i k) := by
  rintro p k ⟨hb, hp1, hp2, hp3⟩ hk
  constructor
  · rintro ⟨_, h1, h2, h3⟩
    refine ⟨hk, fun t ht => ?_⟩
    have e1 := h3 t ht
    have e2 := hp3 (p - k + t) (by omega)
    rw [show i - p + (p - k + t) = i - k + t by omega] at e2
    simp only
    rw [← e1, e2]
  · rintro ⟨h1, h2⟩
    refine ⟨by omega, by omega, by omega, fun t ht => ?_⟩
    have e2 := hp3 (p - k + t) (by omega)
    rw [show i - p + (p - k + t) = i - k + t by omega] at e2
    rw [e2]
    exact (h2 t ht).symm

theorem Ends_succ {key text : List Byte} {i k : Nat} {c : Byte} (h : Ends key text i k) (hc : text[i]? = some c) (hk : key[k]? = some c) :
    Ends key text (i + 1) (k + 1) := by
  have hkl : k < key.length := by
    rcases Nat.lt_or_ge k key.length with h | h
    · exact h
    · rw [List.getElem?_eq_none h] at hk; cases hk
  obtain ⟨h1, h2, h3⟩ := h
  refine ⟨by omega, by omega, fun t ht => ?_⟩
  by_cases htk : t = k
  · subst htk
    rw [show i + 1 - (t + 1) + t = i by omega, hc, hk]
  · rw [show i + 1 - (k + 1) + t = i - k + t by omega]
    exact h3 t (by omega)

theorem kmpSearch_spec (key text : List Byte) (g : Byte) (hg : g ∉ text) (next : List Int)
    (hn : ∀ j, j ≤ key.length → ∃ p, next[j]? = some p ∧ NextOk (fun j => key[j]?) j p) :
    ∀ (n i pos : Nat), Ends key text i pos →
    ∃ r : Nat, kmpSearch key (some g) next ((text.drop i).take n) pos = some (r : Int) ∧ r ≤ pos + n ∧
      Ends key text (i + min n (text.length - i)) r := by
  intro n
  induction n with
  | zero => intro i pos h; exact ⟨pos, rfl, by omega, by simpa using h⟩
  | succ n ih =>
    intro i pos h
    by_cases hi : i < text.length
    · rw [List.drop_eq_getElem_cons hi, List.take_succ_cons]
      unfold kmpSearch
      obtain ⟨r, er, hr1, hr2, hr3, _⟩ := kmpBack_spec key (some g) next text[i] (fun k => k ≤ pos ∧ Ends key text i k) (fun j => key[j]?)
        (fun _ => rfl) (Ends_closed key text i pos) key.length (Nat.le_refl _) hn
        (fun _ => ⟨g, rfl, fun e => hg (e ▸ List.getElem_mem _)⟩) (pos + 1) (pos : Int) (by omega) (by omega) (by have := h.2.1; omega)
        (Or.inr ⟨by simp, by simpa using h⟩) (fun k hk hlt => by have := hk.1; omega)
      rw [er]
      simp only [Option.bind_eq_bind, Option.bind_some]
      have hE : Ends key text (i + 1) (r + 1).toNat := by
        have triv : r = -1 → Ends key text (i + 1) (r + 1).toNat := by
          intro e
          subst e
          exact ⟨by simp, by simp, fun t ht => by simp at ht⟩
        rcases hr3 with e | ⟨⟨_, hE⟩, hk⟩
        · exact triv e
        · by_cases h0 : r = -1
          · exact triv h0
          · rw [show (r + 1).toNat = r.toNat + 1 by omega]
            exact Ends_succ hE (List.getElem?_eq_getElem hi) hk
      obtain ⟨q, eq, hq, hEq⟩ := ih (i + 1) (r + 1).toNat hE
      refine ⟨q, ?_, by omega, ?_⟩
      · rw [← eq]
        congr 1
        omega
      · rw [show i + min (n + 1) (text.length - i) = i + 1 + min n (text.length - (i + 1)) by omega]
        exact hEq
    · rw [List.drop_eq_nil_of_le (by omega)]
      refine ⟨pos, ?_, by omega, ?_⟩
      · rw [List.take_nil]; rfl
      · rw [show text.length - i = 0 by omega]
        simpa using h

theorem turboLoop_spec (key text : List Byte) (hk : key ≠ []) (s : Builder) (lrs : List Nat)
    (h : LI key.reverse key.reverse.length lrs s) (g1 g2 : Byte) (hg1 : g1 ∉ text) (hg2 : g2 ∉ text) (next : List Int)
    (hn : ∀ j, j ≤ key.length → ∃ p, next[j]? = some p ∧ NextOk (fun j => key[j]?) j p) :
    ∀ (M back crit : Nat) (acc : List Nat), (text.length - back) * (text.length + 2) + (text.length + 1 - crit) ≤ M →
    key.length ≤ back + 1 → crit ≤ back + 1 →
    (back < text.length → back + 1 - key.length < crit → Ends key text crit (crit - (back + 1 - key.length))) →
    acc.Pairwise (· < ·) → (∀ p ∈ acc, Occ key text p ∧ p < back + 1 - key.length) →
    ∃ r, turboLoop (fin s) (some g1) (some g2) next key text (key.length / 2) back crit acc = some r ∧ r.Pairwise (· < ·) ∧
      ∀ p ∈ r, Occ key text p := by
  have hkp : 0 < key.length := List.length_pos_iff.2 hk
  have hrl : key.reverse.length = key.length := List.length_reverse
  intro M
  induction M with
  | zero =>
    intro back crit acc hM hb hc _ hacc hocc
    unfold turboLoop
    have : ¬ back < text.length := by
      intro hlt
      have : 0 < (text.length - back) * (text.length + 2) := Nat.mul_pos (by omega) (by omega)
      omega
    rw [dif_neg this]
    exact ⟨acc, rfl, hacc, fun p hp => (hocc p hp).1⟩
  | succ M ih =>
    intro back crit acc hM hb hc hI hacc hocc
    unfold turboLoop
    by_cases hlt : back < text.length
    · rw [dif_pos hlt]
      obtain ⟨pos, ep, hp1, hp2, ⟨u, hu⟩, hp4⟩ := bomBack_spec text key.reverse s lrs h g1 hg1 key.length 0 (back + 1) hb (by omega) (by omega)
      rw [ep]
      simp only
      have hmis : pos + key.length ≠ back + 1 → ¬ Occ key text (back + 1 - key.length) := by
        intro hne ho
        rcases hp4 with e | e
        · omega
        · obtain ⟨t, ht⟩ := Occ_reads key text s lrs h (back + 1 - key.length) (pos - 1) (back + 1) ho (by omega) (by omega) (by omega)
          exact e t ht
      by_cases hm : pos + key.length = back + 1
      · rw [if_pos hm]
        have hbl := back_length text pos (back + 1) (by omega)
        have ho : Occ key text (back + 1 - key.length) := by
          have hfull := (Reads_len (text := key.reverse) h.inv h.check _ _ _ (Nat.zero_le _) hu).2 (by omega)
          simp only [List.drop_zero] at hfull
          have he : (text.take (back + 1)).drop pos = key := by
            have := congrArg List.reverse hfull
            simpa [FO.back] using this
          refine ⟨by omega, fun t ht => ?_⟩
          have e2 : ((text.take (back + 1)).drop pos)[t]? = key[t]? := by rw [he]
          rw [List.getElem?_drop, List.getElem?_take, if_pos (by omega)] at e2
          rw [← e2]
          congr 1
          omega
        obtain ⟨n, en, hn1, hn2, _, hn4⟩ := hn key.length (Nat.le_refl _)
        rw [en]
        simp only
        rw [dif_pos (by omega)]
        have hback' : (back + (key.length - n).toNat : Nat) + 1 - key.length = back + 1 - key.length + (key.length - n).toNat := by omega
        apply ih
        · have := lex_lt (a := back) (a' := back + (key.length - n).toNat) (n := text.length) (c := crit) (c' := back + 1) (Or.inl (by omega))
          omega
        · omega
        · omega
        · intro _ hlt'
          rcases hn4 with e | ⟨hbd, _⟩
          · omega
          · refine ⟨by omega, by omega, fun t ht => ?_⟩
            have e1 := hbd.2 t (by omega)
            simp only at e1
            rw [e1, ← ho.2 (key.length - n.toNat + t) (by omega)]
            congr 1
            omega
        · rw [List.pairwise_append]
          refine ⟨hacc, by simp, ?_⟩
          intro a ha b hb'
          rw [List.mem_singleton.1 hb']
          exact (hocc a ha).2
        · intro p hp
          rcases List.mem_append.1 hp with hp | hp
          · refine ⟨(hocc p hp).1, ?_⟩
            have := (hocc p hp).2
            omega
          · rw [List.mem_singleton.1 hp]
            exact ⟨ho, by omega⟩
      · rw [if_neg hm, if_neg (show ¬ max pos crit > text.length by omega)]
        have hno := hmis hm
        -- the part searched by KMP
        have hpre : ∃ pre : Nat, (if pos > crit then (0 : Int) else crit + key.length - (back + 1)) = pre ∧
            Ends key text (max pos crit) pre ∧ (pos > crit → pre = 0) ∧ (¬ pos > crit → crit = back + 1 - key.length + pre) := by
          by_cases hpc : pos > crit
          · exact ⟨0, by rw [if_pos hpc]; rfl, ⟨by omega, by omega, fun t ht => by omega⟩, fun _ => rfl, fun h => absurd hpc h⟩
          · refine ⟨crit - (back + 1 - key.length), by rw [if_neg hpc]; omega, ?_, fun h => absurd h hpc, fun _ => by omega⟩
            rw [show max pos crit = crit by omega]
            by_cases hlt2 : back + 1 - key.length < crit
            · exact hI hlt hlt2
            · rw [show crit - (back + 1 - key.length) = 0 by omega]
              exact ⟨by omega, by omega, fun t ht => by omega⟩
        obtain ⟨pre, epre, hE, hpre1, hpre2⟩ := hpre
        simp only [epre]
        obtain ⟨r, er, hr1, hr2⟩ := kmpSearch_spec key text g2 hg2 next hn (key.length / 2) (max pos crit) pre hE
        rw [er]
        simp only
        have hrm : r ≤ key.length := hr2.2.1
        have hw : crit = back + 1 → ¬ pos > crit → False := by
          intro e1 e2
          apply hno
          have hE' := hE
          rw [show max pos crit = back + 1 by omega, show pre = key.length by omega] at hE'
          refine ⟨by omega, fun t ht => hE'.2.2 t ht⟩
        have hprog : back < max pos crit + key.length / 2 + key.length - r - 1 ∨
            (max pos crit + key.length / 2 + key.length - r - 1 = back ∧ crit < max pos crit + key.length / 2) := by
          by_cases hpc : pos > crit
          · have := hpre1 hpc
            left; omega
          · have := hpre2 hpc
            by_cases hw0 : key.length / 2 = 0
            · exact absurd hpc (fun hpc => hw (by omega) hpc)
            · omega
        have hcrit : crit ≤ text.length := by omega
        rw [dif_pos (by omega)]
        have hb' : (((max pos crit : Nat) : Int) + ((key.length / 2 : Nat) : Int) - (r : Int) + (key.length : Int) - 1).toNat =
            max pos crit + key.length / 2 + key.length - r - 1 := by omega
        rw [hb']
        apply ih
        · have := lex_lt (a := back) (a' := max pos crit + key.length / 2 + key.length - r - 1) (n := text.length) (c := crit)
            (c' := max pos crit + key.length / 2) (by omega)
          omega
        · omega
        · omega
        · intro hlt' hlt2
          have : max pos crit + key.length / 2 ≤ text.length := by omega
          rw [show min (key.length / 2) (text.length - max pos crit) = key.length / 2 by omega] at hr2
          rw [show max pos crit + key.length / 2 - (max pos crit + key.length / 2 + key.length - r - 1 + 1 - key.length) = r by omega]
          exact hr2
        · exact hacc
        · intro p hp
          refine ⟨(hocc p hp).1, ?_⟩
          have := (hocc p hp).2
          omega
    · rw [dif_neg hlt]
      exact ⟨acc, rfl, hacc, fun p hp => (hocc p hp).1⟩

end Verif.FO
