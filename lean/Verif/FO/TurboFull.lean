/-
Helper facts for the Turbo-BOM search: nothing is missed when no prefix of the key is too periodic.
-/
import Verif.FO.Turbo
import Mathlib.Tactic.ByContra

namespace Verif.FO

open PM (Byte Occ NextOk Bd Closed Found kmpBack kmpBack_spec)

theorem Ends_pred {key text : List Byte} {i k : Nat} (h : Ends key text (i + 1) (k + 1)) : Ends key text i k ∧ text[i]? = key[k]? := by
  obtain ⟨h1, h2, h3⟩ := h
  refine ⟨⟨by omega, by omega, fun t ht => ?_⟩, ?_⟩
  · have := h3 t (by omega)
    rw [show i + 1 - (k + 1) + t = i - k + t by omega] at this
    exact this
  · have := h3 k (by omega)
    rw [show i + 1 - (k + 1) + k = i by omega] at this
    exact this

theorem Ends_back {key text : List Byte} : ∀ (n : Nat) {i k : Nat}, Ends key text (i + n) (k + n) → Ends key text i k := by
  intro n
  induction n with
  | zero => intro i k h; exact h
  | succ n ih => intro i k h; exact ih (Ends_pred h).1

/-- The search for the key by KMP within `n` symbols gives the longest prefix of the key that starts not before the one it began with. -/
theorem kmpSearch_max (key text : List Byte) (g : Byte) (hg : g ∉ text) (next : List Int)
    (hn : ∀ j, j ≤ key.length → ∃ p, next[j]? = some p ∧ NextOk (fun j => key[j]?) j p) :
    ∀ (n i pos : Nat), Ends key text i pos → i + n ≤ text.length →
    ∃ r : Nat, kmpSearch key (some g) next ((text.drop i).take n) pos = some (r : Int) ∧
      ∀ k, k ≤ pos + n → Ends key text (i + n) k → k ≤ r := by
  intro n
  induction n with
  | zero => intro i pos h _; exact ⟨pos, rfl, fun k hk _ => hk⟩
  | succ n ih =>
    intro i pos h hlen
    have hi : i < text.length := by omega
    rw [List.drop_eq_getElem_cons hi, List.take_succ_cons]
    unfold kmpSearch
    obtain ⟨r, er, hr1, hr2, hr3, hr4⟩ := kmpBack_spec key (some g) next text[i] (fun k => k ≤ pos ∧ Ends key text i k) (fun j => key[j]?)
      (fun _ => rfl) (Ends_closed key text i pos) key.length (Nat.le_refl _) hn
      (fun _ => ⟨g, rfl, fun e => hg (e ▸ List.getElem_mem _)⟩) (pos + 1) (pos : Int) (by omega) (by omega) (by have := h.2.1; omega)
      (Or.inr ⟨by simp, by simpa using h⟩) (fun k hk hlt => by have := hk.1; omega)
    rw [er]
    simp only [Option.bind_eq_bind, Option.bind_some]
    have hE : Ends key text (i + 1) (r + 1).toNat := by
      have triv : r = -1 → Ends key text (i + 1) (r + 1).toNat := by
        intro e
        subst e
        exact ⟨by simp, by simp, fun t ht => by simp at ht⟩
      rcases hr3 with e | ⟨⟨_, hE⟩, hk⟩
      · exact triv e
      · by_cases h0 : r = -1
        · exact triv h0
        · rw [show (r + 1).toNat = r.toNat + 1 by omega]
          exact Ends_succ hE (List.getElem?_eq_getElem hi) hk
    obtain ⟨q, eq, hq⟩ := ih (i + 1) (r + 1).toNat hE (by omega)
    refine ⟨q, ?_, ?_⟩
    · rw [← eq]
      congr 1
      omega
    · intro k hk hEk
      rw [show i + (n + 1) = i + 1 + n by omega] at hEk
      apply hq k _ hEk
      by_cases hkn : k ≤ n
      · omega
      · obtain ⟨x, rfl⟩ : ∃ x, k = x + 1 + n := ⟨k - 1 - n, by omega⟩
        obtain ⟨h1, h2⟩ := Ends_pred (Ends_back n hEk)
        rw [List.getElem?_eq_getElem hi] at h2
        have : ¬ r < (x : Int) := fun hlt => hr4 x ⟨by omega, h1⟩ hlt h2.symm
        omega

/-- A prefix of the key with a period shorter than its length less half of the key (rounded up) can only be there if the whole key has this
period. -/
def Aperiodic (key : List Byte) : Prop :=
  ∀ q d, q < key.length → 0 < d → d + (key.length - key.length / 2) < q → (∀ t, t + d < q → key[t]? = key[t + d]?) →
    ∀ t, t + d < key.length → key[t]? = key[t + d]?

theorem turboLoop_full (key text : List Byte) (hk : key ≠ []) (hap : Aperiodic key) (s : Builder) (lrs : List Nat)
    (h : LI key.reverse key.reverse.length lrs s) (g1 g2 : Byte) (hg1 : g1 ∉ text) (hg2 : g2 ∉ text) (next : List Int)
    (hn : ∀ j, j ≤ key.length → ∃ p, next[j]? = some p ∧ NextOk (fun j => key[j]?) j p) :
    ∀ (M back crit : Nat) (acc : List Nat), (text.length - back) * (text.length + 2) + (text.length + 1 - crit) ≤ M →
    key.length ≤ back + 1 → crit ≤ back + 1 →
    (back < text.length → back + 1 - key.length < crit → Ends key text crit (crit - (back + 1 - key.length))) →
    Found key text (back + 1 - key.length) acc →
    ∃ r, turboLoop (fin s) (some g1) (some g2) next key text (key.length / 2) back crit acc = some r ∧ r.Pairwise (· < ·) ∧
      ∀ p, p ∈ r ↔ Occ key text p := by
  have hkp : 0 < key.length := List.length_pos_iff.2 hk
  have hrl : key.reverse.length = key.length := List.length_reverse
  intro M
  induction M with
  | zero =>
    intro back crit acc hM hb hc _ hf
    unfold turboLoop
    have : ¬ back < text.length := by
      intro hlt
      have : 0 < (text.length - back) * (text.length + 2) := Nat.mul_pos (by omega) (by omega)
      omega
    rw [dif_neg this]
    exact ⟨acc, rfl, PM.Found_done hf (by omega)⟩
  | succ M ih =>
    intro back crit acc hM hb hc hI hf
    unfold turboLoop
    by_cases hlt : back < text.length
    · rw [dif_pos hlt]
      obtain ⟨pos, ep, hp1, hp2, ⟨u, hu⟩, hp4⟩ := bomBack_spec text key.reverse s lrs h g1 hg1 key.length 0 (back + 1) hb (by omega) (by omega)
      rw [ep]
      simp only
      have hmis : pos + key.length ≠ back + 1 → ¬ Occ key text (back + 1 - key.length) := by
        intro hne ho
        rcases hp4 with e | e
        · omega
        · obtain ⟨t, ht⟩ := Occ_reads key text s lrs h (back + 1 - key.length) (pos - 1) (back + 1) ho (by omega) (by omega) (by omega)
          exact e t ht
      by_cases hm : pos + key.length = back + 1
      · rw [if_pos hm]
        have hbl := back_length text pos (back + 1) (by omega)
        have ho : Occ key text (back + 1 - key.length) := by
          have hfull := (Reads_len (text := key.reverse) h.inv h.check _ _ _ (Nat.zero_le _) hu).2 (by omega)
          simp only [List.drop_zero] at hfull
          have he : (text.take (back + 1)).drop pos = key := by
            have := congrArg List.reverse hfull
            simpa [FO.back] using this
          refine ⟨by omega, fun t ht => ?_⟩
          have e2 : ((text.take (back + 1)).drop pos)[t]? = key[t]? := by rw [he]
          rw [List.getElem?_drop, List.getElem?_take, if_pos (by omega)] at e2
          rw [← e2]
          congr 1
          omega
        obtain ⟨n, en, hn1, hn2, hn3, hn4⟩ := hn key.length (Nat.le_refl _)
        rw [en]
        simp only
        rw [dif_pos (by omega)]
        have hback' : (back + (key.length - n).toNat : Nat) + 1 - key.length = back + 1 - key.length + (key.length - n).toNat := by omega
        apply ih
        · have := lex_lt (a := back) (a' := back + (key.length - n).toNat) (n := text.length) (c := crit) (c' := back + 1) (Or.inl (by omega))
          omega
        · omega
        · omega
        · intro _ hlt'
          rcases hn4 with e | ⟨hbd, _⟩
          · omega
          · refine ⟨by omega, by omega, fun t ht => ?_⟩
            have e1 := hbd.2 t (by omega)
            simp only at e1
            rw [e1, ← ho.2 (key.length - n.toNat + t) (by omega)]
            congr 1
            omega
        · rw [hback']
          refine PM.Found_skip (PM.Found_hit hf ho) (by omega) fun p hp1 hp2 ho2 => ?_
          -- an occurrence that overlaps this one is a border of the key
          have hbd : Bd (fun j => key[j]?) key.length (key.length - (p - (back + 1 - key.length))) := by
            refine ⟨by omega, fun t ht => ?_⟩
            simp only
            rw [← ho2.2 t (by omega), ← ho.2 (key.length - (key.length - (p - (back + 1 - key.length))) + t) (by omega)]
            congr 1
            omega
          have := hn3 _ hbd (by omega)
          simp only at this
          rw [List.getElem?_eq_none (Nat.le_refl _), List.getElem?_eq_getElem hbd.1] at this
          cases this
      · rw [if_neg hm, if_neg (show ¬ max pos crit > text.length by omega)]
        have hno := hmis hm
        -- the part searched by KMP
        have hpre : ∃ pre : Nat, (if pos > crit then (0 : Int) else crit + key.length - (back + 1)) = pre ∧
            Ends key text (max pos crit) pre ∧ (pos > crit → pre = 0) ∧ (¬ pos > crit → crit = back + 1 - key.length + pre) := by
          by_cases hpc : pos > crit
          · exact ⟨0, by rw [if_pos hpc]; rfl, ⟨by omega, by omega, fun t ht => by omega⟩, fun _ => rfl, fun h => absurd hpc h⟩
          · refine ⟨crit - (back + 1 - key.length), by rw [if_neg hpc]; omega, ?_, fun h => absurd h hpc, fun _ => by omega⟩
            rw [show max pos crit = crit by omega]
            by_cases hlt2 : back + 1 - key.length < crit
            · exact hI hlt hlt2
            · rw [show crit - (back + 1 - key.length) = 0 by omega]
              exact ⟨by omega, by omega, fun t ht => by omega⟩
        obtain ⟨pre, epre, hE, hpre1, hpre2⟩ := hpre
        simp only [epre]
        obtain ⟨r, er, hr1, hr2⟩ := kmpSearch_spec key text g2 hg2 next hn (key.length / 2) (max pos crit) pre hE
        rw [er]
        simp only
        have hrm : r ≤ key.length := hr2.2.1
        have hw : crit = back + 1 → ¬ pos > crit → False := by
          intro e1 e2
          apply hno
          have hE' := hE
          rw [show max pos crit = back + 1 by omega, show pre = key.length by omega] at hE'
          refine ⟨by omega, fun t ht => hE'.2.2 t ht⟩
        have hprog : back < max pos crit + key.length / 2 + key.length - r - 1 ∨
            (max pos crit + key.length / 2 + key.length - r - 1 = back ∧ crit < max pos crit + key.length / 2) := by
          by_cases hpc : pos > crit
          · have := hpre1 hpc
            left; omega
          · have := hpre2 hpc
            by_cases hw0 : key.length / 2 = 0
            · exact absurd hpc (fun hpc => hw (by omega) hpc)
            · omega
        have hcrit : crit ≤ text.length := by omega
        rw [dif_pos (by omega)]
        have hb' : (((max pos crit : Nat) : Int) + ((key.length / 2 : Nat) : Int) - (r : Int) + (key.length : Int) - 1).toNat =
            max pos crit + key.length / 2 + key.length - r - 1 := by omega
        rw [hb']
        apply ih
        · have := lex_lt (a := back) (a' := max pos crit + key.length / 2 + key.length - r - 1) (n := text.length) (c := crit)
            (c' := max pos crit + key.length / 2) (by omega)
          omega
        · omega
        · omega
        · intro hlt' hlt2
          have : max pos crit + key.length / 2 ≤ text.length := by omega
          rw [show min (key.length / 2) (text.length - max pos crit) = key.length / 2 by omega] at hr2
          rw [show max pos crit + key.length / 2 - (max pos crit + key.length / 2 + key.length - r - 1 + 1 - key.length) = r by omega]
          exact hr2
        · rw [show max pos crit + key.length / 2 + key.length - r - 1 + 1 - key.length = max pos crit + key.length / 2 - r by omega]
          refine PM.Found_skip hf (by omega) fun p hp1 hp2 ho2 => ?_
          have hpl := ho2.1
          have hpn : p ≠ back + 1 - key.length := fun e => hno (e ▸ ho2)
          have hpos : pos ≤ p ∨ pos ≤ crit := by
            by_contra hcon
            rcases hp4 with e | e
            · omega
            · obtain ⟨t, ht⟩ := Occ_reads key text s lrs h p (pos - 1) (back + 1) ho2 (by omega) (by omega) (by omega)
              exact e t ht
          -- the prefix of the key that begins at `p`
          have hkey : max pos crit + key.length / 2 ≤ p + key.length → False := by
            intro hle
            obtain ⟨r', er', hr'⟩ := kmpSearch_max key text g2 hg2 next hn (key.length / 2) (max pos crit) pre hE (by omega)
            rw [er] at er'
            have hrr : r = r' := by have := Option.some.inj er'; omega
            have := hr' (max pos crit + key.length / 2 - p) (by
                by_cases hpc : pos > crit
                · omega
                · have := hpre2 hpc; omega)
              ⟨by omega, by omega, fun t ht => by
                rw [← ho2.2 t (by omega)]
                congr 1
                omega⟩
            omega
          by_cases hle : max pos crit + key.length / 2 ≤ p + key.length
          · exact hkey hle
          · by_cases hpc : pos > crit
            · omega
            · have hp := hpre2 hpc
              have hpm : pre ≠ key.length := fun e => hw (by omega) hpc
              have hm2 : max pos crit = crit := by omega
              have hE1 : ∀ t, t < pre → text[back + 1 - key.length + t]? = key[t]? := by
                intro t ht
                rw [← hE.2.2 t ht, hm2]
                congr 1
                omega
              have hper := hap pre (p - (back + 1 - key.length)) (by have := hE.2.1; omega) (by omega) (by omega) (fun t ht => by
                rw [← hE1 _ ht, ← ho2.2 t (by omega)]
                congr 1
                omega)
              apply hno
              refine ⟨by omega, fun t ht => ?_⟩
              by_cases htp : t < pre
              · exact hE1 t htp
              · have e1 := hper (t - (p - (back + 1 - key.length))) (by omega)
                rw [← ho2.2 _ (by omega), show t - (p - (back + 1 - key.length)) + (p - (back + 1 - key.length)) = t by omega] at e1
                rw [← e1]
                congr 1
                omega
    · rw [dif_neg hlt]
      exact ⟨acc, rfl, PM.Found_done hf (by omega)⟩

end Verif.FO
