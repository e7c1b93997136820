/-
Property theorems C56: for exactly which keys the Turbo-BOM search misses an occurrence.
-/
import Verif.FO.TurboMiss
import Verif.FO.PropsTurbo
import Mathlib.Data.Nat.Find

namespace Verif.FO

open PM (Byte Occ kmpBuild_spec)

/-- C56 fails for every key with a prefix of `q` symbols, `q < m`, that has a period `d` with `d + ⌈m/2⌉ < q` which the next symbol breaks: this text,
which ends with the key, has an occurrence that is not reported. -/
theorem C56_missed (fuel : Nat) (key : List Byte) (hnz : ∀ c ∈ key, c ≠ 0#8) (q d : Nat) (hq : q < key.length) (hd : 0 < d)
    (hdq : d + (key.length - key.length / 2) < q) (hper : ∀ t, t + d < q → key[t]? = key[t + d]?) (hbr : key[q - d]? ≠ key[q]?)
    (a z g1 g2 : Byte) (ha : key[0]? = some a) (hz : z ∉ key) (hg1 : g1 ∉ key) (hg2 : g2 ∉ key) (hz1 : z ≠ g1) (hz2 : z ≠ g2) :
    ∃ text p, text = List.replicate (key.length - 1) z ++ List.replicate (2 * (key.length / 2) - q) a ++ key.take d ++ key ∧
      Occ key text p ∧ g1 ∉ text ∧ g2 ∉ text ∧ ∀ r, turboBom fuel text key (some g1) (some g2) = .ok r → p ∉ r := by
  have hne : key ≠ [] := by intro e; subst e; simp at hq
  have hak : a ∈ key := List.mem_of_getElem? ha
  obtain ⟨e, he⟩ : ∃ e, e + q = 2 * (key.length / 2) := ⟨2 * (key.length / 2) - q, by omega⟩
  have hmem : ∀ g, g ∉ key → z ≠ g → g ∉ List.replicate (key.length - 1) z ++ List.replicate (2 * (key.length / 2) - q) a ++ key.take d ++ key := by
    intro g h1 h2 h3
    simp only [List.mem_append] at h3
    rcases h3 with ((h3 | h3) | h3) | h3
    · exact h2 (List.eq_of_mem_replicate h3).symm
    · exact h1 (List.eq_of_mem_replicate h3 ▸ hak)
    · exact h1 (List.mem_of_mem_take h3)
    · exact h1 h3
  refine ⟨_, key.length - 1 + e + d, rfl, ?_, hmem g1 hg1 hz1, hmem g2 hg2 hz2, ?_⟩
  · rw [show 2 * (key.length / 2) - q = e by omega]
    refine ⟨by simp; omega, fun t ht => ?_⟩
    rw [List.getElem?_append_right (by simp; omega)]
    congr 1
    simp
    omega
  · intro r hr
    have h1 := hmem g1 hg1 hz1
    have h2 := hmem g2 hg2 hz2
    rw [show 2 * (key.length / 2) - q = e by omega] at hr h1 h2
    generalize htext : List.replicate (key.length - 1) z ++ List.replicate e a ++ key.take d ++ key = text at hr h1 h2
    have hocc : Occ key text (key.length - 1 + e + d) := by
      rw [← htext]
      refine ⟨by simp; omega, fun t ht => ?_⟩
      rw [List.getElem?_append_right (by simp; omega)]
      congr 1
      simp
      omega
    have hdt : ∀ t, t < d → text[key.length - 1 + e + t]? = key[t]? := by
      intro t ht
      rw [← htext, List.getElem?_append_left (by simp; omega), List.getElem?_append_right (by simp), List.length_append, List.length_replicate,
        List.length_replicate, Nat.add_sub_cancel_left, List.getElem?_take, if_pos ht]
    unfold turboBom at hr
    rcases build_spec fuel key.reverse (by simpa using hne) (fun c hc => hnz c (by simpa using hc)) with h | ⟨s, lrs, h, hL⟩
    · rw [h] at hr; cases hr
    · obtain ⟨next, en, _, hn⟩ := kmpBuild_spec key
      rw [h, ok_bind, en, lift_some, ok_bind] at hr
      cases hloop : turboLoop (fin s) (some g1) (some g2) next key text (key.length / 2) (key.length - 1) 0 [] with
      | none => rw [hloop] at hr; cases hr
      | some res =>
        rw [hloop] at hr
        cases hr
        refine turbo_miss key text s lrs hL g1 g2 h1 h2 next hn z hz q d e hq hd hdq hper hbr he ?_ ?_ hocc ?_ ?_ _ hloop
        · intro t ht
          rw [← htext, List.append_assoc, List.append_assoc, List.getElem?_append_left (by simpa using ht), List.getElem?_replicate, if_pos ht]
        · by_cases he0 : e = 0
          · have := hdt 0 hd
            rw [he0] at this
            exact this
          · rw [← htext, List.append_assoc, List.append_assoc, List.getElem?_append_right (by simp), List.length_replicate, Nat.sub_self,
              List.getElem?_append_left (by simp; omega), List.getElem?_replicate, if_pos (by omega), ha]
        · intro t ht
          by_cases htd : t < d
          · exact hdt t htd
          · have e1 := hocc.2 (t - d) (by omega)
            have e2 := hper (t - d) (by omega)
            rw [show t - d + d = t by omega] at e2
            rw [← e2, ← e1]
            congr 1
            omega
        · rw [← htext]
          simp
          omega

example := C56_missed 300 [97#8, 97#8, 97#8, 97#8, 97#8, 98#8] (by decide) 5 1 (by decide) (by decide) (by decide) (fun t ht => by
  have : t = 0 ∨ t = 1 ∨ t = 2 ∨ t = 3 := by omega
  rcases this with rfl | rfl | rfl | rfl <;> rfl) (by decide) 97#8 120#8 0#8 1#8 rfl (by decide) (by decide) (by decide) (by decide) (by decide)

/-- C56, exactly: for a key whose oracle is finished, the search reports the occurrences in every text if and only if each short period of a long proper
prefix of the key (`d + ⌈m/2⌉ < q`) is a period of the key. The bytes after the arrays must not be in the text, and there must be another byte that
is not in the key. -/
theorem C56_exact (fuel : Nat) (key : List Byte) (hne : key ≠ []) (hnz : ∀ c ∈ key, c ≠ 0#8) (z g1 g2 : Byte) (hz : z ∉ key) (hg1 : g1 ∉ key)
    (hg2 : g2 ∉ key) (hz1 : z ≠ g1) (hz2 : z ≠ g2) (hfin : turboBom fuel [] key (some g1) (some g2) ≠ .stop) :
    (∀ text, g1 ∉ text → g2 ∉ text → ∃ r, turboBom fuel text key (some g1) (some g2) = .ok r ∧ ∀ p, p ∈ r ↔ Occ key text p) ↔
    ∀ q d, q < key.length → 0 < d → d + (key.length - key.length / 2) < q → (∀ t, t + d < q → key[t]? = key[t + d]?) →
      ∀ t, t + d < key.length → key[t]? = key[t + d]? := by
  constructor
  · intro hall q d hq hd hdq hper
    by_contra hcon
    have hex : ∃ t, t + d < key.length ∧ key[t]? ≠ key[t + d]? := by
      by_contra hno
      exact hcon fun t ht => by
        by_contra hne
        exact hno ⟨t, ht, hne⟩
    classical
    have hspec := Nat.find_spec hex
    have hmin := fun {m : Nat} => Nat.find_min (m := m) hex
    generalize Nat.find hex = t0 at hspec hmin
    have ht0 : q ≤ t0 + d := by
      by_contra hlt
      exact hspec.2 (hper t0 (by omega))
    obtain ⟨a, ha⟩ : ∃ a, key[0]? = some a := ⟨_, List.getElem?_eq_getElem (by omega)⟩
    obtain ⟨text, p, _, ho, h1, h2, hmiss⟩ := C56_missed fuel key hnz (t0 + d) d hspec.1 hd (by omega) (fun t ht => by
      by_contra hne
      exact hmin (m := t) (by omega) ⟨by omega, hne⟩) (by
      rw [Nat.add_sub_cancel]
      exact hspec.2) a z g1 g2 ha hz hg1 hg2 hz1 hz2
    obtain ⟨r, er, hr⟩ := hall text h1 h2
    exact hmiss r er ((hr p).2 ho)
  · intro hap text h1 h2
    rcases C56_complete fuel text key hne hnz hap g1 g2 h1 h2 with h | ⟨r, er, _, hr⟩
    · exfalso
      apply hfin
      unfold turboBom at h ⊢
      cases hb : build fuel key.reverse with
      | stop => rfl
      | ub => rw [hb] at h; cases h
      | ok o =>
        rw [hb] at h
        obtain ⟨next, en, _, hn⟩ := kmpBuild_spec key
        rw [ok_bind, en, lift_some, ok_bind] at h
        unfold lift at h
        split at h <;> cases h
    · exact ⟨r, er, hr⟩

/-- A key that meets the hypotheses of `C56_missed`, and what the search finds in the text. -/
example : (5 < [97#8, 97#8, 97#8, 97#8, 97#8, 98#8].length ∧ 1 + ([97#8, 97#8, 97#8, 97#8, 97#8, 98#8].length - [97#8, 97#8, 97#8, 97#8, 97#8, 98#8].length / 2) < 5) ∧
    (∀ t, t + 1 < 5 → ([97#8, 97#8, 97#8, 97#8, 97#8, 98#8] : List Byte)[t]? = [97#8, 97#8, 97#8, 97#8, 97#8, 98#8][t + 1]?) ∧
    ([97#8, 97#8, 97#8, 97#8, 97#8, 98#8] : List Byte)[4]? ≠ [97#8, 97#8, 97#8, 97#8, 97#8, 98#8][5]? := by
  refine ⟨by decide, fun t ht => ?_, by decide⟩
  have : t = 0 ∨ t = 1 ∨ t = 2 ∨ t = 3 := by omega
  rcases this with rfl | rfl | rfl | rfl <;> rfl

example : turboBom 300 ([120#8, 120#8, 120#8, 120#8, 120#8] ++ [97#8] ++ [97#8] ++ [97#8, 97#8, 97#8, 97#8, 97#8, 98#8]) [97#8, 97#8, 97#8, 97#8, 97#8, 98#8]
    (some 0#8) (some 0#8) = .ok [] := by decide +kernel

example : turboBom 300 [] [97#8, 97#8, 97#8, 97#8, 97#8, 98#8] (some 0#8) (some 0#8) ≠ .stop := by decide +kernel

end Verif.FO
