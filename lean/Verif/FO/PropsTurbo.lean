/-
Property theorems C56: when the Turbo-BOM search misses nothing.
-/
import Verif.FO.TurboFull
import Verif.FO.Props

namespace Verif.FO

open PM (Byte Occ kmpBuild_spec)

/-- C56: the search reports all occurrences, each once and in increasing order, if the key has this form: when a proper prefix of it has a short
period (a period `d` with `d + ⌈m/2⌉` below the size of the prefix), so has the whole key. -/
theorem C56_complete (fuel : Nat) (text key : List Byte) (hne : key ≠ []) (hnz : ∀ c ∈ key, c ≠ 0#8)
    (hap : ∀ q d, q < key.length → 0 < d → d + (key.length - key.length / 2) < q → (∀ t, t + d < q → key[t]? = key[t + d]?) →
      ∀ t, t + d < key.length → key[t]? = key[t + d]?)
    (g1 g2 : Byte) (hg1 : g1 ∉ text) (hg2 : g2 ∉ text) : turboBom fuel text key (some g1) (some g2) = .stop ∨
    ∃ r, turboBom fuel text key (some g1) (some g2) = .ok r ∧ r.Pairwise (· < ·) ∧ ∀ p, p ∈ r ↔ Occ key text p := by
  have hkp := List.length_pos_iff.2 hne
  unfold turboBom
  rcases build_spec fuel key.reverse (by simpa using hne) (fun c hc => hnz c (by simpa using hc)) with h | ⟨s, lrs, h, hL⟩
  · left; rw [h]; rfl
  · right
    obtain ⟨next, en, _, hn⟩ := kmpBuild_spec key
    rw [h, ok_bind, en, lift_some, ok_bind]
    obtain ⟨r, er, hr⟩ := turboLoop_full key text hne hap s lrs hL g1 g2 hg1 hg2 next hn _ (key.length - 1) 0 [] (Nat.le_refl _) (by omega) (by omega)
      (fun _ hlt => by omega) ⟨.nil, fun p => by simp; omega⟩
    rw [er]
    exact ⟨r, rfl, hr⟩

example := C56_complete 300 [97#8, 97#8, 98#8, 97#8, 98#8, 97#8, 98#8, 99#8] [97#8, 98#8, 97#8, 98#8, 97#8, 98#8, 99#8] (by decide) (by decide) (by
  intro q d h1 h2 h3 h4
  simp only [List.length_cons, List.length_nil] at h1 h3
  have : d = 1 := by omega
  subst this
  exact absurd (h4 0 (by omega)) (by decide)) 0#8 1#8 (by decide) (by decide)

/-- C56: nothing is missed for keys of at most five symbols; the key of `C56_refuted` has six. -/
theorem C56_complete_short (fuel : Nat) (text key : List Byte) (hne : key ≠ []) (hl : key.length ≤ 5) (hnz : ∀ c ∈ key, c ≠ 0#8)
    (g1 g2 : Byte) (hg1 : g1 ∉ text) (hg2 : g2 ∉ text) : turboBom fuel text key (some g1) (some g2) = .stop ∨
    ∃ r, turboBom fuel text key (some g1) (some g2) = .ok r ∧ r.Pairwise (· < ·) ∧ ∀ p, p ∈ r ↔ Occ key text p :=
  C56_complete fuel text key hne hnz (fun q d h1 h2 h3 _ => by omega) g1 g2 hg1 hg2

example := C56_complete_short 300 [98#8, 97#8, 97#8, 99#8, 97#8] [97#8, 97#8] (by decide) (by decide) (by decide) 0#8 0#8 (by decide) (by decide)

/-- C56: nothing is missed when the first symbol of the key does not come again in its first half. -/
theorem C56_complete_first (fuel : Nat) (text key : List Byte) (hne : key ≠ []) (hnz : ∀ c ∈ key, c ≠ 0#8)
    (hf : ∀ d, 0 < d → d < key.length / 2 → key[d]? ≠ key[0]?) (g1 g2 : Byte) (hg1 : g1 ∉ text) (hg2 : g2 ∉ text) :
    turboBom fuel text key (some g1) (some g2) = .stop ∨
    ∃ r, turboBom fuel text key (some g1) (some g2) = .ok r ∧ r.Pairwise (· < ·) ∧ ∀ p, p ∈ r ↔ Occ key text p :=
  C56_complete fuel text key hne hnz (fun q d h1 h2 h3 hp => absurd (hp 0 (by omega)) (by
    rw [Nat.zero_add]
    exact fun e => hf d h2 (by omega) e.symm)) g1 g2 hg1 hg2

example := C56_complete_first 300 [98#8, 97#8, 98#8, 99#8, 97#8] [97#8, 98#8, 99#8, 97#8] (by decide) (by decide)
  (fun d h0 h1 => by obtain rfl : d = 1 := (by simp at h1; omega); decide) 0#8 0#8 (by decide) (by decide)

/-- C56: nothing is missed for a key of equal symbols. -/
theorem C56_complete_run (fuel : Nat) (text : List Byte) (c : Byte) (m : Nat) (hm : 0 < m) (hc : c ≠ 0#8)
    (g1 g2 : Byte) (hg1 : g1 ∉ text) (hg2 : g2 ∉ text) : turboBom fuel text (List.replicate m c) (some g1) (some g2) = .stop ∨
    ∃ r, turboBom fuel text (List.replicate m c) (some g1) (some g2) = .ok r ∧ r.Pairwise (· < ·) ∧
      ∀ p, p ∈ r ↔ Occ (List.replicate m c) text p :=
  C56_complete fuel text _ (List.ne_nil_of_length_pos (by simpa using hm)) (fun x hx => by rw [List.eq_of_mem_replicate hx]; exact hc)
    (fun q d _ _ _ _ t ht => by
      simp only [List.length_replicate] at ht
      rw [List.getElem?_replicate, List.getElem?_replicate, if_pos (by omega), if_pos ht]) g1 g2 hg1 hg2

example := C56_complete_run 300 [98#8, 97#8, 97#8, 97#8] 97#8 2 (by decide) (by decide) 0#8 1#8 (by decide) (by decide)

/-- C56 in full for keys of this form with few letters for their size (see `C53_total`): the search ends and lists exactly the occurrences. -/
theorem C56_total (text key A : List Byte) (hne : key ≠ []) (hnz : ∀ c ∈ key, c ≠ 0#8) (hA : ∀ c ∈ key, c ∈ A)
    (hroom : A.length * (key.length - 2) + 4 ≤ 2 * (256 * ((key.length + 255) / 256))) (hm : key.length ≤ 2 ^ 23)
    (hap : ∀ q d, q < key.length → 0 < d → d + (key.length - key.length / 2) < q → (∀ t, t + d < q → key[t]? = key[t + d]?) →
      ∀ t, t + d < key.length → key[t]? = key[t + d]?)
    (g1 g2 : Byte) (hg1 : g1 ∉ text) (hg2 : g2 ∉ text) (fuel : Nat) (hf : 2 ^ 32 + 1 ≤ fuel) :
    ∃ r, turboBom fuel text key (some g1) (some g2) = .ok r ∧ r.Pairwise (· < ·) ∧ ∀ p, p ∈ r ↔ Occ key text p := by
  obtain ⟨r, er, _⟩ := C56_ends text key A hne hnz hA hroom hm g1 g2 hg1 hg2 fuel hf
  rcases C56_complete fuel text key hne hnz hap g1 g2 hg1 hg2 with h | h
  · rw [er] at h; cases h
  · exact h

/-- A key of seven symbols that meets the hypothesis of `C56_complete`: its prefix of six symbols has no period 1. -/
example : ∀ q d, q < [97#8, 98#8, 97#8, 98#8, 97#8, 98#8, 99#8].length → 0 < d →
    d + ([97#8, 98#8, 97#8, 98#8, 97#8, 98#8, 99#8].length - [97#8, 98#8, 97#8, 98#8, 97#8, 98#8, 99#8].length / 2) < q →
    (∀ t, t + d < q → ([97#8, 98#8, 97#8, 98#8, 97#8, 98#8, 99#8] : List Byte)[t]? = [97#8, 98#8, 97#8, 98#8, 97#8, 98#8, 99#8][t + d]?) →
    ∀ t, t + d < [97#8, 98#8, 97#8, 98#8, 97#8, 98#8, 99#8].length →
      ([97#8, 98#8, 97#8, 98#8, 97#8, 98#8, 99#8] : List Byte)[t]? = [97#8, 98#8, 97#8, 98#8, 97#8, 98#8, 99#8][t + d]? := by
  intro q d h1 h2 h3 h4
  simp only [List.length_cons, List.length_nil] at h1 h3
  have : d = 1 := by omega
  subst this
  exact absurd (h4 0 (by omega)) (by decide)

example : turboBom 300 [97#8, 97#8, 98#8, 97#8, 98#8, 97#8, 98#8, 97#8, 98#8, 99#8] [97#8, 98#8, 97#8, 98#8, 97#8, 98#8, 99#8]
    (some 0#8) (some 0#8) = .ok [3] := by decide +kernel

end Verif.FO
