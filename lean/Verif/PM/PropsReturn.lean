/-
C50-C52 for all bytes: a search that returns at all returns exactly the occurrences. Outside of the domains of `C50_bm`, `C51_qs` and `C52_ms`
the searches can be undefined (an access out of range), but they never return a list with a missing or a wrong position.
-/
import Verif.PM.Props

namespace Verif.PM

/-- C50: the last character of the key may be any byte: it is not entered in the table. -/
theorem C50_last_character (text key : List Byte) (hne : key ≠ []) (hk : ∀ j c, j + 1 < key.length → key[j]? = some c → c.toNat < 128) :
    (∃ r, bm text key = some r ∧ Exact key text r) ∨ (bm text key = none ∧ ∃ c ∈ text, 128 ≤ c.toNat) := by
  have hpos := List.length_pos_iff.2 hne
  obtain ⟨skip, es, hsl, hs⟩ := bmBuildLoop_gen key hk _ 0 (List.replicate 255 key.length) rfl List.length_replicate (by
    intro x d hx
    rw [List.getElem?_replicate] at hx
    split at hx
    · have := Option.some.inj hx
      exact ⟨by omega, by omega, fun j c h => by omega⟩
    · simp at hx)
  unfold bm bmBuild
  rw [if_neg hne]
  simp only [es, Option.bind_eq_bind, Option.bind_some]
  have := bmLoop_gen key text hpos skip hsl hs _ 0 [] (Nat.le_refl _) (Found_zero key text)
  rwa [Nat.zero_add] at this

example := C50_last_character [98#8, 97#8, 200#8] [97#8, 200#8] (by decide) (by
  intro j c h e
  obtain rfl : j = 0 := by simp at h; omega
  simp at e
  rw [← e]
  decide)

/-- C50: for all texts and keys, of any bytes: what the search returns is the list of the occurrences. -/
theorem C50_returns (text key : List Byte) (r : List Nat) (h : bm text key = some r) : Exact key text r := by
  have hne : key ≠ [] := by
    intro e
    rw [e, C50_empty_key_ub] at h
    simp at h
  rcases C50_last_character text key hne (by
    intro j c hj hc
    apply Classical.byContradiction
    intro hn
    rw [C50_key_ub text key j c hj hc (by omega)] at h
    simp at h) with ⟨r', e, hx⟩ | ⟨e, _⟩
  · rw [h] at e
    rw [Option.some.inj e]
    exact hx
  · rw [h] at e
    simp at e

example := C50_returns [98#8, 97#8, 97#8, 97#8] [97#8, 97#8] [1, 2] (by decide +kernel)

/-- C51: for all texts and all non-empty keys, of any bytes: what the search returns is the list of the occurrences. -/
theorem C51_returns (text key : List Byte) (hne : key ≠ []) (r : List Nat) (h : qs text key = some r) : Exact key text r := by
  have hl : key.length ≤ text.length := by
    apply Classical.byContradiction
    intro hn
    rw [C51_short_text_ub text key (by omega)] at h
    simp at h
  have hk : ∀ c ∈ key, c.toNat < 128 := by
    intro c hc
    obtain ⟨j, hj⟩ := List.getElem?_of_mem hc
    apply Classical.byContradiction
    intro hn
    rw [C51_key_ub text key j c hj (by omega)] at h
    simp at h
  obtain ⟨pat, ep, hp⟩ := pattern_spec key
  obtain ⟨td, et, htl, htd⟩ := qsBuild_spec key hk
  unfold qs at h
  simp only [ep, et, Option.bind_eq_bind, Option.bind_some] at h
  rw [if_neg hne] at h
  rcases sundayLoop_gen key text (List.length_pos_iff.2 hne) hl hk pat hp td htl htd none
    (fun pos _ => ⟨0, rfl, fun _ _ _ _ h => by omega⟩) _ 0 [] (Nat.le_refl _) (Found_zero key text) with ⟨r', e, hx⟩ | ⟨e, _⟩
  · rw [h] at e
    rw [Option.some.inj e]
    exact hx
  · rw [h] at e
    simp at e

example := C51_returns [98#8, 97#8, 97#8, 97#8] [97#8, 97#8] (by decide) [1, 2] (by decide +kernel)

/-- C52: the same for the search with the maximal shift. -/
theorem C52_returns (text key : List Byte) (hne : key ≠ []) (r : List Nat) (h : ms text key = some r) : Exact key text r := by
  have hl : key.length ≤ text.length := by
    apply Classical.byContradiction
    intro hn
    rw [C52_short_text_ub text key (by omega)] at h
    simp at h
  have hk : ∀ c ∈ key, c.toNat < 128 := by
    intro c hc
    obtain ⟨j, hj⟩ := List.getElem?_of_mem hc
    apply Classical.byContradiction
    intro hn
    rw [C52_key_ub text key j c hj (by omega)] at h
    simp at h
  have hpos := List.length_pos_iff.2 hne
  obtain ⟨pat, ep, hp⟩ := pattern_spec key
  obtain ⟨td, et, htl, htd⟩ := qsBuild_spec key hk
  obtain ⟨td2, et2, h2⟩ := msBuild_spec key hpos hk pat hp
  unfold ms at h
  simp only [ep, et, et2, Option.bind_eq_bind, Option.bind_some] at h
  rw [if_neg hne] at h
  rcases sundayLoop_gen key text hpos hl hk pat hp td htl htd (some td2) h2 _ 0 [] (Nat.le_refl _) (Found_zero key text)
    with ⟨r', e, hx⟩ | ⟨e, _⟩
  · rw [h] at e
    rw [Option.some.inj e]
    exact hx
  · rw [h] at e
    simp at e

/-- A key that ends with the byte 0xC8 and a text in which the byte 0xC8 stands before the end of the first window only: the search returns. -/
example : bm [200#8, 97#8, 98#8] [97#8, 98#8] = some [1] := by decide +kernel
/-- An occurrence of a key that ends with such a byte is met with the byte at the end of the window, so that the search is undefined. -/
example : bm [97#8, 200#8] [97#8, 200#8] = none := by decide +kernel
example : bm [97#8, 97#8] [97#8, 200#8] = some [] := by decide +kernel
example : ∀ (j : Nat) (c : Byte), j + 1 < [97#8, 200#8].length → ([97#8, 200#8] : List Byte)[j]? = some c → c.toNat < 128 := by
  intro j c hj hc
  obtain rfl : j = 0 := by simp at hj; omega
  obtain rfl : 97#8 = c := by simpa using hc
  decide
/-- Texts with the byte 0xFF for which the other searches return. -/
example : qs [255#8, 97#8, 98#8] [97#8, 98#8] = some [1] ∧ ms [255#8, 97#8, 98#8] [97#8, 98#8] = some [1] := by decide +kernel

end Verif.PM
