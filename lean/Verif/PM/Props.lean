/-
C48-C52: the searches that need no automaton.

`Occ key text i` (Lemmas.lean) says that `i + |key| ≤ |text|` and that the key stands at position `i` of the text.
-/
import Verif.PM.Sunday
import Verif.PM.Kmp

namespace Verif.PM

/-- A result that lists the occurrences, each once, in increasing order. -/
def Exact (key text : List Byte) (r : List Nat) : Prop := r.Pairwise (· < ·) ∧ ∀ i, i ∈ r ↔ Occ key text i

/-! ### C48 -/

/-- C48: for every key, also the empty one, and every text. -/
theorem C48_simple (text key : List Byte) : ∃ r, simple text key = some r ∧ Exact key text r := by
  unfold simple
  by_cases h : text.length < key.length
  · rw [if_pos h]
    refine ⟨[], rfl, .nil, fun i => ?_⟩
    simp only [List.not_mem_nil, false_iff]
    intro ho
    have := ho.1
    omega
  · rw [if_neg h]
    exact simpleLoop_spec key text (by omega) _ 0 [] rfl (Found_zero key text)

example : simple [97#8, 97#8, 98#8, 97#8, 97#8, 98#8] [97#8, 97#8] = some [0, 3] := by decide +kernel
example : Occ [97#8, 97#8] [97#8, 97#8, 98#8, 97#8, 97#8, 98#8] 3 := by unfold Occ; decide
example : simple [97#8, 98#8] [] = some [0, 1, 2] := by decide +kernel

/-! ### C49 -/

/-- C49: whatever follows the occurrences in the text differs from the byte stored after the key. -/
theorem C49_kmp (text key : List Byte) (hne : key ≠ []) (past : Option Byte)
    (hp : ∀ p c, Occ key text p → text[p + key.length]? = some c → ∃ b, past = some b ∧ b ≠ c) :
    ∃ r, kmp text key past = some r ∧ Exact key text r := by
  have hpos := List.length_pos_iff.2 hne
  obtain ⟨next, en, _, hn⟩ := kmpBuild_spec key
  unfold kmp
  simp only [en, Option.bind_eq_bind, Option.bind_some]
  refine kmpLoop_spec key text past hp next hn _ 0 0 [] rfl (by omega) ⟨by omega, by omega, fun t ht => by omega⟩
    (fun k hk => by have := hk.1; omega) ?_
  rw [show 0 + 1 - key.length = 0 by omega]
  exact Found_zero key text

example := C49_kmp [98#8, 97#8, 97#8, 97#8] [97#8, 97#8] (by decide) (some 0#8) (by
  intro p c _ h
  refine ⟨0#8, rfl, ?_⟩
  have := List.mem_of_getElem? h
  simp at this
  rcases this with rfl | rfl <;> decide)

/-- C49: in particular when the byte after the key (NUL for a `std::string`) does not occur in the text. -/
theorem C49_kmp_terminated (text key : List Byte) (hne : key ≠ []) (b : Byte) (hb : b ∉ text) :
    ∃ r, kmp text key (some b) = some r ∧ Exact key text r :=
  C49_kmp text key hne (some b) (fun _ _ _ hc => ⟨b, rfl, fun h => hb (h ▸ List.mem_of_getElem? hc)⟩)

example := C49_kmp_terminated [98#8, 97#8, 97#8, 97#8] [97#8, 97#8] (by decide) 0#8 (by decide)

/-- C49: strictly, the byte after the key must not be read, and the search is undefined exactly when an occurrence ends before the end of
the text. -/
theorem C49_strict_ub (text key : List Byte) (hne : key ≠ []) :
    kmp text key none = none ↔ ∃ p, Occ key text p ∧ p + key.length < text.length := by
  constructor
  · intro h
    apply Classical.byContradiction
    intro hno
    obtain ⟨r, er, _⟩ := C49_kmp text key hne none (by
      intro p c ho hc
      obtain ⟨hl, _⟩ := List.getElem?_eq_some_iff.1 hc
      exact absurd ⟨p, ho, hl⟩ hno)
    rw [er] at h
    simp at h
  · rintro ⟨q, hq, hqt⟩
    obtain ⟨next, en, _, hn⟩ := kmpBuild_spec key
    unfold kmp
    simp only [en, Option.bind_eq_bind, Option.bind_some]
    exact kmpLoop_ub key text next hn q hq hqt _ 0 0 [] rfl (by omega) ⟨by omega, by omega, fun t ht => by omega⟩
      (fun k hk => by have := hk.1; omega)

example := C49_strict_ub [98#8, 97#8, 97#8, 97#8] [97#8, 97#8] (by decide)

/-- C49: if the byte after the key follows an occurrence, the result can be wrong: for the key "a" followed by "b"
in memory the search in "aba" runs past that byte and does not get to the occurrence at 2. -/
theorem C49_past_byte : kmp [97#8, 98#8, 97#8] [97#8] (some 98#8) = none ∧ Occ [97#8] [97#8, 98#8, 97#8] 2 := by
  refine ⟨by decide +kernel, ?_⟩
  unfold Occ; decide

/-- C49: the empty key is found at every position but the first. -/
theorem C49_empty_key : kmp [97#8, 98#8] [] (some 0#8) = some [1, 2] ∧ Occ [] [97#8, 98#8] 0 := by
  refine ⟨by decide +kernel, ?_⟩
  unfold Occ; decide

example : kmp [97#8, 97#8, 98#8, 97#8, 97#8, 98#8, 97#8, 97#8] [97#8, 97#8, 98#8, 97#8, 97#8] (some 0#8) = some [0, 3] := by
  decide +kernel
example : [97#8, 97#8, 98#8, 97#8, 97#8] ≠ ([] : List Byte) ∧ 0#8 ∉ [97#8, 97#8, 98#8, 97#8, 97#8, 98#8, 97#8, 97#8] := by decide
example : kmp [98#8, 97#8, 97#8] [97#8, 97#8] none = some [1] := by decide +kernel

/-! ### C50 -/

/-- C50: for texts and non-empty keys of bytes below 0x80. -/
theorem C50_bm (text key : List Byte) (hne : key ≠ []) (hk : ∀ c ∈ key, c.toNat < 128) (ht : ∀ c ∈ text, c.toNat < 128) :
    ∃ r, bm text key = some r ∧ Exact key text r := by
  have hpos := List.length_pos_iff.2 hne
  obtain ⟨skip, es, hsl, hs⟩ := bmBuildLoop_spec key hk _ 0 (List.replicate 255 key.length) rfl List.length_replicate (by
    intro x d hx
    rw [List.getElem?_replicate] at hx
    split at hx
    · have := Option.some.inj hx
      exact ⟨by omega, by omega, fun j c h => by omega⟩
    · simp at hx)
  unfold bm bmBuild
  rw [if_neg hne]
  simp only [es, Option.bind_eq_bind, Option.bind_some]
  have := bmLoop_spec key text hpos ht skip hsl hs _ 0 [] (Nat.le_refl _) (Found_zero key text)
  rwa [Nat.zero_add] at this

example := C50_bm [98#8, 97#8, 97#8, 97#8] [97#8, 97#8] (by decide) (by decide) (by decide)

theorem bmBuildLoop_ub (key : List Byte) (j : Nat) (c : Byte) (hj : j + 1 < key.length) (hc : key[j]? = some c) (h : 128 ≤ c.toNat) :
    ∀ (k i : Nat) (skip : List Nat), j - i = k → i ≤ j → bmBuildLoop key i skip = none := by
  intro k
  induction k with
  | zero =>
    intro i skip hk hi
    have : i = j := by omega
    subst this
    unfold bmBuildLoop
    rw [dif_pos (by omega)]
    simp only [hc, Option.bind_eq_bind, Option.bind_some]
    unfold charIndex
    rw [if_neg (by omega)]
    rfl
  | succ k ih =>
    intro i skip hk hi
    unfold bmBuildLoop
    rw [dif_pos (by omega)]
    cases h1 : key[i]? with
    | none => rfl
    | some a =>
      cases h2 : charIndex a with
      | none => simp [h2]
      | some x =>
        cases h3 : wr skip x (key.length - i - 1) with
        | none => simp [h2, h3]
        | some t =>
          simp only [Option.bind_eq_bind, Option.bind_some, h2, h3]
          exact ih (i + 1) t (by omega) (by omega)

/-- C50: outside of this domain the behaviour is undefined: for an empty key, ... -/
theorem C50_empty_key_ub (text : List Byte) : bm text [] = none := rfl

/-- C50: ... for a key with a byte from 0x80 on before its last character, ... -/
theorem C50_key_ub (text key : List Byte) (j : Nat) (c : Byte) (hj : j + 1 < key.length) (hc : key[j]? = some c) (h : 128 ≤ c.toNat) :
    bm text key = none := by
  unfold bm bmBuild
  rw [if_neg (by intro e; rw [e] at hj; simp at hj), bmBuildLoop_ub key j c hj hc h _ 0 _ rfl (by omega)]
  rfl

example := C50_key_ub [98#8, 97#8, 97#8] [200#8, 97#8] 0 200#8 (by decide) rfl (by decide)

/-- C50: ... and for a text with such a byte at the end of a window. -/
theorem C50_text_ub (text key : List Byte) (c : Byte) (hc : text[key.length - 1]? = some c) (h : 128 ≤ c.toNat) : bm text key = none := by
  unfold bm
  cases h1 : bmBuild key with
  | none => rfl
  | some skip =>
    simp only [Option.bind_eq_bind, Option.bind_some]
    unfold bmLoop
    obtain ⟨hl, _⟩ := List.getElem?_eq_some_iff.1 hc
    rw [dif_pos hl]
    cases bmBack key text key.length (key.length - 1 + 1) with
    | none => rfl
    | some x =>
      simp only [hc, Option.bind_some]
      unfold charIndex
      rw [if_neg (by omega)]

example : bm [97#8, 97#8, 98#8, 97#8, 97#8, 98#8] [97#8, 97#8, 98#8] = some [0, 3] := by decide +kernel
example : [97#8, 97#8, 98#8] ≠ ([] : List Byte) ∧ (∀ c ∈ [97#8, 97#8, 98#8], c.toNat < 128) := by decide
example : [200#8, 97#8][0]? = some 200#8 ∧ 128 ≤ (200#8).toNat ∧ 0 + 1 < [200#8, 97#8].length := by decide
example : [97#8, 200#8][[97#8, 98#8].length - 1]? = some 200#8 := by decide

/-! ### C51 -/

/-- C51: for non-empty keys of bytes below 0x80 and texts that are at least as long and do not contain the byte 0xFF. -/
theorem C51_qs (text key : List Byte) (hne : key ≠ []) (hl : key.length ≤ text.length) (hk : ∀ c ∈ key, c.toNat < 128)
    (ht : ∀ c ∈ text, c.toNat < 255) : ∃ r, qs text key = some r ∧ Exact key text r := by
  obtain ⟨pat, ep, hp⟩ := pattern_spec key
  obtain ⟨td, et, htl, htd⟩ := qsBuild_spec key hk
  unfold qs
  simp only [ep, et, Option.bind_eq_bind, Option.bind_some]
  rw [if_neg hne]
  exact sundayLoop_spec key text (List.length_pos_iff.2 hne) hl hk ht pat hp td htl htd none
    (fun pos _ => ⟨0, rfl, fun _ _ _ _ h => by omega⟩) _ 0 [] (Nat.le_refl _) (Found_zero key text)

example := C51_qs [98#8, 200#8, 97#8, 97#8] [97#8, 97#8] (by decide) (by decide) (by decide) (by decide)

theorem sunday_short (text key : List Byte) (h : text.length < key.length) (pat : List (Nat × Byte)) (td1 : List Nat)
    (td2 : Option (List Nat)) (acc : List Nat) : sundayLoop key pat td1 td2 text 0 acc = none := by
  unfold sundayLoop
  rw [dif_pos (Nat.zero_le _)]
  cases sundayScan key.length pat text 0 0 with
  | none => rfl
  | some pos =>
    simp only
    rw [if_neg (by omega), List.getElem?_eq_none (by omega)]

theorem qsBuildLoop_ub (key : List Byte) (j : Nat) (c : Byte) (hc : key[j]? = some c) (h : 128 ≤ c.toNat) :
    ∀ (k i : Nat) (td : List Nat), j - i = k → i ≤ j → qsBuildLoop key i td = none := by
  obtain ⟨hj, _⟩ := List.getElem?_eq_some_iff.1 hc
  intro k
  induction k with
  | zero =>
    intro i td hk hi
    have : i = j := by omega
    subst this
    unfold qsBuildLoop
    rw [dif_pos (by omega)]
    simp only [hc, Option.bind_eq_bind, Option.bind_some]
    unfold charIndex
    rw [if_neg (by omega)]
    rfl
  | succ k ih =>
    intro i td hk hi
    unfold qsBuildLoop
    rw [dif_pos (by omega)]
    cases h1 : key[i]? with
    | none => rfl
    | some a =>
      cases h2 : charIndex a with
      | none => simp [h2]
      | some x =>
        cases h3 : wr td x (key.length - i) with
        | none => simp [h2, h3]
        | some t =>
          simp only [Option.bind_eq_bind, Option.bind_some, h2, h3]
          exact ih (i + 1) t (by omega) (by omega)

/-- C51: with a text shorter than the key the bound wraps around and the text is read out of range. -/
theorem C51_short_text_ub (text key : List Byte) (h : text.length < key.length) : qs text key = none := by
  unfold qs
  cases pattern key with
  | none => rfl
  | some pat =>
    cases qsBuild key with
    | none => rfl
    | some td =>
      simp only [Option.bind_eq_bind, Option.bind_some]
      rw [if_neg (by intro e; rw [e] at h; simp at h)]
      exact sunday_short text key h pat td none []

example := C51_short_text_ub [98#8] [97#8, 97#8] (by decide)

/-- C51: a key with a byte from 0x80 on is undefined, and so is the byte 0xFF in the text after a window. -/
theorem C51_key_ub (text key : List Byte) (j : Nat) (c : Byte) (hc : key[j]? = some c) (h : 128 ≤ c.toNat) : qs text key = none := by
  unfold qs qsBuild
  rw [qsBuildLoop_ub key j c hc h _ 0 _ rfl (by omega)]
  cases pattern key <;> rfl

example := C51_key_ub [98#8, 97#8, 97#8] [97#8, 200#8] 1 200#8 rfl (by decide)

theorem C51_text_ub : qs [97#8, 255#8, 97#8] [97#8] = none := by decide +kernel

example : qs [97#8, 97#8, 98#8, 200#8, 97#8, 97#8, 98#8] [97#8, 97#8, 98#8] = some [0, 4] := by decide +kernel
example : [97#8, 97#8, 98#8] ≠ ([] : List Byte) ∧ (∀ c ∈ [97#8, 97#8, 98#8], c.toNat < 128) ∧
    (∀ c ∈ [97#8, 97#8, 98#8, 200#8, 97#8, 97#8, 98#8], c.toNat < 255) ∧
    [97#8, 97#8, 98#8].length ≤ [97#8, 97#8, 98#8, 200#8, 97#8, 97#8, 98#8].length := by decide

/-! ### C52 -/

/-- C52: the same for the search with the maximal shift. -/
theorem C52_ms (text key : List Byte) (hne : key ≠ []) (hl : key.length ≤ text.length) (hk : ∀ c ∈ key, c.toNat < 128)
    (ht : ∀ c ∈ text, c.toNat < 255) : ∃ r, ms text key = some r ∧ Exact key text r := by
  have hpos := List.length_pos_iff.2 hne
  obtain ⟨pat, ep, hp⟩ := pattern_spec key
  obtain ⟨td, et, htl, htd⟩ := qsBuild_spec key hk
  obtain ⟨td2, et2, h2⟩ := msBuild_spec key hpos hk pat hp
  unfold ms
  simp only [ep, et, et2, Option.bind_eq_bind, Option.bind_some]
  rw [if_neg hne]
  exact sundayLoop_spec key text hpos hl hk ht pat hp td htl htd (some td2) h2 _ 0 [] (Nat.le_refl _) (Found_zero key text)

example := C52_ms [98#8, 200#8, 97#8, 97#8] [97#8, 97#8] (by decide) (by decide) (by decide) (by decide)

/-- C52: a text shorter than the key is undefined. -/
theorem C52_short_text_ub (text key : List Byte) (h : text.length < key.length) : ms text key = none := by
  unfold ms
  cases pattern key with
  | none => rfl
  | some pat =>
    cases qsBuild key with
    | none => rfl
    | some td =>
      cases h2 : msBuild key pat with
      | none => simp [h2]
      | some td2 =>
        simp only [h2, Option.bind_eq_bind, Option.bind_some]
        rw [if_neg (by intro e; rw [e] at h; simp at h)]
        exact sunday_short text key h pat td (some td2) []

example := C52_short_text_ub [98#8] [97#8, 97#8] (by decide)

/-- C52: and so is a key with a byte from 0x80 on. -/
theorem C52_key_ub (text key : List Byte) (j : Nat) (c : Byte) (hc : key[j]? = some c) (h : 128 ≤ c.toNat) : ms text key = none := by
  unfold ms qsBuild
  rw [qsBuildLoop_ub key j c hc h _ 0 _ rfl (by omega)]
  cases pattern key <;> rfl

example : ms [97#8, 97#8, 98#8, 97#8, 97#8, 98#8, 97#8] [97#8, 98#8, 97#8] = some [1, 4] := by decide +kernel
example : [97#8].length < [97#8, 98#8].length ∧ [97#8, 128#8][1]? = some 128#8 ∧ 128 ≤ (128#8).toNat := by decide

end Verif.PM
