/-
Property theorems C101: the searches are interchangeable.
-/
import Verif.FO.PropsTurbo

namespace Verif.FO

open PM (Byte Occ Exact)

/-- Two lists of the occurrences in increasing order are the same list. -/
theorem exact_unique {key text : List Byte} {r s : List Nat} (hr : Exact key text r) (hs : Exact key text s) : r = s := by
  have h : r.Perm s := (List.perm_ext_iff_of_nodup (hr.1.imp Nat.ne_of_lt) (hs.1.imp Nat.ne_of_lt)).2 (fun i => (hr.2 i).trans (hs.2 i).symm)
  exact h.eq_of_pairwise (fun a b _ _ h1 h2 => by omega) hr.1 hs.1

/-- C101: in an ASCII text without NUL, for a non-empty key that is not longer than the text, with a NUL after the key and after the array of
the oracle, the five searches without an oracle return the same list; so does BOM if its construction ends. -/
theorem C101_same (fuel : Nat) (text key : List Byte) (hne : key ≠ []) (hl : key.length ≤ text.length)
    (hk : ∀ c ∈ key, 0 < c.toNat ∧ c.toNat < 128) (ht : ∀ c ∈ text, 0 < c.toNat ∧ c.toNat < 128) :
    ∃ r, PM.simple text key = some r ∧ PM.kmp text key (some 0#8) = some r ∧ PM.bm text key = some r ∧ PM.qs text key = some r ∧
      PM.ms text key = some r ∧ (bom fuel text key (some 0#8) = .stop ∨ bom fuel text key (some 0#8) = .ok r) := by
  have hz : 0#8 ∉ text := fun h => by simpa using (ht _ h).1
  have hkz : ∀ c ∈ key, c ≠ 0#8 := fun c hc e => by subst e; simpa using (hk _ hc).1
  obtain ⟨r, e0, h0⟩ := PM.C48_simple text key
  obtain ⟨r1, e1, h1⟩ := PM.C49_kmp_terminated text key hne 0#8 hz
  obtain ⟨r2, e2, h2⟩ := PM.C50_bm text key hne (fun c hc => (hk c hc).2) (fun c hc => (ht c hc).2)
  obtain ⟨r3, e3, h3⟩ := PM.C51_qs text key hne hl (fun c hc => (hk c hc).2) (fun c hc => by have := (ht c hc).2; omega)
  obtain ⟨r4, e4, h4⟩ := PM.C52_ms text key hne hl (fun c hc => (hk c hc).2) (fun c hc => by have := (ht c hc).2; omega)
  refine ⟨r, e0, by rw [e1, exact_unique h1 h0], by rw [e2, exact_unique h2 h0], by rw [e3, exact_unique h3 h0], by rw [e4, exact_unique h4 h0], ?_⟩
  rcases C55_bom_partial fuel text key hne hkz 0#8 hz with h | ⟨r5, e5, h5⟩
  · exact .inl h
  · exact .inr (by rw [e5, exact_unique h5 h0])

example := C101_same 300 [98#8, 97#8, 98#8, 99#8] [97#8, 98#8, 99#8] (by decide) (by decide) (by decide) (by decide)

/-- C101: for keys of at most 23 characters the search with BOM ends too, and Turbo-BOM returns a part of the same list, in the same order. -/
theorem C101_short (text key : List Byte) (hne : key ≠ []) (hm : key.length ≤ 23) (hl : key.length ≤ text.length)
    (hk : ∀ c ∈ key, 0 < c.toNat ∧ c.toNat < 128) (ht : ∀ c ∈ text, 0 < c.toNat ∧ c.toNat < 128) (fuel : Nat) (hf : 2 ^ 32 + 1 ≤ fuel) :
    ∃ r s, PM.simple text key = some r ∧ PM.kmp text key (some 0#8) = some r ∧ PM.bm text key = some r ∧ PM.qs text key = some r ∧
      PM.ms text key = some r ∧ bom fuel text key (some 0#8) = .ok r ∧ turboBom fuel text key (some 0#8) (some 0#8) = .ok s ∧ s.Sublist r ∧
      (key.length ≤ 5 → s = r) := by
  have hz : 0#8 ∉ text := fun h => by simpa using (ht _ h).1
  have hkz : ∀ c ∈ key, c ≠ 0#8 := fun c hc e => by subst e; simpa using (hk _ hc).1
  have hp := List.length_pos_iff.2 hne
  obtain ⟨r, e0, e1, e2, e3, e4, h5⟩ := C101_same fuel text key hne hl hk ht
  obtain ⟨r', e0', h0⟩ := PM.C48_simple text key
  obtain rfl : r = r' := by rw [e0] at e0'; simpa using e0'
  obtain ⟨r5, e5, _⟩ := C55_short text key hne hkz hm 0#8 hz fuel hf
  have e5' : bom fuel text key (some 0#8) = .ok r := by
    rcases h5 with h | h
    · rw [e5] at h; cases h
    · exact h
  obtain ⟨s, es, h6, h7⟩ := C56_ends text key key hne hkz (fun c hc => hc) (by
    have h1 : key.length * (key.length - 2) ≤ 23 * 21 := Nat.mul_le_mul (by omega) (by omega)
    omega) (by omega) 0#8 0#8 hz hz fuel hf
  refine ⟨r, s, e0, e1, e2, e3, e4, e5', es, ?_, fun h5 => ?_⟩
  · have hp6 : s.Perm (r.filter (· ∈ s)) := (List.perm_ext_iff_of_nodup (h6.imp Nat.ne_of_lt) ((h0.1.filter _).imp Nat.ne_of_lt)).2 (fun i => by
      rw [List.mem_filter, decide_eq_true_iff]
      exact ⟨fun hi => ⟨(h0.2 i).2 (h7 i hi), hi⟩, fun hi => hi.2⟩)
    rw [hp6.eq_of_pairwise (fun a b _ _ h1 h2 => by omega) h6 (h0.1.filter _)]
    exact List.filter_sublist
  · rcases C56_complete_short fuel text key hne h5 hkz 0#8 0#8 hz hz with h | ⟨s', es', h8, h9⟩
    · rw [es] at h; cases h
    · obtain rfl : s = s' := by rw [es] at es'; simpa using es'
      exact exact_unique ⟨h8, h9⟩ h0

example := C101_short [98#8, 97#8, 98#8, 99#8] [97#8, 98#8, 99#8] (by decide) (by decide) (by decide) (by decide) (by decide) _ (Nat.le_refl _)

/-- A text and a key that meet the hypotheses; the list is 0, 3. -/
example : ([97#8, 97#8] : List Byte) ≠ [] ∧ [97#8, 97#8].length ≤ [97#8, 97#8, 98#8, 97#8, 97#8, 98#8].length ∧
    (∀ c ∈ [97#8, 97#8], 0 < c.toNat ∧ c.toNat < 128) ∧ (∀ c ∈ [97#8, 97#8, 98#8, 97#8, 97#8, 98#8], 0 < c.toNat ∧ c.toNat < 128) ∧
    PM.simple [97#8, 97#8, 98#8, 97#8, 97#8, 98#8] [97#8, 97#8] = some [0, 3] := by
  decide +kernel

end Verif.FO
