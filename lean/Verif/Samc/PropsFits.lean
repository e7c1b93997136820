/-
Property theorems C59, C60, C61, C67 (Samc and SamcDict), continued: the exact condition on the code type.

The construction with 64-bit codes has some number of places. A narrower code type gives the same object if that number is below `2^W`; otherwise
the constructor writes out of range.
-/
import Verif.Samc.Fits
import Verif.Samc.PropsAccess

namespace Verif.Samc
open Verif.BV Verif.Serial
open Verif.Bits (W64)

/-! ### C59 -/

/-- With codes of `W` bits the constructor is defined exactly if the number of places of the object with 64-bit codes is below `2^W`. Then it gives the
same object, which accepts exactly the keys. -/
theorem C59_fits (W : Nat) (legacy : Bool) (hW1 : 1 ≤ W) (hW : W ≤ 64) (keys : List Key) (hne : keys ≠ []) (hnul : ∀ k ∈ keys, (0 : Byte) ∉ k)
    (L : Nat) (hL : ∀ k ∈ keys, k.length ≤ L) (hbig : (L + 2) * (1 + (L + 1) * (keys.length * keys.length)) < 2 ^ 64) :
    ∃ s, build 64 legacy keys = some s ∧ (build W legacy keys = if s.storage.length < 2 ^ W then some s else none) ∧
      ∀ q : Key, (0 : Byte) ∉ q → s.accept q = some (decide (q ∈ keys)) := by
  obtain ⟨L', s, hle, es, ok, hL', hf⟩ := build_fits (W := W) (legacy := legacy) hne hnul hW1 hW hL hbig
  obtain ⟨s', es', ha⟩ := C59_accept 64 legacy (Nat.le_refl _) keys hne hnul L hL hbig
  obtain rfl : s = s' := Option.some.inj (es.symm.trans es')
  exact ⟨s, es, hf, ha⟩

/-- Whatever the code type: if the constructor is defined at all, the object accepts exactly the keys. -/
theorem C59_defined (W : Nat) (legacy : Bool) (hW1 : 1 ≤ W) (hW : W ≤ 64) (keys : List Key) (hnul : ∀ k ∈ keys, (0 : Byte) ∉ k)
    (L : Nat) (hL : ∀ k ∈ keys, k.length ≤ L) (hbig : (L + 2) * (1 + (L + 1) * (keys.length * keys.length)) < 2 ^ 64)
    (s : Samc) (hs : build W legacy keys = some s) : ∀ q : Key, (0 : Byte) ∉ q → s.accept q = some (decide (q ∈ keys)) := by
  have hne : keys ≠ [] := by
    rintro rfl
    rw [C59_empty_ub] at hs
    simp at hs
  obtain ⟨s', es', hf, ha⟩ := C59_fits W legacy hW1 hW keys hne hnul L hL hbig
  rw [hf] at hs
  split at hs
  · cases hs; exact ha
  · simp at hs

/-- 12 keys of one byte. -/
def twelve : List Key := (List.range 12).map fun i => [BitVec.ofNat 8 (i + 60)]

/-- 12 keys of one byte fit codes of 8 bits, though the bound of `C59_accept` does not hold. -/
example : ∃ s, build 8 false twelve = some s ∧ s.storage.length = 25 ∧ ¬ (1 + 2) * (1 + (1 + 1) * (twelve.length * twelve.length)) < 2 ^ 8 ∧
    ∀ q : Key, (0 : Byte) ∉ q → s.accept q = some (decide (q ∈ twelve)) := by
  obtain ⟨s, es, hf, ha⟩ := C59_fits 8 false (by decide) (by decide) twelve (by decide) (by decide) 1 (by decide) (by decide)
  have hl : (build 64 false twelve).map (fun s => s.storage.length) = some 25 := by decide +kernel
  rw [es, Option.map_some, Option.some.injEq] at hl
  rw [if_pos (by omega)] at hf
  exact ⟨s, hf, hl, by decide, ha⟩

/-- Every key has its own place, and the root one more. -/
theorem keys_lt_places {W : Nat} {keys : List Key} {L : Nat} {s : Samc} (ok : Ok W keys L s) (hL : ∀ k ∈ keys, k.length ≤ L) (hnul : ∀ k ∈ keys, 0 ∉ k) :
    keys.dedup.length < s.storage.length := by
  obtain ⟨t, v, l, P, et, rfl, d⟩ := setup_spec ok hL hnul
  have h6 := ok.slen
  have h7 := d.len
  rw [← ones_count d, ← h7]
  have h0 : 0 < l.length := by
    have := mono_le ok.mono 1 (L + 2) (by omega) (by omega)
    rw [ok.start.2] at this
    omega
  have hn : ¬ l[0]? = some true := by
    rw [d.ones, d.perm, List.mem_map]
    rintro ⟨k, hk, he⟩
    have hp : Path keys (ext k) := ⟨k, List.mem_dedup.1 hk, List.prefix_rfl⟩
    have i1 := (ok.inside _ hp).1
    have := mono_le ok.mono 1 (ext k).length (by simp [ext]) (by have := hp.length_le hL; omega)
    rw [ok.start.2] at this
    omega
  refine Nat.lt_of_le_of_ne List.count_le_length (fun hc => hn ?_)
  have := List.count_eq_length.1 hc
  rw [List.getElem?_eq_getElem h0, ← this _ (List.getElem_mem h0)]

/-- As many different keys as the code type has values are too many: the constructor writes out of range. -/
theorem C59_narrow_ub (W : Nat) (legacy : Bool) (hW1 : 1 ≤ W) (hW : W ≤ 64) (keys : List Key) (hnul : ∀ k ∈ keys, (0 : Byte) ∉ k)
    (L : Nat) (hL : ∀ k ∈ keys, k.length ≤ L) (hbig : (L + 2) * (1 + (L + 1) * (keys.length * keys.length)) < 2 ^ 64)
    (hn : 2 ^ W ≤ keys.dedup.length) : build W legacy keys = none := by
  by_cases hne : keys = []
  · rw [hne]
    exact C59_empty_ub W legacy
  · obtain ⟨L', s, hle, es, ok, hL', hf⟩ := build_fits (W := W) (legacy := legacy) hne hnul hW1 hW hL hbig
    have := keys_lt_places ok hL' hnul
    rw [hf, if_neg (by omega)]

/-- 513 keys do not fit codes of 8 bits. -/
example : build 8 false twoByte = none := by
  have hl : twoByte.length = 513 := by simp [twoByte]
  refine C59_narrow_ub 8 false (by decide) (by decide) twoByte (fun k hk => (twoByte_length k hk).2) 2 (fun k hk => by rw [(twoByte_length k hk).1])
    (by rw [hl]; decide) ?_
  rw [List.dedup_eq_self.2 twoByte_nodup, hl]
  decide

/-! ### C60 -/

theorem buildDict_fits {W : Nat} {keys : List Key} (hne : keys ≠ []) (hnul : ∀ k ∈ keys, 0 ∉ k) (hW1 : 1 ≤ W) (hW : W ≤ 64)
    {L : Nat} (hL : ∀ k ∈ keys, k.length ≤ L) (hbig : (L + 2) * (1 + (L + 1) * (keys.length * keys.length)) < 2 ^ 64) :
    ∃ L' t v l P, L' ≤ L ∧ buildDict 64 keys = some t ∧ Ok 64 keys L' t.samc ∧ (∀ k ∈ keys, k.length ≤ L') ∧ DOk keys t v l P ∧
      buildDict W keys = if t.samc.storage.length < 2 ^ W then some t else none := by
  obtain ⟨L', s, hle, es, ok, l1, hf⟩ := build_fits (W := W) (legacy := false) hne hnul hW1 hW hL hbig
  obtain ⟨t, v, l, P, et, rfl, d⟩ := setup_spec ok l1 hnul
  refine ⟨L', t, v, l, P, hle, by simp only [buildDict, es, Option.bind_eq_bind, Option.bind_some, et], ok, l1, d, ?_⟩
  simp only [buildDict, hf, Option.bind_eq_bind]
  split
  · rw [Option.bind_some, et]
  · rfl

/-- The same for the dictionary: `lookup` numbers the different keys and reports all other strings as missing. -/
theorem C60_fits (W : Nat) (hW1 : 1 ≤ W) (hW : W ≤ 64) (keys : List Key) (hne : keys ≠ []) (hnul : ∀ k ∈ keys, (0 : Byte) ∉ k)
    (L : Nat) (hL : ∀ k ∈ keys, k.length ≤ L) (hbig : (L + 2) * (1 + (L + 1) * (keys.length * keys.length)) < 2 ^ 64) :
    ∃ t, buildDict 64 keys = some t ∧ (buildDict W keys = if t.samc.storage.length < 2 ^ W then some t else none) ∧
      (∀ k ∈ keys, ∃ i, t.lookup k = some i ∧ i < keys.dedup.length ∧ i ≠ searchError) ∧
      (∀ k ∈ keys, ∀ k' ∈ keys, t.lookup k = t.lookup k' → k = k') ∧
      (∀ i, i < keys.dedup.length → ∃ k ∈ keys, t.lookup k = some i) ∧
      (∀ q : Key, (0 : Byte) ∉ q → q ∉ keys → t.lookup q = some searchError) := by
  obtain ⟨L', t, v, l, P, hle, et, ok, hL', d, hf⟩ := buildDict_fits (W := W) hne hnul hW1 hW hL hbig
  obtain ⟨t', et', h⟩ := C60_lookup 64 (Nat.le_refl _) keys hne hnul L hL hbig
  obtain rfl : t = t' := Option.some.inj (et.symm.trans et')
  exact ⟨t, et, hf, h⟩

example : ∃ t, buildDict 8 twelve = some t ∧ ∀ i, i < twelve.dedup.length → ∃ k ∈ twelve, t.lookup k = some i := by
  obtain ⟨t, et, hf, _, _, h, _⟩ := C60_fits 8 (by decide) (by decide) twelve (by decide) (by decide) 1 (by decide) (by decide)
  have hl : (buildDict 64 twelve).map (fun t => t.samc.storage.length) = some 25 := by decide +kernel
  rw [et, Option.map_some, Option.some.injEq] at hl
  rw [if_pos (by omega)] at hf
  exact ⟨t, hf, h⟩

/-! ### C61 -/

/-- BMI2 build, whatever the code type: if the dictionary is constructed and has fewer than `2^41` places (true of every type of at most 41 bits), there is
a multiple `K ≥ 512` of 512 such that `access` gives back the key with the id for the ids below `K`, and reads out of range for the fewer than 512 ids
from `K` on. Missing: these (see `C61_access_refuted`). -/
theorem C61_fits_partial (W : Nat) (hW1 : 1 ≤ W) (hW : W ≤ 64) (keys : List Key) (hne : keys ≠ []) (hnul : ∀ k ∈ keys, (0 : Byte) ∉ k)
    (L : Nat) (hL : ∀ k ∈ keys, k.length ≤ L) (hbig : (L + 2) * (1 + (L + 1) * (keys.length * keys.length)) < 2 ^ 64)
    (t : Dict) (ht : buildDict W keys = some t) (hsz : t.samc.storage.length < 2 ^ 41) :
    ∃ K, 512 ≤ K ∧ K % 512 = 0 ∧ keys.dedup.length < K + 512 ∧ ∀ i, i < keys.dedup.length →
      (i < K → ∃ k ∈ keys, t.access Bits.Hw.sel i = some k ∧ t.lookup k = some i) ∧ (K ≤ i → t.access Bits.Hw.sel i = none) := by
  obtain ⟨L', t', v, l, P, hle, et, ok, hL', d, hf⟩ := buildDict_fits (W := W) hne hnul hW1 hW hL hbig
  rw [hf] at ht
  split at ht
  · cases ht
    exact access_threshold ok (Nat.le_refl _) hL' hne hnul d hsz
  · simp at ht

/-- Portable build, whatever the code type, fewer than 16 different keys: every id is read back. Missing: more keys (see C07). -/
theorem C61_fits_portable_partial (W : Nat) (hW1 : 1 ≤ W) (hW : W ≤ 64) (keys : List Key) (hne : keys ≠ []) (hnul : ∀ k ∈ keys, (0 : Byte) ∉ k)
    (L : Nat) (hL : ∀ k ∈ keys, k.length ≤ L) (hbig : (L + 2) * (1 + (L + 1) * (keys.length * keys.length)) < 2 ^ 64)
    (t : Dict) (ht : buildDict W keys = some t) (hsz : t.samc.storage.length < 2 ^ 41) (hn : keys.dedup.length < 16) :
    ∀ i, i < keys.dedup.length → ∃ k ∈ keys, t.access Bits.sel i = some k ∧ t.lookup k = some i := by
  obtain ⟨L', t', v, l, P, hle, et, ok, hL', d, hf⟩ := buildDict_fits (W := W) hne hnul hW1 hW hL hbig
  rw [hf] at ht
  split at ht
  · cases ht
    exact access_few ok (Nat.le_refl _) hL' hne hnul d hsz et hn
  · simp at ht

example : ∃ t K, buildDict 8 twelve = some t ∧ 512 ≤ K ∧ K % 512 = 0 ∧ twelve.dedup.length < K + 512 ∧ ∀ i, i < twelve.dedup.length →
    (i < K → ∃ k ∈ twelve, t.access Bits.Hw.sel i = some k ∧ t.lookup k = some i) ∧ (K ≤ i → t.access Bits.Hw.sel i = none) := by
  have hl : (buildDict 8 twelve).map (fun t => t.samc.storage.length) = some 25 := by decide +kernel
  obtain ⟨t, et, hl⟩ := Option.map_eq_some_iff.1 hl
  obtain ⟨K, h⟩ := C61_fits_partial 8 (by decide) (by decide) twelve (by decide) (by decide) 1 (by decide) (by decide) t et (by omega)
  exact ⟨t, K, et, h⟩

example : ∃ t, buildDict 8 sample = some t ∧ ∀ i, i < sample.dedup.length → ∃ k ∈ sample, t.access Bits.sel i = some k ∧ t.lookup k = some i := by
  have hl : (buildDict 8 sample).map (fun t => decide (t.samc.storage.length < 100)) = some true := by decide +kernel
  obtain ⟨t, et, hl⟩ := Option.map_eq_some_iff.1 hl
  have hl := of_decide_eq_true hl
  exact ⟨t, et, C61_fits_portable_partial 8 (by decide) (by decide) sample (by decide) (by decide) 2 (by decide) (by decide) t et (by omega) (by decide)⟩

/-! ### C67 -/

theorem fits_roundtrip {W : Nat} {keys : List Key} {L L' : Nat} {s : Samc} (ok : Ok 64 keys L' s) (hne : keys ≠ []) (h8 : W % 8 = 0) (hW : W ≤ 64)
    (hle : L' ≤ L) (hL' : ∀ k ∈ keys, k.length ≤ L') (hbig : (L + 2) * (1 + (L + 1) * (keys.length * keys.length)) < 2 ^ 64)
    (hfit : s.storage.length < 2 ^ W) (st : Stream) :
    read W (s.write W ++ st) = some (s, st) ∧ (s.write W).length = s.sizeInBytes W := by
  have hW64 : 2 ^ W ≤ 2 ^ 64 := Nat.pow_le_pow_right (by decide) hW
  have hL2 : L' + 3 < 2 ^ 64 := by
    have hn : 1 ≤ keys.length := List.length_pos_iff.2 hne
    have h1 : 1 ≤ (L + 1) * (keys.length * keys.length) := Nat.mul_pos (by omega) (Nat.mul_pos hn hn)
    have : (L + 2) * 2 ≤ (L + 2) * (1 + (L + 1) * (keys.length * keys.length)) := Nat.mul_le_mul_left _ (by omega)
    omega
  refine samc_roundtrip h8 (fun row hr => ⟨ok.rows row hr, fun x hx => Nat.lt_trans (ok.code_lt hL' row hr x hx) hfit⟩) ?_
    (by rw [ok.clen]; omega) (by rw [ok.hlen]; omega) (by omega) st
  intro x hx
  obtain ⟨i, hi, rfl⟩ := List.getElem_of_mem hx
  rw [ok.hlen] at hi
  have := mono_le ok.mono i (L' + 2) (by omega) (by omega)
  rw [← ok.slen, List.getD_eq_getElem?_getD, List.getElem?_eq_getElem (by rw [ok.hlen]; omega), Option.getD_some] at this
  omega

/-- Whatever the code type: if the Samc is constructed, it is read back from what was written, and `size_in_bytes` is the number of bytes written. -/
theorem C67_samc_fits (W : Nat) (legacy : Bool) (hW1 : 1 ≤ W) (hW : W ≤ 64) (h8 : W % 8 = 0) (keys : List Key) (hnul : ∀ k ∈ keys, (0 : Byte) ∉ k)
    (L : Nat) (hL : ∀ k ∈ keys, k.length ≤ L) (hbig : (L + 2) * (1 + (L + 1) * (keys.length * keys.length)) < 2 ^ 64)
    (s : Samc) (hs : build W legacy keys = some s) (st : Stream) :
    read W (s.write W ++ st) = some (s, st) ∧ (s.write W).length = s.sizeInBytes W := by
  have hne : keys ≠ [] := by
    rintro rfl
    rw [C59_empty_ub] at hs
    simp at hs
  obtain ⟨L', s', hle, es, ok, hL', hf⟩ := build_fits (W := W) (legacy := legacy) hne hnul hW1 hW hL hbig
  rw [hf] at hs
  split at hs
  · rename_i hfit
    cases hs
    exact fits_roundtrip ok hne h8 hW hle hL' hbig hfit st
  · simp at hs

example : ∃ s, build 8 false twelve = some s ∧ read 8 (s.write 8 ++ [7#8]) = some (s, [7#8]) := by
  obtain ⟨s, e⟩ := Option.isSome_iff_exists.1 (show (build 8 false twelve).isSome by decide +kernel)
  exact ⟨s, e, (C67_samc_fits 8 false (by decide) (by decide) (by decide) twelve (by decide) 1 (by decide) (by decide) s e [7#8]).1⟩

/-- The same for the dictionary, with fewer than `2^41` places. -/
theorem C67_dict_fits (W : Nat) (hW1 : 1 ≤ W) (hW : W ≤ 64) (h8 : W % 8 = 0) (keys : List Key) (hne : keys ≠ []) (hnul : ∀ k ∈ keys, (0 : Byte) ∉ k)
    (L : Nat) (hL : ∀ k ∈ keys, k.length ≤ L) (hbig : (L + 2) * (1 + (L + 1) * (keys.length * keys.length)) < 2 ^ 64)
    (t : Dict) (ht : buildDict W keys = some t) (hsz : t.samc.storage.length < 2 ^ 41) (st : Stream) :
    readDict W (t.write W ++ st) = some (t, st) ∧ (t.write W).length = t.sizeInBytes W := by
  obtain ⟨L', t', v, l, P, hle, et, ok, hL', d, hf⟩ := buildDict_fits (W := W) hne hnul hW1 hW hL hbig
  rw [hf] at ht
  split at ht
  · rename_i hfit
    cases ht
    have h7 := d.len
    obtain ⟨sb, es, r1, r2⟩ := Succ.C23_roundtrip true v l d.built (by omega) st
    obtain rfl : sb = t.leaves := Option.some.inj (es.symm.trans d.leaves)
    obtain ⟨q1, q2⟩ := fits_roundtrip ok hne h8 hW hle hL' hbig hfit (t.leaves.write true ++ st)
    refine ⟨?_, ?_⟩
    · simp only [readDict, Dict.write, List.append_assoc, q1, r1, Option.bind_eq_bind, Option.bind_some, Option.pure_def]
    · simp only [Dict.write, Dict.sizeInBytes, List.length_append, q2, r2]
  · simp at ht

example : ∃ t, buildDict 8 twelve = some t ∧ readDict 8 (t.write 8 ++ [1, 2]) = some (t, [1, 2]) ∧ (t.write 8).length = t.sizeInBytes 8 := by
  have hl : (buildDict 8 twelve).map (fun t => t.samc.storage.length) = some 25 := by decide +kernel
  obtain ⟨t, et, hl⟩ := Option.map_eq_some_iff.1 hl
  exact ⟨t, et, C67_dict_fits 8 (by decide) (by decide) (by decide) twelve (by decide) (by decide) 1 (by decide) (by decide) t et (by omega) [1, 2]⟩

end Verif.Samc
