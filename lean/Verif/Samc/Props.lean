/-
Property theorems C59, C60, C61, C67 (Samc and SamcDict).

In all of them the keys are any non-empty list of strings without NUL bytes, in any order and with repetitions, and the number of places has to fit
the code type: `(L+2)*(1+(L+1)*n*n) < 2^W` for `n` keys of length at most `L` and codes of `W` bits is enough.
-/
import Verif.Samc.Ids

namespace Verif.Samc
open Verif.BV Verif.Serial
open Verif.Bits (W64)

/-- The strings of the examples: "a", "ab", "b", and one with the byte 255. -/
def sample : List Key := [[0x61#8], [0x61#8, 0x62#8], [0x61#8, 0xff#8], [0x62#8]]

theorem sample_bound : (2 + 2) * (1 + (2 + 1) * (sample.length * sample.length)) < 2 ^ 32 := by decide

/-! ### C59 -/

/-- `accept` answers membership, for both ways of searching a free place (`legacy`: `SamcImpl` with the older check). -/
theorem C59_accept (W : Nat) (legacy : Bool) (hW : W ≤ 64) (keys : List Key) (hne : keys ≠ []) (hnul : ∀ k ∈ keys, (0 : Byte) ∉ k)
    (L : Nat) (hL : ∀ k ∈ keys, k.length ≤ L) (hbig : (L + 2) * (1 + (L + 1) * (keys.length * keys.length)) < 2 ^ W) :
    ∃ s, build W legacy keys = some s ∧ ∀ q : Key, (0 : Byte) ∉ q → s.accept q = some (decide (q ∈ keys)) := by
  obtain ⟨L', s, hle, es, ok, hL'⟩ := build_ok (legacy := legacy) hne hnul hW hL hbig
  refine ⟨s, es, ?_⟩
  intro q hq
  simp only [Samc.accept, find_root ok hW hL' hne hnul q hq, Option.bind_eq_bind, Option.bind_some, Option.pure_def]
  by_cases hm : q ∈ keys
  · simp [hm]
  · simp [hm]

example : ∃ s, build 32 false sample = some s ∧ ∀ q : Key, (0 : Byte) ∉ q → s.accept q = some (decide (q ∈ sample)) :=
  C59_accept 32 false (by decide) sample (by decide) (by decide) 2 (by decide) sample_bound

example : (build 32 true sample).map (fun s => (s.accept [0x61#8, 0xff#8], s.accept [0x62#8, 0xff#8], s.accept [])) = some (some true, some false, some false) := by
  decide +kernel

/-- An empty list of keys is read out of range. -/
theorem C59_empty_ub (W : Nat) (legacy : Bool) : build W legacy [] = none := by
  cases legacy <;> rfl

example := C59_empty_ub 32 false

/-- Without the condition on NUL bytes the answer is wrong: after storing "a\0b" the string "a" is accepted, and "a\0b" itself is searched out of range. -/
theorem C59_nul_domain : ∃ s, build 32 false [[0x61#8, 0#8, 0x62#8]] = some s ∧ s.accept [0x61#8] = some true ∧ s.accept [0x61#8, 0#8, 0x62#8] = none := by
  have h : (build 32 false [[0x61#8, 0#8, 0x62#8]]).map (fun s => (s.accept [0x61#8], s.accept [0x61#8, 0#8, 0x62#8])) = some (some true, none) := by decide +kernel
  obtain ⟨s, es, e⟩ := Option.map_eq_some_iff.1 h
  exact ⟨s, es, (Prod.mk.inj e).1, (Prod.mk.inj e).2⟩

/-! ### C60 -/

/-- `lookup` numbers the different keys and reports all other strings as missing. -/
theorem C60_lookup (W : Nat) (hW : W ≤ 64) (keys : List Key) (hne : keys ≠ []) (hnul : ∀ k ∈ keys, (0 : Byte) ∉ k)
    (L : Nat) (hL : ∀ k ∈ keys, k.length ≤ L) (hbig : (L + 2) * (1 + (L + 1) * (keys.length * keys.length)) < 2 ^ W) :
    ∃ t, buildDict W keys = some t ∧
      (∀ k ∈ keys, ∃ i, t.lookup k = some i ∧ i < keys.dedup.length ∧ i ≠ searchError) ∧
      (∀ k ∈ keys, ∀ k' ∈ keys, t.lookup k = t.lookup k' → k = k') ∧
      (∀ i, i < keys.dedup.length → ∃ k ∈ keys, t.lookup k = some i) ∧
      (∀ q : Key, (0 : Byte) ∉ q → q ∉ keys → t.lookup q = some searchError) := by
  obtain ⟨L', t, v, l, P, hle, et, ok, hL', d⟩ := buildDict_ok hne hnul hW hL hbig
  have hlk := lookup_eq ok hW hL' hne hnul d
  have hin : ∀ k ∈ keys, t.lookup k = some (P.countP (fun p => p < pos t.samc.code (ext k))) := by
    intro k hk
    rw [hlk k (hnul k hk), if_pos hk]
  have hsmall : keys.dedup.length < searchError := by
    have h1 : keys.dedup.length ≤ l.length := by rw [← ones_count d]; exact List.count_le_length
    have h2 := ok.total
    have h3 := poly_mono (n := keys.length) hle
    have h4 : 2 ^ W ≤ 2 ^ 64 := Nat.pow_le_pow_right (by decide) hW
    have h5 := ok.hlen
    have h6 := ok.slen
    have h7 := d.len
    -- the root is no leaf
    have h8 : l.count true < l.length := by
      have h0 : 0 < l.length := by
        have := mono_le ok.mono 1 (L' + 2) (by omega) (by omega)
        rw [ok.start.2] at this
        omega
      have hn : ¬ l[0]? = some true := by
        rw [d.ones, d.perm, List.mem_map]
        rintro ⟨k, hk, he⟩
        have hp : Path keys (ext k) := ⟨k, List.mem_dedup.1 hk, List.prefix_rfl⟩
        have i1 := (ok.inside _ hp).1
        have := mono_le ok.mono 1 (ext k).length (by simp [ext]) (by have := hp.length_le hL'; omega)
        rw [ok.start.2] at this
        omega
      refine Nat.lt_of_le_of_ne List.count_le_length (fun hc => hn ?_)
      have := List.count_eq_length.1 hc
      rw [List.getElem?_eq_getElem h0, ← this _ (List.getElem_mem h0)]
    rw [ones_count d] at h8
    unfold searchError
    omega
  refine ⟨t, et, ?_, ?_, ?_, ?_⟩
  · intro k hk
    have := (id_lt d hk).2
    exact ⟨_, hin k hk, this, by omega⟩
  · intro k hk k' hk' he
    rw [hin k hk, hin k' hk', Option.some.injEq] at he
    exact id_inj d hk hk' he
  · intro i hi
    obtain ⟨k, hk, e⟩ := id_onto d hi
    exact ⟨k, hk, by rw [hin k hk, e]⟩
  · intro q hq hm
    rw [hlk q hq, if_neg hm]

example : ∃ t, buildDict 32 sample = some t ∧ (∀ i, i < sample.dedup.length → ∃ k ∈ sample, t.lookup k = some i) := by
  obtain ⟨t, h1, _, _, h4, _⟩ := C60_lookup 32 (by decide) sample (by decide) (by decide) 2 (by decide) sample_bound
  exact ⟨t, h1, h4⟩

example : (buildDict 32 sample).map (fun t => (t.lookup [0x61#8], t.lookup [0x62#8], t.lookup [0x61#8, 0x62#8], t.lookup [0x61#8, 0xff#8], t.lookup [0x63#8])) =
    some (some 0, some 1, some 2, some 3, some searchError) := by decide +kernel

/-! ### C61 -/

/-- BMI2 build: `access` gives back the key with the id, for every id below the number of different keys except that from 512 on it may read out of
range. Missing: the ids where `select` reads past the last tip (see C21). -/
theorem C61_access_bmi2_partial (W : Nat) (hW : W ≤ 64) (keys : List Key) (hne : keys ≠ []) (hnul : ∀ k ∈ keys, (0 : Byte) ∉ k)
    (L : Nat) (hL : ∀ k ∈ keys, k.length ≤ L) (hbig : (L + 2) * (1 + (L + 1) * (keys.length * keys.length)) < 2 ^ W)
    (hsz : (L + 2) * (1 + (L + 1) * (keys.length * keys.length)) < 2 ^ 41) :
    ∃ t, buildDict W keys = some t ∧ ∀ i, i < keys.dedup.length →
      (∃ k ∈ keys, t.access Bits.Hw.sel i = some k ∧ t.lookup k = some i) ∨ (512 ≤ i ∧ t.access Bits.Hw.sel i = none) := by
  obtain ⟨L', t, v, l, P, hle, et, ok, hL', d⟩ := buildDict_ok hne hnul hW hL hbig
  refine ⟨t, et, ?_⟩
  intro i hi
  have h2 := ok.total
  have h3 := poly_mono (n := keys.length) hle
  have h7 := d.len
  have hlen : l.length < 2 ^ 41 := by omega
  by_cases hdom : i / 512 ≤ (l.take (l.length / 512 * 512)).count true / 512
  · obtain ⟨sb, es, hsel⟩ := Succ.C21_select_bmi2_partial v l d.built hlen
    obtain rfl : sb = t.leaves := Option.some.inj (es.symm.trans d.leaves)
    obtain ⟨p, e1, e2, e3⟩ := hsel i (by rw [ones_count d]; exact hi) hdom
    obtain ⟨k, hk, ea, ei⟩ := access_eq ok hW hL' d _ e1 e2 e3
    refine .inl ⟨k, hk, ea, ?_⟩
    rw [lookup_eq ok hW hL' hne hnul d k (hnul k hk), if_pos hk, ei]
  · refine .inr ⟨by omega, ?_⟩
    obtain ⟨sb, es, hsel⟩ := Succ.C21_select_tip_oob Bits.Hw.sel v l d.built (by
      rintro rfl
      have := ones_count d
      rw [List.count_nil] at this
      omega) hlen i hdom
    obtain rfl : sb = t.leaves := Option.some.inj (es.symm.trans d.leaves)
    simp only [Dict.access, hsel, Option.bind_eq_bind, Option.bind_none]

example := C61_access_bmi2_partial 32 (by decide) sample (by decide) (by decide) 3 (by decide) (by decide) (by decide)

/-- BMI2 build, at most 512 different keys: `access` inverts `lookup`. -/
theorem C61_access_512 (W : Nat) (hW : W ≤ 64) (keys : List Key) (hne : keys ≠ []) (hnul : ∀ k ∈ keys, (0 : Byte) ∉ k)
    (L : Nat) (hL : ∀ k ∈ keys, k.length ≤ L) (hbig : (L + 2) * (1 + (L + 1) * (keys.length * keys.length)) < 2 ^ W)
    (hsz : (L + 2) * (1 + (L + 1) * (keys.length * keys.length)) < 2 ^ 41) (hn : keys.dedup.length ≤ 512) :
    ∃ t, buildDict W keys = some t ∧ (∀ k ∈ keys, ∃ i, t.lookup k = some i ∧ t.access Bits.Hw.sel i = some k) := by
  obtain ⟨t, et, h⟩ := C61_access_bmi2_partial W hW keys hne hnul L hL hbig hsz
  obtain ⟨t', et', h1, h2, _⟩ := C60_lookup W hW keys hne hnul L hL hbig
  obtain rfl : t = t' := Option.some.inj (et.symm.trans et')
  refine ⟨t, et, ?_⟩
  intro k hk
  obtain ⟨i, hi, hlt, _⟩ := h1 k hk
  refine ⟨i, hi, ?_⟩
  rcases h i hlt with ⟨k', hk', ea, el⟩ | ⟨h5, _⟩
  · rw [ea, h2 k hk k' hk' (hi.trans el.symm)]
  · omega

example : ∃ t, buildDict 32 sample = some t ∧ (∀ k ∈ sample, ∃ i, t.lookup k = some i ∧ t.access Bits.Hw.sel i = some k) :=
  C61_access_512 32 (by decide) sample (by decide) (by decide) 2 (by decide) sample_bound (by decide) (by decide)

/-- 46 keys of one byte. -/
def oneByte : List Key := (List.range 46).map fun i => [BitVec.ofNat 8 (i + 60)]

/-- In the portable build `access` already fails with 46 keys of one byte, because of `sel` (C07). -/
theorem C61_access_portable_refuted : (buildDict 32 oneByte).map (fun t => (t.lookup [91#8], t.access Bits.sel 31)) = some (some 31, none) := by
  decide +kernel

/-- The same id is read back in the BMI2 build. -/
theorem C61_access_portable_bmi2 : (buildDict 32 oneByte).map (fun t => t.access Bits.Hw.sel 31) = some (some [91#8]) := by
  decide +kernel

/-! ### C67 -/

/-- A Samc is read back from what was written, and `size_in_bytes` is the number of bytes written. -/
theorem C67_samc_roundtrip (W : Nat) (legacy : Bool) (hW : W ≤ 64) (h8 : W % 8 = 0) (keys : List Key) (hne : keys ≠ []) (hnul : ∀ k ∈ keys, (0 : Byte) ∉ k)
    (L : Nat) (hL : ∀ k ∈ keys, k.length ≤ L) (hbig : (L + 2) * (1 + (L + 1) * (keys.length * keys.length)) < 2 ^ W) (st : Stream) :
    ∃ s, build W legacy keys = some s ∧ read W (s.write W ++ st) = some (s, st) ∧ (s.write W).length = s.sizeInBytes W := by
  obtain ⟨L', s, hle, es, ok, _⟩ := build_ok (legacy := legacy) hne hnul hW hL hbig
  exact ⟨s, es, ok_roundtrip ok hne hW h8 (Nat.lt_of_le_of_lt (poly_mono hle) hbig) st⟩

example := C67_samc_roundtrip 32 true (by decide) (by decide) sample (by decide) (by decide) 3 (by decide) (by decide) [7#8]

/-- A SamcDict is read back from what was written, and `size_in_bytes` is the number of bytes written. -/
theorem C67_dict_roundtrip (W : Nat) (hW : W ≤ 64) (h8 : W % 8 = 0) (keys : List Key) (hne : keys ≠ []) (hnul : ∀ k ∈ keys, (0 : Byte) ∉ k)
    (L : Nat) (hL : ∀ k ∈ keys, k.length ≤ L) (hbig : (L + 2) * (1 + (L + 1) * (keys.length * keys.length)) < 2 ^ W)
    (hsz : (L + 2) * (1 + (L + 1) * (keys.length * keys.length)) < 2 ^ 41) (st : Stream) :
    ∃ t, buildDict W keys = some t ∧ readDict W (t.write W ++ st) = some (t, st) ∧ (t.write W).length = t.sizeInBytes W := by
  obtain ⟨L', t, v, l, P, hle, et, ok, hL', d⟩ := buildDict_ok hne hnul hW hL hbig
  have hb := poly_mono (n := keys.length) hle
  have h2 := ok.total
  have h7 := d.len
  obtain ⟨sb, es, r1, r2⟩ := Succ.C23_roundtrip true v l d.built (by omega) st
  obtain rfl : sb = t.leaves := Option.some.inj (es.symm.trans d.leaves)
  obtain ⟨q1, q2⟩ := ok_roundtrip ok hne hW h8 (Nat.lt_of_le_of_lt hb hbig) (t.leaves.write true ++ st)
  refine ⟨t, et, ?_, ?_⟩
  · simp only [readDict, Dict.write, List.append_assoc, q1, r1, Option.bind_eq_bind, Option.bind_some, Option.pure_def]
  · simp only [Dict.write, Dict.sizeInBytes, List.length_append, q2, r2]

example : ∃ t, buildDict 32 sample = some t ∧ readDict 32 (t.write 32 ++ [1, 2]) = some (t, [1, 2]) ∧ (t.write 32).length = t.sizeInBytes 32 :=
  C67_dict_roundtrip 32 (by decide) (by decide) sample (by decide) (by decide) 2 (by decide) sample_bound (by decide) [1, 2]

end Verif.Samc
