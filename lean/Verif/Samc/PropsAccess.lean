/-
Property theorems C61 (SamcDict), continued: exactly which ids are read back, and the portable build for few keys.
-/
import Verif.Samc.Fast

namespace Verif.Samc
open Verif.BV Verif.Serial
open Verif.Bits (W64 W32 ones onesBelow lost)

/-- The ids read back in the BMI2 build, for a dictionary as described. -/
theorem access_threshold {W : Nat} {keys : List Key} {L : Nat} {t : Dict} {v : BVec} {l : List Bool} {P : List Nat} (ok : Ok W keys L t.samc) (hW : W ≤ 64)
    (hL : ∀ k ∈ keys, k.length ≤ L) (hne : keys ≠ []) (hnul : ∀ k ∈ keys, (0 : Byte) ∉ k) (d : DOk keys t v l P) (hlen : t.samc.storage.length < 2 ^ 41) :
    ∃ K, 512 ≤ K ∧ K % 512 = 0 ∧ keys.dedup.length < K + 512 ∧ ∀ i, i < keys.dedup.length →
      (i < K → ∃ k ∈ keys, t.access Bits.Hw.sel i = some k ∧ t.lookup k = some i) ∧ (K ≤ i → t.access Bits.Hw.sel i = none) := by
  have h7 := d.len
  rw [← h7] at hlen
  have hones := ones_count d
  have hsplit : l.count true ≤ (l.take (l.length / 512 * 512)).count true + 511 := by
    have h8 : l.count true = (l.take (l.length / 512 * 512)).count true + (l.drop (l.length / 512 * 512)).count true := by
      rw [← List.count_append, List.take_append_drop]
    have h9 := List.count_le_length (a := true) (l := l.drop (l.length / 512 * 512))
    rw [List.length_drop] at h9
    omega
  refine ⟨512 * ((l.take (l.length / 512 * 512)).count true / 512 + 1), by omega, by omega, by omega, ?_⟩
  intro i hi
  refine ⟨fun hK => ?_, fun hK => ?_⟩
  · obtain ⟨sb, es, hsel⟩ := Succ.C21_select_bmi2_partial v l d.built hlen
    obtain rfl : sb = t.leaves := Option.some.inj (es.symm.trans d.leaves)
    obtain ⟨p, e1, e2, e3⟩ := hsel i (by rw [ones_count d]; exact hi) (by omega)
    obtain ⟨k, hk, ea, ei⟩ := access_eq ok hW hL d _ e1 e2 e3
    refine ⟨k, hk, ea, ?_⟩
    rw [lookup_eq ok hW hL hne hnul d k (hnul k hk), if_pos hk, ei]
  · obtain ⟨sb, es, hsel⟩ := Succ.C21_select_tip_oob Bits.Hw.sel v l d.built (by
      rintro rfl
      rw [List.count_nil] at hones
      omega) hlen i (by omega)
    obtain rfl : sb = t.leaves := Option.some.inj (es.symm.trans d.leaves)
    simp only [Dict.access, hsel, Option.bind_eq_bind, Option.bind_none]

/-- BMI2 build: there is a multiple `K ≥ 512` of 512 such that `access` gives back the key with the id for the ids below `K`, and reads out of
range for every id from `K` on. There are fewer than 512 of the latter. Missing: these (see `C61_access_refuted`). -/
theorem C61_access_threshold_partial (W : Nat) (hW : W ≤ 64) (keys : List Key) (hne : keys ≠ []) (hnul : ∀ k ∈ keys, (0 : Byte) ∉ k)
    (L : Nat) (hL : ∀ k ∈ keys, k.length ≤ L) (hbig : (L + 2) * (1 + (L + 1) * (keys.length * keys.length)) < 2 ^ W)
    (hsz : (L + 2) * (1 + (L + 1) * (keys.length * keys.length)) < 2 ^ 41) :
    ∃ t K, buildDict W keys = some t ∧ 512 ≤ K ∧ K % 512 = 0 ∧ keys.dedup.length < K + 512 ∧ ∀ i, i < keys.dedup.length →
      (i < K → ∃ k ∈ keys, t.access Bits.Hw.sel i = some k ∧ t.lookup k = some i) ∧ (K ≤ i → t.access Bits.Hw.sel i = none) := by
  obtain ⟨L', t, v, l, P, hle, et, ok, hL', d⟩ := buildDict_ok hne hnul hW hL hbig
  have h2 := ok.total
  have h3 := poly_mono (n := keys.length) hle
  obtain ⟨K, h⟩ := access_threshold ok hW hL' hne hnul d (by omega)
  exact ⟨t, K, et, h⟩

example : ∃ t K, buildDict 32 sample = some t ∧ 512 ≤ K ∧ K % 512 = 0 ∧ sample.dedup.length < K + 512 ∧ ∀ i, i < sample.dedup.length →
    (i < K → ∃ k ∈ sample, t.access Bits.Hw.sel i = some k ∧ t.lookup k = some i) ∧ (K ≤ i → t.access Bits.Hw.sel i = none) :=
  C61_access_threshold_partial 32 (by decide) sample (by decide) (by decide) 2 (by decide) sample_bound (by decide)

/-- Portable build: the ids read back, for a dictionary as described with fewer than 16 different keys. -/
theorem access_few {W : Nat} {keys : List Key} {L : Nat} {t : Dict} {v : BVec} {l : List Bool} {P : List Nat} (ok : Ok W keys L t.samc) (hW : W ≤ 64)
    (hL : ∀ k ∈ keys, k.length ≤ L) (hne : keys ≠ []) (hnul : ∀ k ∈ keys, (0 : Byte) ∉ k) (d : DOk keys t v l P) (hlen : t.samc.storage.length < 2 ^ 41)
    {W' : Nat} (et : buildDict W' keys = some t) (hn : keys.dedup.length < 16) :
    ∀ i, i < keys.dedup.length → ∃ k ∈ keys, t.access Bits.sel i = some k ∧ t.lookup k = some i := by
  have h7 := d.len
  rw [← h7] at hlen
  have hones := ones_count d
  have hpos : 0 < t.samc.storage.length := by
    rw [← h7]
    by_contra hc
    have : l = [] := List.length_eq_zero_iff.1 (by omega)
    rw [this, List.count_nil] at hones
    obtain ⟨k, hk⟩ := List.exists_mem_of_ne_nil _ hne
    have := List.length_pos_of_mem (List.mem_dedup.2 hk)
    omega
  intro i hi
  obtain ⟨sb, es, hsel⟩ := Succ.C21_select_exact_partial v l d.built hlen
  obtain rfl : sb = t.leaves := Option.some.inj (es.symm.trans d.leaves)
  obtain ⟨p, w, e1, e2, e3, e4⟩ := hsel i (by omega) (by omega)
  have hlow : lost (w.setWidth 32) = 0 := by
    apply lost_zero
    rw [Bits.ones_setWidth]
    have c1 := cntB_tail (fun j hj => dict_tail et hpos v d.leaves d.built.rep.words j hj) (64 * (p / 64) + 32)
    rw [← h7, Succ.cntB_list v l d.built.rep _ (Nat.le_refl _), List.take_length, Succ.cntB_word _ _ _ (by omega), List.getD_eq_getElem?_getD, e3] at c1
    simp only [Option.getD_some] at c1
    omega
  obtain ⟨k, hk, ea, ei⟩ := access_eq ok hW hL d _ (e4.2 (.inl hlow)) e1 e2
  refine ⟨k, hk, ea, ?_⟩
  rw [lookup_eq ok hW hL hne hnul d k (hnul k hk), if_pos hk, ei]

/-- Portable build, fewer than 16 different keys: `access` inverts `lookup`, and every id is the id of a key. -/
theorem C61_access_portable_partial (W : Nat) (hW : W ≤ 64) (keys : List Key) (hne : keys ≠ []) (hnul : ∀ k ∈ keys, (0 : Byte) ∉ k)
    (L : Nat) (hL : ∀ k ∈ keys, k.length ≤ L) (hbig : (L + 2) * (1 + (L + 1) * (keys.length * keys.length)) < 2 ^ W)
    (hsz : (L + 2) * (1 + (L + 1) * (keys.length * keys.length)) < 2 ^ 41) (hn : keys.dedup.length < 16) :
    ∃ t, buildDict W keys = some t ∧ (∀ i, i < keys.dedup.length → ∃ k ∈ keys, t.access Bits.sel i = some k ∧ t.lookup k = some i) ∧
      ∀ k ∈ keys, ∃ i, t.lookup k = some i ∧ t.access Bits.sel i = some k := by
  obtain ⟨L', t, v, l, P, hle, et, ok, hL', d⟩ := buildDict_ok hne hnul hW hL hbig
  have h2 := ok.total
  have h3 := poly_mono (n := keys.length) hle
  have main := access_few ok hW hL' hne hnul d (by omega) et hn
  refine ⟨t, et, main, ?_⟩
  intro k hk
  obtain ⟨t', et', h1, h2, _⟩ := C60_lookup W hW keys hne hnul L hL hbig
  obtain rfl : t = t' := Option.some.inj (et.symm.trans et')
  obtain ⟨i, hi, hlt, _⟩ := h1 k hk
  refine ⟨i, hi, ?_⟩
  obtain ⟨k', hk', ea, el⟩ := main i hlt
  rw [ea, h2 k hk k' hk' (hi.trans el.symm)]

example : ∃ t, buildDict 32 sample = some t ∧
    (∀ i, i < sample.dedup.length → ∃ k ∈ sample, t.access Bits.sel i = some k ∧ t.lookup k = some i) ∧
      ∀ k ∈ sample, ∃ i, t.lookup k = some i ∧ t.access Bits.sel i = some k :=
  C61_access_portable_partial 32 (by decide) sample (by decide) (by decide) 2 (by decide) sample_bound (by decide) (by decide)

/-- 513 keys of two bytes. -/
def twoByte : List Key := (List.range 513).map fun i => [BitVec.ofNat 8 (i / 24 + 60), BitVec.ofNat 8 (i % 24 + 60)]

/-- The number of places, and the number of keys with a place below 1024. -/
def summary (keys : List Key) (s : St) : Nat × Nat := (s.head.getD 4 0, keys.countP fun k => pos s.code (ext k) < 1024)

theorem twoByte_summary :
    (fastLevels 32 false [List.range' 60 22, List.range' 60 24, [0]] 0 ⟨[(0, 94)], [(0, twoByte)], [], [0, 1]⟩).map (summary twoByte) = some (1049, 488) := by
  decide +kernel

theorem twoByte_nodup : twoByte.Nodup := by
  refine List.Nodup.map_on ?_ List.nodup_range
  intro i hi j hj h
  rw [List.mem_range] at hi hj
  simp only [List.cons.injEq, and_true] at h
  have h1 := congrArg BitVec.toNat h.1
  have h2 := congrArg BitVec.toNat h.2
  simp only [BitVec.toNat_ofNat] at h1 h2
  omega

theorem twoByte_length (k : Key) (hk : k ∈ twoByte) : k.length = 2 ∧ (0 : Byte) ∉ k := by
  obtain ⟨i, hi, rfl⟩ := List.mem_map.1 hk
  rw [List.mem_range] at hi
  refine ⟨rfl, ?_⟩
  simp only [List.mem_cons, List.not_mem_nil, or_false, not_or]
  constructor
  · intro h
    have := congrArg BitVec.toNat h
    rw [BitVec.toNat_ofNat, show (0 : Byte).toNat = 0 from rfl] at this
    omega
  · intro h
    have := congrArg BitVec.toNat h
    rw [BitVec.toNat_ofNat, show (0 : Byte).toNat = 0 from rfl] at this
    omega

/-- In every build: of 513 keys of two bytes the last id belongs to a key, but `access` reads out of range for it. -/
theorem C61_access_refuted (selF : W64 → Nat → Option Nat) :
    ∃ t, buildDict 32 twoByte = some t ∧ (∃ k ∈ twoByte, t.lookup k = some 512) ∧ t.access selF 512 = none := by
  have hne : twoByte ≠ [] := by
    intro h
    have := congrArg List.length h
    simp [twoByte] at this
  have hlen : twoByte.length = 513 := by simp [twoByte]
  obtain ⟨L', t, v, l, P, hle, et, ok, hL', d⟩ := buildDict_ok (W := 32) (L := 2) hne (fun k hk => (twoByte_length k hk).2) (by omega)
    (fun k hk => by rw [(twoByte_length k hk).1]) (by rw [hlen]; decide)
  have hL2 : L' = 2 := by
    obtain ⟨k, hk⟩ := List.exists_mem_of_ne_nil _ hne
    have := hL' k hk
    rw [(twoByte_length k hk).1] at this
    omega
  subst hL2
  refine ⟨t, et, ?_, ?_⟩
  · obtain ⟨k, hk, e⟩ := id_onto d (i := 512) (by rw [List.dedup_eq_self.2 twoByte_nodup, hlen]; decide)
    refine ⟨k, hk, ?_⟩
    rw [lookup_eq ok (by omega) hL' hne (fun k hk => (twoByte_length k hk).2) d k (twoByte_length k hk).2, if_pos hk, e]
  · have hs := twoByte_summary
    rw [Option.map_eq_some_iff] at hs
    obtain ⟨s, es, hs⟩ := hs
    have hmax : lmax (twoByte.map List.length) = 2 := by
      obtain ⟨l1, k, hk, e⟩ := lmax_spec twoByte hne
      rw [← e, (twoByte_length k hk).1]
    have hlev : levels 32 false (lmax (twoByte.map List.length) + 2) 0 ⟨[(0, 94)], [(0, twoByte)], [], [0, 1]⟩ = some s := by
      rw [hmax]
      refine fastLevels_eq ?_ (by simp) es
      decide
    have hcode : t.samc.code = s.code ∧ t.samc.head = s.head := by
      simp only [buildDict, build, hlev, setupLeaves, Option.bind_eq_bind, Option.bind_some, Option.bind_eq_some_iff, Option.pure_def] at et
      obtain ⟨sm, ⟨n, _, st, _, e1⟩, v', _, sb, _, e2⟩ := et
      cases e1
      cases e2
      exact ⟨rfl, rfl⟩
    simp only [summary, Prod.mk.injEq] at hs
    have hl : l.length = 1049 := by rw [d.len, ok.slen, hcode.2]; exact hs.1
    have hc : (l.take (l.length / 512 * 512)).count true = 488 := by
      rw [hl, count_take l P d.nodup d.ones, d.perm, List.countP_map, List.dedup_eq_self.2 twoByte_nodup, hcode.1]
      exact hs.2
    obtain ⟨sb, esb, hsel⟩ := Succ.C21_select_tip_oob selF v l d.built (by intro h; rw [h] at hl; simp at hl) (by omega) 512 (by omega)
    obtain rfl : sb = t.leaves := Option.some.inj (esb.symm.trans d.leaves)
    simp only [Dict.access, hsel, Option.bind_eq_bind, Option.bind_none]

end Verif.Samc
