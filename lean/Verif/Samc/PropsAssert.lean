/-
Property theorems C128, Samc and SamcDict: the construction, `lookup` and `access` in a build with assertions.
-/
import Verif.Samc.PropsAccess
import Verif.Samc.AssertBuild

namespace Verif.Samc
open Verif.BV Verif.Serial
open Verif.Bits (W64 W32 ones onesBelow lost)

/-- `id` with its assertion, Samc.hpp:375-378: the place must be marked as a leaf. `some none` is an abort. -/
def Dict.idA (t : Dict) (index : Nat) : Option (Option Nat) := do
  let b ← t.leaves.get index
  if b = true then (t.leaves.rank1 index).map some else pure none

/-- `lookup` with the assertion of `id`, Samc.hpp:439-459. The assertion of `in_range`, 431, compares `depth + 1` with zero and is left out. -/
def Dict.lookupA (t : Dict) (key : Key) : Option (Option Nat) := do
  let r ← t.samc.find key 0 0
  match r with
  | none => pure (some searchError)
  | some i => t.idA i

/-- The loop of `access` and the two assertions, Samc.hpp:467-473: no character read may be `kEmptyChar` (74: 255), and the walk must end at place 0. -/
def accessLoopA (s : Samc) : (d node : Nat) → Key → Option (Option Key)
  | 0, node, text => if node = 0 then some (some text) else some none
  | d + 1, node, text => do
    let c ← s.storage[node]?
    if c = 0xff then pure none
    else do
      let x ← s.codeOf d c
      accessLoopA s d ((node + 2 ^ 64 - x) % 2 ^ 64) (c :: text)

/-- `access` with its assertions, Samc.hpp:461-475. -/
def Dict.accessA (selF : W64 → Nat → Option Nat) (t : Dict) (value : Nat) : Option (Option Key) := do
  let node ← t.leaves.select selF value
  let r ← accessLoopA t.samc (upperBound t.samc.head node - 1) node []
  match r with
  | none => pure none
  | some text => if text = [] then none else pure (some text.dropLast)

theorem accessLoopA_spec {W : Nat} {keys : List Key} {L : Nat} {s : Samc} (h : Ok W keys L s) (hW : W ≤ 64) (hL : ∀ k ∈ keys, k.length ≤ L) :
    ∀ (d : Nat) (w text : List Byte), w.length = d → Path keys w →
      accessLoopA s d (pos s.code w) text = some (if (0xff : Byte) ∈ w then none else some (w ++ text))
  | 0, w, text, hl, hw => by
    obtain rfl := List.eq_nil_of_length_eq_zero hl
    have h1 := h.inside [] hw
    have h2 := h.start
    simp only [List.length_nil, Nat.zero_add, h2.1, h2.2] at h1
    simp only [accessLoopA]
    rw [if_pos (by omega)]
    simp
  | d + 1, w, text, hl, hw => by
    have hW64 : 2 ^ W ≤ 2 ^ 64 := Nat.pow_le_pow_right (by decide) hW
    have hne : w ≠ [] := by rintro rfl; simp at hl
    obtain ⟨w', c, rfl⟩ : ∃ w' c, w = w' ++ [c] := ⟨_, _, (List.dropLast_append_getLast hne).symm⟩
    have hl' : w'.length = d := by simpa using hl
    have hlw := hw.length_le hL
    have hlab := h.label w' c hw
    have hst := pos_step (code := s.code) (w := w') (by rw [h.clen]; omega) c
    have hin := h.inside w' hw.init
    have hsm := h.small w'.length (by omega) c.toNat
    simp only [accessLoopA, hlab, codeOf_eq h (show d ≤ L by omega), Option.bind_eq_bind, Option.bind_some]
    by_cases hc : c = 0xff
    · subst hc
      rw [if_pos rfl, if_pos (by simp)]
      rfl
    · rw [if_neg hc, ← hl', hst]
      generalize (s.code.getD w'.length []).getD c.toNat 0 = x at hsm
      rw [show pos s.code w' + x + 2 ^ 64 - x = pos s.code w' + 2 ^ 64 by omega, Nat.add_mod_right, Nat.mod_eq_of_lt (by omega), hl',
        accessLoopA_spec h hW hL d w' (c :: text) hl' hw.init]
      have : (0xff : Byte) ∈ w' ++ [c] ↔ (0xff : Byte) ∈ w' := by
        simp only [List.mem_append, List.mem_singleton, or_iff_left_iff_imp]
        exact fun e => absurd e.symm hc
      simp only [this, List.append_assoc, List.singleton_append]

theorem accessA_eq {W : Nat} {keys : List Key} {L : Nat} {t : Dict} {v : BVec} {l : List Bool} {P : List Nat} (h : Ok W keys L t.samc) (hW : W ≤ 64)
    (hL : ∀ k ∈ keys, k.length ≤ L) (d : DOk keys t v l P) (selF : W64 → Nat → Option Nat) {i p : Nat} (hs : t.leaves.select selF i = some p)
    (h1 : l[p]? = some true) : ∃ k ∈ keys, t.access selF i = some k ∧ t.accessA selF i = some (if (0xff : Byte) ∈ k then none else some k) := by
  have hm := (d.ones p).1 h1
  rw [d.perm, List.mem_map] at hm
  obtain ⟨k, hk, rfl⟩ := hm
  have hk := List.mem_dedup.1 hk
  have hp : Path keys (ext k) := ⟨k, hk, List.prefix_rfl⟩
  refine ⟨k, hk, ?_, ?_⟩
  · simp only [Dict.access, hs, upperBound_eq h hL hp, Nat.add_sub_cancel, accessLoop_spec h hW hL _ _ [] rfl hp, Option.bind_eq_bind, Option.bind_some,
      List.append_nil, Option.pure_def]
    rw [if_neg (by simp [ext])]
    simp [ext]
  · simp only [Dict.accessA, hs, upperBound_eq h hL hp, Nat.add_sub_cancel, accessLoopA_spec h hW hL _ _ [] rfl hp, Option.bind_eq_bind, Option.bind_some,
      List.append_nil, Option.pure_def]
    have : (0xff : Byte) ∈ ext k ↔ (0xff : Byte) ∈ k := by simp [ext]
    by_cases hf : (0xff : Byte) ∈ k
    · rw [if_pos (this.2 hf), if_pos hf]
    · rw [if_neg (fun e => hf (this.1 e)), if_neg hf]
      simp [ext]

/-- C128, SamcDict: `lookup` of any NUL-free string passes its assertion and gives what it gives without. -/
theorem C128_samc_lookup (W : Nat) (hW : W ≤ 64) (keys : List Key) (hne : keys ≠ []) (hnul : ∀ k ∈ keys, (0 : Byte) ∉ k)
    (L : Nat) (hL : ∀ k ∈ keys, k.length ≤ L) (hbig : (L + 2) * (1 + (L + 1) * (keys.length * keys.length)) < 2 ^ W) :
    ∃ t, buildDict W keys = some t ∧ ∀ q : Key, (0 : Byte) ∉ q → ∃ i, t.lookup q = some i ∧ t.lookupA q = some (some i) := by
  obtain ⟨L', t, v, l, P, hle, et, ok, hL', d⟩ := buildDict_ok hne hnul hW hL hbig
  refine ⟨t, et, ?_⟩
  intro q h0
  obtain ⟨sb, es, hr⟩ := Succ.C20_rank true v l d.built
  obtain rfl : sb = t.leaves := Option.some.inj (es.symm.trans d.leaves)
  simp only [Dict.lookup, Dict.lookupA, find_root ok hW hL' hne hnul q h0, Option.bind_eq_bind, Option.bind_some]
  by_cases hq : q ∈ keys
  · simp only [if_pos hq]
    have hm : pos t.samc.code (ext q) ∈ P := by
      rw [d.perm, List.mem_map]
      exact ⟨q, List.mem_dedup.2 hq, rfl⟩
    have hb := (d.ones _).2 hm
    obtain ⟨r1, _, r3⟩ := hr _ (List.getElem?_eq_some_iff.1 hb).1
    refine ⟨_, r1, ?_⟩
    simp only [Dict.idA, r3, hb, r1, Option.bind_eq_bind, Option.bind_some, if_true, Option.map_some]
  · simp only [if_neg hq]
    exact ⟨_, rfl, rfl⟩

example := C128_samc_lookup 32 (by decide) sample (by decide) (by decide) 3 (by decide) (by decide)

/-- C128, SamcDict, BMI2 build: wherever `access` gives back a key it does so with assertions too if the key has no byte 255, and aborts if it has one.
Missing: the keys with a byte 255, see `C128_samc_refuted`, and the ids that C61 excludes. -/
theorem C128_samc_access_partial (W : Nat) (hW : W ≤ 64) (keys : List Key) (hne : keys ≠ []) (hnul : ∀ k ∈ keys, (0 : Byte) ∉ k)
    (L : Nat) (hL : ∀ k ∈ keys, k.length ≤ L) (hbig : (L + 2) * (1 + (L + 1) * (keys.length * keys.length)) < 2 ^ W)
    (hsz : (L + 2) * (1 + (L + 1) * (keys.length * keys.length)) < 2 ^ 41) :
    ∃ t, buildDict W keys = some t ∧ ∀ i, i < keys.dedup.length →
      (∃ k ∈ keys, t.access Bits.Hw.sel i = some k ∧ ((0xff : Byte) ∉ k → t.accessA Bits.Hw.sel i = some (some k)) ∧
        ((0xff : Byte) ∈ k → t.accessA Bits.Hw.sel i = some none)) ∨
      (512 ≤ i ∧ t.access Bits.Hw.sel i = none ∧ t.accessA Bits.Hw.sel i = none) := by
  obtain ⟨L', t, v, l, P, hle, et, ok, hL', d⟩ := buildDict_ok hne hnul hW hL hbig
  refine ⟨t, et, ?_⟩
  intro i hi
  have h2 := ok.total
  have h3 := poly_mono (n := keys.length) hle
  have h7 := d.len
  have hlen : l.length < 2 ^ 41 := by omega
  by_cases hdom : i / 512 ≤ (l.take (l.length / 512 * 512)).count true / 512
  · obtain ⟨sb, es, hsel⟩ := Succ.C21_select_bmi2_partial v l d.built hlen
    obtain rfl : sb = t.leaves := Option.some.inj (es.symm.trans d.leaves)
    obtain ⟨p, e1, e2, _⟩ := hsel i (by rw [ones_count d]; exact hi) hdom
    obtain ⟨k, hk, ea, eA⟩ := accessA_eq ok hW hL' d _ e1 e2
    exact .inl ⟨k, hk, ea, fun hf => by rw [eA, if_neg hf], fun hf => by rw [eA, if_pos hf]⟩
  · refine .inr ⟨by omega, ?_⟩
    obtain ⟨sb, es, hsel⟩ := Succ.C21_select_tip_oob Bits.Hw.sel v l d.built (by
      rintro rfl
      have := ones_count d
      rw [List.count_nil] at this
      omega) hlen i hdom
    obtain rfl : sb = t.leaves := Option.some.inj (es.symm.trans d.leaves)
    simp only [Dict.access, Dict.accessA, hsel, Option.bind_eq_bind, Option.bind_none, and_self]

example := C128_samc_access_partial 32 (by decide) sample (by decide) (by decide) 3 (by decide) (by decide) (by decide)

/-- C128, SamcDict, portable build, fewer than 16 different keys: `access` with assertions gives back every key without a byte 255 and aborts for the others.
Missing as in `C128_samc_access_partial`, and more keys. -/
theorem C128_samc_access_portable_partial (W : Nat) (hW : W ≤ 64) (keys : List Key) (hne : keys ≠ []) (hnul : ∀ k ∈ keys, (0 : Byte) ∉ k)
    (L : Nat) (hL : ∀ k ∈ keys, k.length ≤ L) (hbig : (L + 2) * (1 + (L + 1) * (keys.length * keys.length)) < 2 ^ W)
    (hsz : (L + 2) * (1 + (L + 1) * (keys.length * keys.length)) < 2 ^ 41) (hn : keys.dedup.length < 16) :
    ∃ t, buildDict W keys = some t ∧ ∀ i, i < keys.dedup.length →
      ∃ k ∈ keys, t.access Bits.sel i = some k ∧ t.accessA Bits.sel i = some (if (0xff : Byte) ∈ k then none else some k) := by
  obtain ⟨L', t, v, l, P, hle, et, ok, hL', d⟩ := buildDict_ok hne hnul hW hL hbig
  refine ⟨t, et, ?_⟩
  have h2 := ok.total
  have h3 := poly_mono (n := keys.length) hle
  have h7 := d.len
  have hlen : l.length < 2 ^ 41 := by omega
  have hones := ones_count d
  have hpos : 0 < t.samc.storage.length := by
    rw [← h7]
    by_contra hc
    have : l = [] := List.length_eq_zero_iff.1 (by omega)
    rw [this, List.count_nil] at hones
    obtain ⟨k, hk⟩ := List.exists_mem_of_ne_nil _ hne
    have := List.length_pos_of_mem (List.mem_dedup.2 hk)
    omega
  intro i hi
  obtain ⟨sb, es, hsel⟩ := Succ.C21_select_exact_partial v l d.built hlen
  obtain rfl : sb = t.leaves := Option.some.inj (es.symm.trans d.leaves)
  obtain ⟨p, w, e1, e2, e3, e4⟩ := hsel i (by omega) (by omega)
  have hlow : lost (w.setWidth 32) = 0 := by
    apply lost_zero
    rw [Bits.ones_setWidth]
    have c1 := cntB_tail (fun j hj => dict_tail et hpos v d.leaves d.built.rep.words j hj) (64 * (p / 64) + 32)
    rw [← h7, Succ.cntB_list v l d.built.rep _ (Nat.le_refl _), List.take_length, Succ.cntB_word _ _ _ (by omega), List.getD_eq_getElem?_getD, e3] at c1
    simp only [Option.getD_some] at c1
    omega
  exact accessA_eq ok hW hL' d _ (e4.2 (.inl hlow)) e1

example := C128_samc_access_portable_partial 32 (by decide) sample (by decide) (by decide) 3 (by decide) (by decide) (by decide) (by decide)

/-- C128, SamcDict: the key "a\xff" is stored, found and read back without assertions; with them `access` aborts, in both builds. -/
theorem C128_samc_refuted : ∃ t, buildDict 32 [[0x61#8], [0x61#8, 0xff#8]] = some t ∧ t.lookup [0x61#8, 0xff#8] = some 1 ∧
    t.access Bits.sel 1 = some [0x61#8, 0xff#8] ∧ t.accessA Bits.sel 1 = some none ∧ t.accessA Bits.Hw.sel 1 = some none ∧
    t.accessA Bits.sel 0 = some (some [0x61#8]) := by
  have h : (buildDict 32 [[0x61#8], [0x61#8, 0xff#8]]).map (fun t => decide (t.lookup [0x61#8, 0xff#8] = some 1 ∧
      t.access Bits.sel 1 = some [0x61#8, 0xff#8] ∧ t.accessA Bits.sel 1 = some none ∧ t.accessA Bits.Hw.sel 1 = some none ∧
      t.accessA Bits.sel 0 = some (some [0x61#8]))) = some true := by decide +kernel
  obtain ⟨t, et, e⟩ := Option.map_eq_some_iff.1 h
  exact ⟨t, et, of_decide_eq_true e⟩

/-- C128, Samc: the construction from sorted keys passes its assertions and gives what it gives without. Missing: keys that are not sorted, see
`C128_samc_unsorted_refuted`. -/
theorem C128_samc_build_partial (W : Nat) (legacy : Bool) (hW : W ≤ 64) (keys : List Key) (hne : keys ≠ []) (hnul : ∀ k ∈ keys, (0 : Byte) ∉ k)
    (hs : keys.Pairwise (fun k k' => k ≤ k'))
    (L : Nat) (hL : ∀ k ∈ keys, k.length ≤ L) (hbig : (L + 2) * (1 + (L + 1) * (keys.length * keys.length)) < 2 ^ W) :
    ∃ s, build W legacy keys = some s ∧ buildA W legacy keys = some (some s) := by
  obtain ⟨L', s, hle, es, ok, hL'⟩ := build_ok (legacy := legacy) hne hnul hW hL hbig
  refine ⟨s, es, ?_⟩
  have hW1 : 1 < 2 ^ W := by
    have : 1 < (L + 2) * (1 + (L + 1) * (keys.length * keys.length)) := by
      have : (L + 2) * 1 ≤ (L + 2) * (1 + (L + 1) * (keys.length * keys.length)) := Nat.mul_le_mul_left _ (by omega)
      omega
    omega
  simp only [build, Option.bind_eq_bind, Option.bind_eq_some_iff] at es
  obtain ⟨st, e1, n, e2, m, e3, e4⟩ := es
  have eA := levels_assert hW hnul L hL hbig _ 0 _ st (ginv_start hW1 keys hne) ⟨by simp, by simp, by simp, by simpa using hs⟩ e1
  simp only [buildA, eA, e2, e3, Option.bind_eq_bind, Option.bind_some, Option.pure_def]
  rw [Option.pure_def, Option.some.injEq] at e4
  rw [e4]

example := C128_samc_build_partial 32 true (by decide) sample (by decide) (by decide) (by decide) 3 (by decide) (by decide)

/-- C128, Samc: the keys "ab", "b", "ac", in this order, are stored and accepted without assertions; with them the construction aborts. -/
theorem C128_samc_unsorted_refuted (legacy : Bool) : buildA 32 legacy [[0x61#8, 0x62#8], [0x62#8], [0x61#8, 0x63#8]] = some none ∧
    (build 32 legacy [[0x61#8, 0x62#8], [0x62#8], [0x61#8, 0x63#8]]).map (fun s => (s.accept [0x61#8, 0x62#8], s.accept [0x62#8], s.accept [0x61#8, 0x63#8])) =
      some (some true, some true, some true) := by
  cases legacy <;> decide +kernel

end Verif.Samc
