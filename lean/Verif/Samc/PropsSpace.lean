/-
Property C105: the space of Samc.
-/
import Verif.Samc.PropsFits

namespace Verif.Samc
open Verif.BV Verif.Serial

/-- Different prefixes of the keys have different places. -/
theorem Ok.pos_inj {W : Nat} {keys : List Key} {L : Nat} {s : Samc} (h : Ok W keys L s) (hL : ∀ k ∈ keys, k.length ≤ L) {w w' : List Byte}
    (hw : Path keys w) (hw' : Path keys w') (e : pos s.code w = pos s.code w') : w = w' := by
  have i1 := h.inside w hw
  have i2 := h.inside w' hw'
  refine h.inj w w' hw hw' ?_ e
  have l1 := hw.length_le hL
  have l2 := hw'.length_le hL
  rw [← e] at i2
  exact depth_unique (L := L + 1) h.mono l1 l2 i1.1 i1.2 i2.1 i2.2

theorem Ok.pos_lt {W : Nat} {keys : List Key} {L : Nat} {s : Samc} (h : Ok W keys L s) (hL : ∀ k ∈ keys, k.length ≤ L) {w : List Byte}
    (hw : Path keys w) : pos s.code w < s.storage.length := by
  have i1 := h.inside w hw
  have l1 := hw.length_le hL
  have := mono_le (L := L + 1) h.mono (w.length + 1) (L + 2) (by omega) (by omega)
  rw [h.slen]
  omega

/-- There are as many places as different prefixes. -/
theorem Ok.places {W : Nat} {keys : List Key} {L : Nat} {s : Samc} (h : Ok W keys L s) (hL : ∀ k ∈ keys, k.length ≤ L) {Ps : List (List Byte)}
    (hPs : Ps.Nodup) (hP : ∀ w, w ∈ Ps ↔ ∃ k ∈ keys, w <+: k ++ [0]) : Ps.length ≤ s.storage.length := by
  have hn : (Ps.map (pos s.code)).Nodup := by
    rw [List.nodup_map_iff_inj_on hPs]
    intro w hw w' hw' e
    exact h.pos_inj hL ((hP w).1 hw) ((hP w').1 hw') e
  have := (List.subperm_of_subset hn (l₂ := List.range s.storage.length) (by
    intro x hx
    obtain ⟨w, hw, rfl⟩ := List.mem_map.1 hx
    exact List.mem_range.2 (h.pos_lt hL ((hP w).1 hw)))).length_le
  rwa [List.length_map, List.length_range] at this

/-- C105: for every code type and every list of keys for which the constructor is defined. With `L` the length of the longest key there are `L + 1`
tables of 256 codes and `L + 3` heads; the number of places is at least the number of different prefixes of the keys with their terminator (`Ps` lists
them) and at most `(L + 2) * (1 + (L + 1) * N²)` for `N` keys. -/
theorem C105_space (W : Nat) (legacy : Bool) (hW1 : 1 ≤ W) (hW : W ≤ 64) (keys : List Key) (hnul : ∀ k ∈ keys, (0 : Byte) ∉ k)
    (L : Nat) (hL : ∀ k ∈ keys, k.length ≤ L) (hex : ∃ k ∈ keys, k.length = L)
    (hbig : (L + 2) * (1 + (L + 1) * (keys.length * keys.length)) < 2 ^ 64)
    (s : Samc) (hs : build W legacy keys = some s) (Ps : List (List Byte)) (hPs : Ps.Nodup) (hP : ∀ w, w ∈ Ps ↔ ∃ k ∈ keys, w <+: k ++ [0]) :
    Ps.length ≤ s.storage.length ∧ s.storage.length ≤ (L + 2) * (1 + (L + 1) * (keys.length * keys.length)) ∧
      s.sizeInBytes W = s.storage.length + 256 * (W / 8) * (L + 1) + (W / 8) * (L + 3) + 24 := by
  obtain ⟨k, hk, hkL⟩ := hex
  have hne : keys ≠ [] := List.ne_nil_of_mem hk
  obtain ⟨L', s', hle, es, ok, hL', hf⟩ := build_fits (W := W) (legacy := legacy) hne hnul hW1 hW hL hbig
  have : L' = L := by
    have := hL' k hk
    omega
  subst this
  rw [hs] at hf
  split at hf
  · cases hf
    refine ⟨ok.places hL hPs hP, ok.total, ?_⟩
    · simp only [Samc.sizeInBytes, sizeVec, ok.clen, ok.hlen]
      omega
  · cases hf

/-- The keys a, ab, aÿ, b have nine prefixes and take nine places, so the lower bound is attained: 9 + 256 * 3 + 5 + 24 bytes with codes of 8 bits. -/
example : let Ps : List (List Byte) := [[], [0x61], [0x61, 0], [0x61, 0x62], [0x61, 0x62, 0], [0x61, 0xff], [0x61, 0xff, 0], [0x62], [0x62, 0]]
    Ps.Nodup ∧ (∀ w ∈ Ps, ∃ k ∈ sample, w <+: k ++ [0]) ∧ (∀ k ∈ sample, ∀ w ∈ (k ++ [0]).inits, w ∈ Ps) ∧
    (build 8 false sample).map (fun s => (s.storage.length, s.sizeInBytes 8)) = some (9, 806) := by decide +kernel

/-- All hypotheses hold for these keys. -/
example (s : Samc) (hs : build 8 false sample = some s) (Ps : List (List Byte)) (hPs : Ps.Nodup) (hP : ∀ w, w ∈ Ps ↔ ∃ k ∈ sample, w <+: k ++ [0]) :
    Ps.length ≤ s.storage.length ∧ s.storage.length ≤ 196 ∧ s.sizeInBytes 8 = s.storage.length + 797 :=
  C105_space 8 false (by decide) (by decide) sample (by decide) 2 (by decide) (by decide) (by decide) s hs Ps hPs hP

end Verif.Samc
