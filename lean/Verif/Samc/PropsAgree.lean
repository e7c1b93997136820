/-
Property C106: Trie, Samc and SamcDict know the same keys.
-/
import Verif.Samc.PropsSpace
import Verif.Trie.PropsNarrow

namespace Verif.Samc
open Verif.BV Verif.Serial

theorem lastItem_isSome {α : Type} (ops : List (List Byte × α)) (q : List Byte) : (Trie.lastItem ops q).isSome = decide (q ∈ ops.map Prod.fst) := by
  unfold Trie.lastItem
  rw [Option.isSome_map, Bool.eq_iff_iff, List.find?_isSome]
  simp

/-- C106: a trie filled with NUL-free keys in any order and with any items, a Samc and a SamcDict over the same keys answer alike for every NUL-free
string: a non-null pointer, `true`, and a number other than `kSearchError`; and the Samc has at least as many places as the trie has nodes. -/
theorem C106_agree {α : Type} (W w : Nat) (legacy : Bool) (hW1 : 1 ≤ W) (hW : W ≤ 64) (hw : w ≤ 64) (ops : List (List Byte × α)) (keys : List Key) (hne : keys ≠ [])
    (hset : ∀ k, k ∈ keys ↔ k ∈ ops.map Prod.fst) (hnul : ∀ k ∈ keys, (0 : Byte) ∉ k) (L : Nat) (hL : ∀ k ∈ keys, k.length ≤ L)
    (hbig : (L + 2) * (1 + (L + 1) * (keys.length * keys.length)) < 2 ^ 64) (s : Samc) (hs : build W legacy keys = some s)
    (d : Dict) (hd : buildDict W keys = some d) (Ps : List (List Byte)) (hPs : Ps.Nodup) (hP : ∀ v, v ∈ Ps ↔ ∃ k ∈ keys, v <+: k ++ [0]) (hfit : Ps.length ≤ 2 ^ w) :
    ∃ t, (Trie.Trie.empty w : Trie.Trie α).run w ops = some t ∧ t.container.length = Ps.length ∧ t.container.length ≤ s.storage.length ∧
      ∀ q : Key, (0 : Byte) ∉ q → ∃ (r : Option α) (b : Bool) (i : Nat), t.traverse q = some r ∧ s.accept q = some b ∧ d.lookup q = some i ∧
        (r.isSome = true ↔ q ∈ keys) ∧ (b = true ↔ q ∈ keys) ∧ (i ≠ searchError ↔ q ∈ keys) := by
  have hz : ∀ o ∈ ops, 0#8 ∉ o.1 := fun o ho => hnul o.1 ((hset _).2 (List.mem_map_of_mem ho))
  have hm : ∀ ws, ws ∈ Ps ↔ Trie.IsPrefix ops ws := by
    intro ws
    rw [hP]
    constructor
    · rintro ⟨k, hk, h⟩
      obtain ⟨o, ho, rfl⟩ := List.mem_map.1 ((hset k).1 hk)
      exact .inr ⟨o, ho, h⟩
    · rintro (rfl | ⟨o, ho, h⟩)
      · obtain ⟨k, hk⟩ := List.exists_mem_of_ne_nil _ hne
        exact ⟨k, hk, List.nil_prefix⟩
      · exact ⟨o.1, (hset _).2 (List.mem_map_of_mem ho), h⟩
  obtain ⟨t, e, ht⟩ := Trie.C57_narrow_fits w hw ops hz Ps hPs hm hfit
  obtain ⟨t', e', hc⟩ := Trie.C66_fits w ops Ps hPs hm hfit
  obtain rfl : t = t' := Option.some.inj (e.symm.trans e')
  have hacc := C59_defined W legacy hW1 hW keys hnul L hL hbig s hs
  -- the longest key
  obtain ⟨L', s', hle, es, ok, hL', hf⟩ := build_fits (W := W) (legacy := legacy) hne hnul hW1 hW hL hbig
  have hmax := Ok.places ok hL' hPs hP
  have hss : s = s' := by
    rw [hs] at hf
    split at hf
    · exact Option.some.inj hf
    · cases hf
  obtain ⟨d', ed, hdf, l1, l2, l3, l4⟩ := C60_fits W hW1 hW keys hne hnul L hL hbig
  have hdd : d = d' := by
    rw [hd] at hdf
    split at hdf
    · exact Option.some.inj hdf
    · cases hdf
  subst hss hdd
  refine ⟨t, e, hc, by omega, fun q hq => ?_⟩
  have hr : (Trie.lastItem ops q).isSome = true ↔ q ∈ keys := by
    rw [lastItem_isSome, decide_eq_true_iff, hset]
  by_cases hk : q ∈ keys
  · obtain ⟨i, h1, _, h2⟩ := l1 q hk
    exact ⟨_, _, i, ht q hq, hacc q hq, h1, hr, decide_eq_true_iff, by simp [hk, h2]⟩
  · exact ⟨_, _, searchError, ht q hq, hacc q hq, l4 q hq hk, hr, decide_eq_true_iff, by simp [hk]⟩

/-- The conditions on the keys hold for the keys a, ab, aÿ, b; the constructors are defined, and all three answer. -/
example : ((Trie.Trie.empty 32 : Trie.Trie Nat).run 32 [([0x62], 5), ([0x61], 1), ([0x61, 0xff], 2), ([0x61, 0x62], 3), ([0x61], 4)]).bind (fun t =>
      (t.traverse [0x61]).bind (fun r => (t.traverse [0x63]).map (fun r' => (t.container.length, r, r')))) = some (9, some 4, none) ∧
    (build 8 false sample).bind (fun s => (s.accept [0x61]).bind (fun r => (s.accept [0x63]).map (fun r' => (s.storage.length, r, r')))) = some (9, true, false) ∧
    (buildDict 8 sample).bind (fun s => (s.lookup [0x61]).bind (fun r => (s.lookup [0x63]).map (fun r' => (r, r')))) = some (0, searchError) := by decide +kernel

end Verif.Samc
