/-
Property theorems C111 (Samc and SamcDict): what a query costs.
-/
import Verif.Samc.Reads
import Verif.Samc.PropsFits
import Verif.Wave.PropsReads

namespace Verif.Samc
open Verif.BV Verif.Serial Verif.Reads Verif.IArr

/-! ### C111 -/

/-- `accept` of a query of `m` bytes takes at most `4 (m + 1)` accesses, and at most `4 (L + 1)` if no key is longer than `L`, however many keys there are.
If no key begins with the first `p + 1` bytes of a query without byte 255, at most `4 (p + 1)`. -/
theorem C111_accept (W : Nat) (legacy : Bool) (hW1 : 1 ≤ W) (hW : W ≤ 64) (keys : List Key) (hne : keys ≠ []) (hnul : ∀ k ∈ keys, (0 : Byte) ∉ k)
    (L : Nat) (hL : ∀ k ∈ keys, k.length ≤ L) (hbig : (L + 2) * (1 + (L + 1) * (keys.length * keys.length)) < 2 ^ 64)
    (s : Samc) (hs : build W legacy keys = some s) (q : Key) (hq : (0 : Byte) ∉ q) :
    Within (s.acceptC q) (decide (q ∈ keys)) (4 * (min q.length L + 1)) ∧
      ∀ p, (0xff : Byte) ∉ q → (∀ k ∈ keys, ¬ q.take (p + 1) <+: k) → Within (s.acceptC q) false (4 * (p + 1)) := by
  have ha := C59_defined W legacy hW1 hW keys hnul L hL hbig s hs q hq
  obtain ⟨L', s', hle, es, ok, hL', hf⟩ := build_fits (W := W) (legacy := legacy) hne hnul hW1 hW hL hbig
  have hss : s = s' := by
    rw [hf] at hs
    split at hs
    · exact (Option.some.inj hs).symm
    · cases hs
  subst hss
  constructor
  · refine Costs.within ((accept_costs s q).mono ?_) ha
    rw [ok.clen]
    omega
  · intro p hff hp
    have hroot : Path keys [] := by
      obtain ⟨k, hk⟩ := List.exists_mem_of_ne_nil _ hne
      exact ⟨k, hk, List.nil_prefix⟩
    have hno : ¬ Path keys ([] ++ q.take (p + 1)) := by
      rw [List.nil_append, Path.nil_iff _ (fun h => hq (List.mem_of_mem_take h))]
      rintro ⟨k, hk, h⟩
      exact hp k hk h
    have hc := find_early ok (Nat.le_refl _) hL' q [] p hff hq hroot (Nat.zero_le _) hno
    have h0 : pos s.code [] = 0 := by cases s.code <;> simp [pos]
    rw [h0] at hc
    have hnot : q ∉ keys := fun h => hp q h (List.take_prefix ..)
    rw [decide_eq_false hnot] at ha
    exact Costs.within (Costs.bind (K' := 0) hc fun _ => Costs.pure _) ha

/-- `SamcDict::lookup` takes at most three accesses more than `accept`: whatever the number of keys, at most `4 (min(m, L) + 1) + 3`, and at most
`4 (p + 1)` if no key begins with the first `p + 1` bytes of a query without byte 255. -/
theorem C111_lookup (W : Nat) (hW1 : 1 ≤ W) (hW : W ≤ 64) (keys : List Key) (hne : keys ≠ []) (hnul : ∀ k ∈ keys, (0 : Byte) ∉ k)
    (L : Nat) (hL : ∀ k ∈ keys, k.length ≤ L) (hbig : (L + 2) * (1 + (L + 1) * (keys.length * keys.length)) < 2 ^ 64)
    (t : Dict) (ht : buildDict W keys = some t) :
    (∀ k ∈ keys, ∃ i, i < keys.dedup.length ∧ Within (t.lookupC k) i (4 * (k.length + 1) + 3)) ∧
      (∀ q : Key, (0 : Byte) ∉ q → q ∉ keys → Within (t.lookupC q) searchError (4 * (min q.length L + 1) + 3)) ∧
      ∀ (q : Key) (p : Nat), (0 : Byte) ∉ q → (0xff : Byte) ∉ q → (∀ k ∈ keys, ¬ q.take (p + 1) <+: k) →
        Within (t.lookupC q) searchError (4 * (p + 1)) := by
  obtain ⟨L', t', v, l, P, hle, et, ok, hL', d, hf⟩ := buildDict_fits (W := W) hne hnul hW1 hW hL hbig
  have htt : t = t' := by
    rw [hf] at ht
    split at ht
    · exact (Option.some.inj ht).symm
    · cases ht
  subst htt
  obtain ⟨t', et', h1, _, _, h4⟩ := C60_lookup 64 (Nat.le_refl _) keys hne hnul L hL hbig
  obtain rfl : t = t' := Option.some.inj (et.symm.trans et')
  refine ⟨fun k hk => ?_, fun q hq hm => ?_, fun q p hq hff hp => ?_⟩
  · obtain ⟨i, hi, hlt, _⟩ := h1 k hk
    exact ⟨i, hlt, Costs.within ((lookup_costs t k).mono (by omega)) hi⟩
  · refine Costs.within ((lookup_costs t q).mono ?_) (h4 q hq hm)
    rw [ok.clen]
    omega
  · have hroot : Path keys [] := by
      obtain ⟨k, hk⟩ := List.exists_mem_of_ne_nil _ hne
      exact ⟨k, hk, List.nil_prefix⟩
    have hno : ¬ Path keys ([] ++ q.take (p + 1)) := by
      rw [List.nil_append, Path.nil_iff _ (fun h => hq (List.mem_of_mem_take h))]
      rintro ⟨k, hk, h⟩
      exact hp k hk h
    have hc := find_early ok (Nat.le_refl _) hL' q [] p hff hq hroot (Nat.zero_le _) hno
    have h0 : pos t.samc.code [] = 0 := by cases t.samc.code <;> simp [pos]
    rw [h0] at hc
    refine lookup_none hc ?_
    rw [find_root ok (Nat.le_refl _) hL' hne hnul q hq, if_neg (fun h => hp q h (List.take_prefix ..))]

/-- Four keys over `a`, `b`, `c`. -/
def four : List Key := [[0x61#8], [0x61#8, 0x62#8], [0x61#8, 0x62#8, 0x63#8], [0x62#8]]

example (s : Samc) (hs : build 8 false four = some s) : Within (s.acceptC [0x61#8, 0x62#8, 0x63#8, 0x61#8, 0x61#8, 0x61#8]) false 16 :=
  (C111_accept 8 false (by decide) (by decide) four (by decide) (by decide) 3 (by decide) (by decide) s hs _ (by decide)).1

example (s : Samc) (hs : build 8 false four = some s) : Within (s.acceptC [0x61#8, 0x63#8, 0x63#8, 0x61#8]) false 8 :=
  (C111_accept 8 false (by decide) (by decide) four (by decide) (by decide) 3 (by decide) (by decide) s hs _ (by decide)).2 1 (by decide) (by decide)

example : (build 8 false four).isSome ∧ (buildDict 8 four).isSome := by decide +kernel

/-- The bound is met: accepting `ab` takes its 12 accesses. -/
example : (build 8 false four).bind (fun s => s.acceptC [0x61#8, 0x62#8] 0) = some (true, 12) := by decide +kernel

example (t : Dict) (ht : buildDict 8 four = some t) : Within (t.lookupC [0x63#8, 0x61#8, 0x61#8]) searchError 4 :=
  (C111_lookup 8 (by decide) (by decide) four (by decide) (by decide) 3 (by decide) (by decide) t ht).2.2 _ 0 (by decide) (by decide) (by decide)

example (t : Dict) (ht : buildDict 8 four = some t) : ∃ i, i < 4 ∧ Within (t.lookupC [0x61#8, 0x62#8]) i 15 :=
  (C111_lookup 8 (by decide) (by decide) four (by decide) (by decide) 3 (by decide) (by decide) t ht).1 _ (by decide)

end Verif.Samc
