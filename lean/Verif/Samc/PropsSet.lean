/-
Property theorems C109: a Samc or SamcDict is determined by the set of its keys.
-/
import Verif.Samc.First
import Verif.Samc.PropsFits

namespace Verif.Samc
open Verif.BV Verif.Serial

/-! ### C109 -/

/-- Two lists with the same keys, in whatever order and with whatever repetitions, and either search give the same object, or both constructors are
undefined because the code type is too narrow. -/
theorem C109_set (W : Nat) (legacy legacy' : Bool) (hW1 : 1 ≤ W) (hW : W ≤ 64) (keys keys' : List Key) (hnul : ∀ k ∈ keys, (0 : Byte) ∉ k)
    (hset : ∀ k, k ∈ keys ↔ k ∈ keys') (L : Nat) (hL : ∀ k ∈ keys, k.length ≤ L)
    (hbig : (L + 2) * (1 + (L + 1) * (keys.length * keys.length)) < 2 ^ 64)
    (hbig' : (L + 2) * (1 + (L + 1) * (keys'.length * keys'.length)) < 2 ^ 64) : build W legacy keys = build W legacy' keys' := by
  by_cases hne : keys = []
  · subst hne
    have : keys' = [] := by
      cases keys' with
      | nil => rfl
      | cons k l => exact absurd ((hset k).2 (List.mem_cons_self ..)) (by simp)
    rw [this, C59_empty_ub, C59_empty_ub]
  · have hne' : keys' ≠ [] := by
      obtain ⟨k, hk⟩ := List.exists_mem_of_ne_nil _ hne
      exact List.ne_nil_of_mem ((hset k).1 hk)
    obtain ⟨s, es, hf, _⟩ := C59_fits W legacy hW1 hW keys hne hnul L hL hbig
    obtain ⟨s', es', hf', _⟩ := C59_fits W legacy' hW1 hW keys' hne' (fun k hk => hnul k ((hset k).2 hk)) L (fun k hk => hL k ((hset k).2 hk)) hbig'
    rw [build64_set hne hnul hset hL hbig hbig' legacy legacy', es'] at es
    obtain rfl := Option.some.inj es
    rw [hf, hf']

/-- `LegacyBuild` does not change the object. -/
theorem C109_legacy (W : Nat) (hW1 : 1 ≤ W) (hW : W ≤ 64) (keys : List Key) (hnul : ∀ k ∈ keys, (0 : Byte) ∉ k)
    (L : Nat) (hL : ∀ k ∈ keys, k.length ≤ L) (hbig : (L + 2) * (1 + (L + 1) * (keys.length * keys.length)) < 2 ^ 64) :
    build W true keys = build W false keys :=
  C109_set W true false hW1 hW keys keys hnul (fun _ => Iff.rfl) L hL hbig hbig

/-- The dictionary, so every id and every key behind an id, is determined by the set of the keys. -/
theorem C109_dict (W : Nat) (hW1 : 1 ≤ W) (hW : W ≤ 64) (keys keys' : List Key) (hnul : ∀ k ∈ keys, (0 : Byte) ∉ k)
    (hset : ∀ k, k ∈ keys ↔ k ∈ keys') (L : Nat) (hL : ∀ k ∈ keys, k.length ≤ L)
    (hbig : (L + 2) * (1 + (L + 1) * (keys.length * keys.length)) < 2 ^ 64)
    (hbig' : (L + 2) * (1 + (L + 1) * (keys'.length * keys'.length)) < 2 ^ 64) : buildDict W keys = buildDict W keys' := by
  unfold buildDict
  rw [C109_set W false false hW1 hW keys keys' hnul hset L hL hbig hbig']

/-- Two objects write the same bytes exactly if they hold the same keys. -/
theorem C109_file (W : Nat) (legacy legacy' : Bool) (hW1 : 1 ≤ W) (hW : W ≤ 64) (h8 : W % 8 = 0) (keys keys' : List Key)
    (hnul : ∀ k ∈ keys, (0 : Byte) ∉ k) (hnul' : ∀ k ∈ keys', (0 : Byte) ∉ k) (L : Nat) (hL : ∀ k ∈ keys, k.length ≤ L) (hL' : ∀ k ∈ keys', k.length ≤ L)
    (hbig : (L + 2) * (1 + (L + 1) * (keys.length * keys.length)) < 2 ^ 64)
    (hbig' : (L + 2) * (1 + (L + 1) * (keys'.length * keys'.length)) < 2 ^ 64)
    (s s' : Samc) (hs : build W legacy keys = some s) (hs' : build W legacy' keys' = some s') :
    s.write W = s'.write W ↔ ∀ k, k ∈ keys ↔ k ∈ keys' := by
  constructor
  · intro hw
    have r := (C67_samc_fits W legacy hW1 hW h8 keys hnul L hL hbig s hs []).1
    have r' := (C67_samc_fits W legacy' hW1 hW h8 keys' hnul' L hL' hbig' s' hs' []).1
    rw [hw, r', Option.some.injEq, Prod.mk.injEq] at r
    obtain ⟨rfl, _⟩ := r
    have a := C59_defined W legacy hW1 hW keys hnul L hL hbig s' hs
    have a' := C59_defined W legacy' hW1 hW keys' hnul' L hL' hbig' s' hs'
    have both : ∀ k : Key, (0 : Byte) ∉ k → (k ∈ keys ↔ k ∈ keys') := by
      intro k hk
      have := (a k hk).symm.trans (a' k hk)
      rwa [Option.some.injEq, decide_eq_decide] at this
    intro k
    exact ⟨fun hk => (both k (hnul k hk)).1 hk, fun hk => (both k (hnul' k hk)).2 hk⟩
  · intro hset
    rw [C109_set W legacy legacy' hW1 hW keys keys' hnul hset L hL hbig hbig', hs'] at hs
    rw [Option.some.inj hs]

/-- Keys out of order and with a repetition. -/
def shuffled : List Key := [[0x62#8], [0x61#8, 0x62#8, 0x63#8], [0x61#8], [0x62#8], [0x61#8, 0x62#8]]

/-- The same keys in order. -/
def ordered : List Key := [[0x61#8], [0x61#8, 0x62#8], [0x61#8, 0x62#8, 0x63#8], [0x62#8]]

theorem shuffled_set : ∀ k, k ∈ shuffled ↔ k ∈ ordered := by
  intro k
  simp only [shuffled, ordered, List.mem_cons, List.not_mem_nil, or_false]
  constructor
  · rintro (h | h | h | h | h) <;> simp [h]
  · rintro (h | h | h | h) <;> simp [h]

example : build 8 true shuffled = build 8 false ordered :=
  C109_set 8 true false (by decide) (by decide) shuffled ordered (by decide) shuffled_set 3 (by decide) (by decide) (by decide)

/-- The objects of the example are defined. -/
example : (build 8 true shuffled).isSome ∧ (build 8 false ordered).isSome ∧ (buildDict 8 shuffled).isSome := by decide +kernel

example : buildDict 8 shuffled = buildDict 8 ordered :=
  C109_dict 8 (by decide) (by decide) shuffled ordered (by decide) shuffled_set 3 (by decide) (by decide) (by decide)

example : build 8 true ordered = build 8 false ordered := C109_legacy 8 (by decide) (by decide) ordered (by decide) 3 (by decide) (by decide)

example (s s' : Samc) (hs : build 8 true shuffled = some s) (hs' : build 8 false ordered = some s') : s.write 8 = s'.write 8 :=
  (C109_file 8 true false (by decide) (by decide) (by decide) shuffled ordered (by decide) (by decide) 3 (by decide) (by decide) (by decide) (by decide)
    s s' hs hs').2 shuffled_set

end Verif.Samc
