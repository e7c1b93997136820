/-
Property theorem C62 (SuffixArray.hpp), continued: exactly which suffixes are in the wrong order, for all texts.
-/
import Verif.SA.Swap
import Verif.SA.Props

namespace Verif.SA
open Verif.Serial

/-- The text with the 0 behind it, as numbers. -/
abbrev ended (str : List Byte) : List Nat := str.map BitVec.toNat ++ [0]

/-- For every non-empty text of bytes 1..127 the construction succeeds, the array is a permutation of the positions, and a suffix stands before a smaller one
exactly if the two are `Swapped`. So the array is correct if and only if no two suffixes are. Missing: that there are none, which is false (C62_refuted). -/
theorem C62_swapped_partial (str : List Byte) (h : Plain str) (h0 : str ≠ []) (hmax : str.length + 1 < 2 ^ 31) :
    ∃ o p, build str = some o ∧ o.str = str ∧ Holds o.sa p ∧ p.Perm (List.range str.length) ∧
      (∀ i j, Swapped (ended str) i j ↔ [i, j].Sublist p ∧ str.drop j < str.drop i) ∧
      (IsSuffixArray str p ↔ ∀ i j, ¬ Swapped (ended str) i j) := by
  have hT := saisStr_text h h0 hmax
  have hl := saisStr_length str
  obtain ⟨sa, e, hp, hz, hw⟩ := sais_swapped _ _ _ rfl hT
  obtain ⟨v, w, p, la, e1, _, e2, hp', hh, _⟩ := build_of h0 hmax e hp hz
  subst e2
  rw [saisStr_eq h] at hw
  have hlt : ∀ x, x ∈ p → x < str.length := fun x hx => List.mem_range.1 (hp'.mem_iff.1 hx)
  have hw' : ∀ i j, Swapped (ended str) i j ↔ [i, j].Sublist p ∧ str.drop j < str.drop i := by
    intro i j
    rw [hw]
    constructor
    · rintro ⟨hs, hd⟩
      rw [← saisStr_eq h] at hd
      have hs' : [i, j].Sublist p := by
        rcases List.sublist_cons_iff.1 hs with h1 | ⟨l, h1, h2⟩
        · exact h1
        · obtain ⟨rfl, rfl⟩ := List.cons.inj h1
          have hj := hlt j (List.singleton_sublist.1 h2)
          rw [saisStr_lt h (by omega) (Nat.le_refl _), List.drop_length] at hd
          exact absurd hd (List.not_lt_nil _)
      refine ⟨hs', ?_⟩
      have hi := hlt i (hs'.subset List.mem_cons_self)
      have hj := hlt j (hs'.subset (List.mem_cons_of_mem _ List.mem_cons_self))
      exact (saisStr_lt h (by omega) (by omega)).1 hd
    · rintro ⟨hs, hd⟩
      have hi := hlt i (hs.subset List.mem_cons_self)
      have hj := hlt j (hs.subset (List.mem_cons_of_mem _ List.mem_cons_self))
      refine ⟨hs.cons _, ?_⟩
      rw [← saisStr_eq h]
      exact (saisStr_lt h (by omega) (by omega)).2 hd
  refine ⟨_, p, e1, rfl, hh, hp', hw', ?_⟩
  constructor
  · rintro ⟨_, hs⟩ i j hc
    obtain ⟨h1, h2⟩ := (hw' i j).1 hc
    rw [List.pairwise_iff_forall_sublist] at hs
    exact List.lt_irrefl _ (List.lt_trans h2 (hs h1))
  · intro hn
    refine ⟨hp', ?_⟩
    rw [List.pairwise_iff_forall_sublist]
    intro i j hs
    apply Decidable.byContradiction
    intro hc
    have hi := hlt i (hs.subset List.mem_cons_self)
    have hne : i ≠ j := by
      have := hp'.nodup_iff.2 List.nodup_range
      rw [List.Nodup, List.pairwise_iff_forall_sublist] at this
      exact this hs
    refine hn i j ((hw' i j).2 ⟨hs, Decidable.byContradiction (fun hc' => ?_)⟩)
    have := congrArg List.length (List.le_antisymm hc hc')
    simp only [List.length_drop] at this
    have hj := hlt j (hs.subset (List.mem_cons_of_mem _ List.mem_cons_self))
    omega

/-- "bacbab": the suffixes at 0 and 3 are swapped, because "ab" and "acbab" come in the wrong order in the text. -/
example : Swapped (ended [98, 97, 99, 98, 97, 98]) 0 3 := by
  have hv : ∀ i, i < 7 → (Valley (ended [98, 97, 99, 98, 97, 98]) i ↔ i = 1 ∨ i = 4 ∨ i = 6) := by decide +kernel
  have hlen : (ended [98, 97, 99, 98, 97, 98]).length = 7 := rfl
  refine .flat (e := 1) ?_ ⟨by decide, by decide +kernel, by decide +kernel, fun t h1 h2 => by omega, ?_⟩ (by decide) (by decide +kernel)
  · rintro i j e hi hj hij ⟨he, h1, h2, _, h4⟩
    have hi' := (hv i (by have := hi.2.1; omega)).1 hi
    have hj' := (hv j (by have := hj.2.1; omega)).1 hj
    have h1' := (hv _ (by have := h1.2.1; omega)).1 h1
    have h2' := (hv _ (by have := h2.2.1; omega)).1 h2
    omega
  · intro t ht
    have : t = 0 ∨ t = 1 := by omega
    rcases this with rfl | rfl <;> rfl

/-- "dacabadacabac": two of its valleys are followed by the same letters, and the suffixes at 0 and 6 are swapped. -/
example : Swapped (ended [100, 97, 99, 97, 98, 97, 100, 97, 99, 97, 98, 97, 99]) 0 6 ∧ ¬ Distinct (ended [100, 97, 99, 97, 98, 97, 100, 97, 99, 97, 98, 97, 99]) := by
  constructor
  · obtain ⟨o, p, h1, _, h3, h4, h5, _⟩ := C62_swapped_partial [100, 97, 99, 97, 98, 97, 100, 97, 99, 97, 98, 97, 99] (by decide) (by decide) (by decide)
    refine (h5 0 6).2 ⟨?_, by decide⟩
    have hlen : p.length = 13 := by
      rw [h4.length_eq]
      rfl
    have hg : (build [100, 97, 99, 97, 98, 97, 100, 97, 99, 97, 98, 97, 99]).map (fun o => (o.sa.get 11, o.sa.get 12)) = some (some 0, some 6) := by decide +kernel
    rw [h1, Option.map_some] at hg
    obtain ⟨g1, g2⟩ := Prod.mk.inj (Option.some.inj hg)
    rw [h3.2 11 (by omega)] at g1
    rw [h3.2 12 (by omega)] at g2
    obtain ⟨l1, g1⟩ := List.getElem?_eq_some_iff.1 g1
    obtain ⟨l2, g2⟩ := List.getElem?_eq_some_iff.1 g2
    have hp : p.Pairwise (fun a b => [a, b].Sublist p) := List.pairwise_iff_forall_sublist.2 (fun h => h)
    have := List.pairwise_iff_getElem.1 hp 11 12 l1 l2 (by decide)
    rw [g1, g2] at this
    exact this
  · intro hd
    refine hd 1 7 2 (by decide +kernel) (by decide +kernel) (by decide) ⟨by decide, by decide +kernel, by decide +kernel, ?_, ?_⟩
    · intro t h1 h2
      have : t = 1 := by omega
      subst this
      decide +kernel
    · intro t ht
      have : t = 0 ∨ t = 1 ∨ t = 2 := by omega
      rcases this with rfl | rfl | rfl <;> rfl

end Verif.SA
