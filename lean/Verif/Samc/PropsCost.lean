/-
C112: what the searches for free places read while a Samc is built.
-/
import Verif.Samc.CostBuild

namespace Verif.Samc
open Verif.BV Verif.Bits Verif.Serial Verif.IArr

/-- The number of reads of one search. `y` is the first place where all the indices fall on free positions. The search bit by bit makes exactly one read for
each index and each place up to `y`; the search with words makes at most two reads for each index and each 64 places up to `y`. -/
theorem C112_search {e : BVec} (hw : e.words.length = wordSize e.size) (ids : List Nat) (hne : ids ≠ []) (y : Nat)
    (hin : y + (lmax ids - lmin ids) < e.size) (hy : ∀ id ∈ ids, bitAt e.words (y + (id - lmin ids)) = true)
    (hmin : ∀ z, z < y → ∃ id ∈ ids, bitAt e.words (z + (id - lmin ids)) = false) :
    yFrontC true ids e 0 = some ((y : Int) - lmin ids, ids.length * (y + 1)) ∧
    ∃ r, yFrontC false ids e 0 = some ((y : Int) - lmin ids, r) ∧ r ≤ 2 * ids.length * (y / 64 + 1) := by
  have hmm := le_lmax ids _ (lmin_mem ids hne)
  have hsz : y + (1 + lmax ids - lmin ids) ≤ e.size := by omega
  have hmin' : ∀ z, z < y → ¬ FitsAt (bitAt e.words) ids (lmin ids) z := by
    intro z hz hf
    obtain ⟨id, hid, hb⟩ := hmin z hz
    rw [hf id hid] at hb
    exact Bool.noConfusion hb
  obtain ⟨r1, r2⟩ := yFront_reads hw ids hne y y hsz (Nat.le_refl _) hy hmin'
  have c := fun l => yFront_counts l ids e 0
  simp only [Nat.zero_add, yFront_first _ hw ids hne y y hsz (Nat.le_refl _) hy hmin', Option.map_some] at c
  exact ⟨by rw [c, r1], _, c false, r2⟩

/-- The reads of the whole construction. Both searches give the same object. With `r` the reads of the search with words and `R` those of the search
bit by bit: `r` is at most `R / 32` and about two reads for each edge of the trie, and `R` is at most cubic in the number of keys for each depth. -/
theorem C112_build {W : Nat} {legacy : Bool} {keys : List Key} {s : Samc} (hne : keys ≠ []) (hnul : ∀ k ∈ keys, 0 ∉ k) (hW1 : 1 ≤ W) (hW : W ≤ 64)
    {L : Nat} (hL : ∀ k ∈ keys, k.length ≤ L) (hbig : (L + 2) * (1 + (L + 1) * (keys.length * keys.length)) < 2 ^ 64)
    (hs : build W legacy keys = some s) :
    ∃ r R, buildC W false keys 0 = some (s, r) ∧ buildC W true keys 0 = some (s, R) ∧
      32 * r ≤ R + 63 * (keys.length * (L + 1)) ∧ R ≤ (L + 1) * (keys.length * (keys.length * keys.length + 1)) := by
  obtain ⟨b1, _, _, b3, b4⟩ := build_reads hne hnul hW1 hW hL hbig hs
  refine ⟨reads (buildC W false keys), reads (buildC W true keys), ?_, ?_, b3, b4⟩
  · rw [build_counts W false keys 0, b1, Nat.zero_add]; rfl
  · rw [build_counts W true keys 0, b1, Nat.zero_add]; rfl

/-- The number of reads does not depend on the type of the codes, as long as the construction succeeds. -/
theorem C112_types {W W' : Nat} {legacy : Bool} {keys : List Key} {s s' : Samc} {r r' : Nat} (hne : keys ≠ []) (hnul : ∀ k ∈ keys, 0 ∉ k)
    (hW1 : 1 ≤ W) (hW : W ≤ 64) (hW1' : 1 ≤ W') (hW' : W' ≤ 64) {L : Nat} (hL : ∀ k ∈ keys, k.length ≤ L)
    (hbig : (L + 2) * (1 + (L + 1) * (keys.length * keys.length)) < 2 ^ 64)
    (h : buildC W legacy keys 0 = some (s, r)) (h' : buildC W' legacy keys 0 = some (s', r')) : s = s' ∧ r = r' := by
  have key : ∀ {V : Nat} {t : Samc} {q : Nat}, 1 ≤ V → V ≤ 64 → buildC V legacy keys 0 = some (t, q) → build 64 legacy keys = some t ∧
      q = reads (levelsC 64 legacy (lmax (keys.map List.length) + 2) 0 ⟨[(0, 94)], [(0, keys)], [], [0, 1]⟩) := by
    intro V t q v1 v2 hv
    have hb : build V legacy keys = some t := by
      have := build_counts V legacy keys 0
      rw [hv] at this
      cases hx : build V legacy keys with
      | none => rw [hx] at this; cases this
      | some x =>
        rw [hx] at this
        simp only [Option.map_some, Option.some.injEq, Prod.mk.injEq] at this
        rw [this.1]
    obtain ⟨_, c2, c3, _⟩ := build_reads hne hnul v1 v2 hL hbig hb
    exact ⟨c2 _, by rw [← c3, reads_of hv]⟩
  obtain ⟨a1, a2⟩ := key hW1 hW h
  obtain ⟨b1, b2⟩ := key hW1' hW' h'
  exact ⟨Option.some.inj (a1.symm.trans b1), a2.trans b2.symm⟩

/-! Concrete cases. -/

def five : List Key := [[0x61#8], [0x61#8, 0x62#8], [0x61#8, 0x62#8, 0x63#8], [0x62#8], [0x62#8, 0x62#8]]

example (s : Samc) (hs : build 8 false five = some s) : ∃ r R, buildC 8 false five 0 = some (s, r) ∧ buildC 8 true five 0 = some (s, R) ∧
    32 * r ≤ R + 63 * (5 * 4) ∧ R ≤ 4 * (5 * (5 * 5 + 1)) :=
  C112_build (by decide) (by decide) (by decide) (by decide) (L := 3) (by decide) (by decide) hs

example : (build 8 false five).isSome := by decide +kernel

example : (buildC 8 false five 0).map Prod.snd = some 13 ∧ (buildC 8 true five 0).map Prod.snd = some 17 := by decide +kernel

/-- 130 places of which the first 100 are taken: the searches for the indices 3 and 8. -/
def taken : BVec := ⟨130, [0#64, BitVec.allOnes 64 <<< 36, 3#64]⟩

example : yFrontC true [3, 8] taken 0 = some (97, 202) ∧ yFrontC false [3, 8] taken 0 = some (97, 4) := by decide +kernel

example : ∃ r, yFrontC false [3, 8] taken 0 = some ((100 : Nat) - (lmin [3, 8] : Int), r) ∧ r ≤ 2 * 2 * (100 / 64 + 1) :=
  (C112_search (e := taken) (by decide) [3, 8] (by decide) 100 (by decide) (by decide +kernel) (by decide +kernel)).2

example (s s' : Samc) (r r' : Nat) (h : buildC 8 false five 0 = some (s, r)) (h' : buildC 32 false five 0 = some (s', r')) : s = s' ∧ r = r' :=
  C112_types (by decide) (by decide) (by decide) (by decide) (by decide) (by decide) (L := 3) (by decide) (by decide) h h'

end Verif.Samc
