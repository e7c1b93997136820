/-
Properties C34 - C37: WaveletTree.
-/
import Verif.Wave.Lemmas
import Verif.Succ.Props

namespace Verif.Wave
open Verif.Bits Verif.Serial

/-! ### C34 -/

/-- A wavelet tree over any non-empty list of bytes has the size of the list and returns every element. -/
theorem C34_access (vec : List Nat) (hne : vec ≠ []) (hv : ∀ v ∈ vec, v < 256) :
    ∃ t, make vec = some t ∧ t.sizeOf = some vec.length ∧ ∀ i, i < vec.length → t.get i = vec[i]? := by
  obtain ⟨t, e, ok, _, _⟩ := make_spec vec hne (fun v h => Nat.lt_of_lt_of_le (hv v h) (by decide))
  refine ⟨t, e, size_spec ok, ?_⟩
  intro i hi
  rw [List.getElem?_eq_getElem hi, get_spec ok i _ (List.getElem?_eq_getElem hi), Nat.mod_eq_of_lt (hv _ (List.getElem_mem hi))]

/-- For larger values (below 2^30) the element comes back reduced modulo 256, because `operator[]` returns a `uint8_t`. -/
theorem C34_access_wide (vec : List Nat) (hne : vec ≠ []) (hv : ∀ v ∈ vec, v < 2 ^ 30) :
    ∃ t, make vec = some t ∧ t.sizeOf = some vec.length ∧ ∀ i v, vec[i]? = some v → t.get i = some (v % 256) := by
  obtain ⟨t, e, ok, _, _⟩ := make_spec vec hne hv
  exact ⟨t, e, size_spec ok, fun i v hi => get_spec ok i v hi⟩

example := C34_access_wide [3, 300, 70000] (by decide) (by decide)

/-- The empty list is outside of the domain: the maximum of an empty range is dereferenced. -/
theorem C34_empty_ub : make [] = none := rfl

example : ∃ t, make [3, 0, 255, 7, 7] = some t ∧ t.sizeOf = some 5 ∧ ∀ i, i < 5 → t.get i = [3, 0, 255, 7, 7][i]? :=
  C34_access [3, 0, 255, 7, 7] (by decide) (by decide)

/-! ### C35 -/

/-- `rank(i)` counts the earlier positions holding the value of position `i`; `AccessAndRank(i)` returns that value
and that number. -/
theorem C35_rank (vec : List Nat) (hne : vec ≠ []) (hv : ∀ v ∈ vec, v < 256) :
    ∃ t, make vec = some t ∧ ∀ i v, vec[i]? = some v →
      t.rank i = some ((vec.take i).count v) ∧ t.accessAndRank i = some (v, (vec.take i).count v) := by
  obtain ⟨t, e, ok, _, _⟩ := make_spec vec hne (fun v h => Nat.lt_of_lt_of_le (hv v h) (by decide))
  refine ⟨t, e, ?_⟩
  intro i v hi
  have hm := List.mem_of_getElem? hi
  obtain ⟨h1, h2⟩ := rank_spec ok i v hi
  rw [Nat.mod_eq_of_lt (hv v hm)] at h2
  exact ⟨h1, h2⟩

/-- The same for values below 2^30, the returned value being reduced modulo 256. -/
theorem C35_rank_wide (vec : List Nat) (hne : vec ≠ []) (hv : ∀ v ∈ vec, v < 2 ^ 30) :
    ∃ t, make vec = some t ∧ ∀ i v, vec[i]? = some v →
      t.rank i = some ((vec.take i).count v) ∧ t.accessAndRank i = some (v % 256, (vec.take i).count v) := by
  obtain ⟨t, e, ok, _, _⟩ := make_spec vec hne hv
  exact ⟨t, e, fun i v hi => rank_spec ok i v hi⟩

example := C35_rank_wide [3, 1000, 3] (by decide) (by decide)

example : ∃ t, make [3, 0, 255, 7, 7] = some t ∧ ∀ i v, [3, 0, 255, 7, 7][i]? = some v →
      t.rank i = some (([3, 0, 255, 7, 7].take i).count v) ∧ t.accessAndRank i = some (v, ([3, 0, 255, 7, 7].take i).count v) :=
  C35_rank [3, 0, 255, 7, 7] (by decide) (by decide)

/-! ### C36 -/

/-- `rank(c, i)` is the number of positions before `i` holding `c` for every `c` below 2^height and every
`i ≤ size()`, provided that on each level the values sharing the high bits of `c` either occur at or after `i`,
or are not a positive multiple of 64 in number. Missing: the remaining `i`, see `C36_rank_domain`. -/
theorem C36_rank_partial (vec : List Nat) (hne : vec ≠ []) (hv : ∀ v ∈ vec, v < 2 ^ 30) :
    ∃ t, make vec = some t ∧ (∀ v ∈ vec, v < 2 ^ t.height) ∧ ∀ c i, c < 2 ^ t.height → i ≤ vec.length →
      (∀ k, 1 ≤ k → k ≤ t.height → (∃ w ∈ vec.drop i, w / 2 ^ k = c / 2 ^ k) ∨
        (vec.countP (fun w => w / 2 ^ k == c / 2 ^ k)) % 64 ≠ 0 ∨ vec.countP (fun w => w / 2 ^ k == c / 2 ^ k) = 0) →
      t.rankC c i = some ((vec.take i).count c) := by
  obtain ⟨t, e, ok, _, _⟩ := make_spec vec hne hv
  refine ⟨t, e, ok.lt, ?_⟩
  intro c i hc hi hdom
  exact rankC_spec ok c i hc hi (fun d hd => (dom_iff vec t.height d c i).2 (hdom (t.height - d) (by omega) (by omega)))

example := C36_rank_partial [3, 1, 200, 3] (by decide) (by decide)

/-- Every position inside of the list whose value is asked for itself, as the callers in the library do. -/
theorem C36_rank_own (vec : List Nat) (hne : vec ≠ []) (hv : ∀ v ∈ vec, v < 2 ^ 30) :
    ∃ t, make vec = some t ∧ ∀ i j c, vec[j]? = some c → i ≤ j → t.rankC c i = some ((vec.take i).count c) := by
  obtain ⟨t, e, ok, _, _⟩ := make_spec vec hne hv
  refine ⟨t, e, ?_⟩
  intro i j c hj hij
  have hjl : j < vec.length := (List.getElem?_eq_some_iff.1 hj).1
  refine rankC_spec ok c i (ok.lt c (List.mem_of_getElem? hj)) (by omega)
    (fun d hd => (dom_iff vec t.height d c i).2 (Or.inl ⟨c, ?_, rfl⟩))
  exact List.mem_of_getElem? (i := j - i) (by rw [List.getElem?_drop, Nat.add_sub_cancel' hij]; exact hj)

/-- Outside of the domain of `C36_rank_partial` a word that does not exist is read. -/
theorem C36_rank_domain (vec : List Nat) (hne : vec ≠ []) (hv : ∀ v ∈ vec, v < 2 ^ 30) :
    ∃ t, make vec = some t ∧ ∀ c i, c < 2 ^ t.height → i ≤ vec.length →
      ¬ (∀ k, 1 ≤ k → k ≤ t.height → (∃ w ∈ vec.drop i, w / 2 ^ k = c / 2 ^ k) ∨
        (vec.countP (fun w => w / 2 ^ k == c / 2 ^ k)) % 64 ≠ 0 ∨ vec.countP (fun w => w / 2 ^ k == c / 2 ^ k) = 0) →
      t.rankC c i = none := by
  obtain ⟨t, e, ok, _, _⟩ := make_spec vec hne hv
  refine ⟨t, e, ?_⟩
  intro c i hc hi hdom
  apply rankC_none ok c i hc hi
  obtain ⟨k, hk⟩ := Classical.not_forall.1 hdom
  obtain ⟨h1, hk⟩ := Classical.not_imp.1 hk
  obtain ⟨h2, hk⟩ := Classical.not_imp.1 hk
  refine ⟨t.height - k, by omega, ?_⟩
  intro hc2
  have := (dom_iff vec t.height (t.height - k) c i).1 hc2
  rw [show t.height - (t.height - k) = k by omega] at this
  exact hk this

example := C36_rank_domain (List.replicate 64 1) (by decide) (by decide)

/-- The full property is false: 64 equal values, the position after the last one. -/
theorem C36_rank_refuted : ∃ vec c i, vec ≠ [] ∧ (∀ v ∈ vec, v < 256) ∧ i ≤ vec.length ∧
    ∃ t, make vec = some t ∧ c < 2 ^ t.height ∧ t.rankC c i = none := by
  refine ⟨List.replicate 64 1, 1, 64, by decide, by decide, by decide, ?_⟩
  obtain ⟨t, e, h1, _⟩ := C36_rank_partial (List.replicate 64 1) (by decide) (by decide)
  obtain ⟨t', e', h2⟩ := C36_rank_domain (List.replicate 64 1) (by decide) (by decide)
  rw [e] at e'
  obtain rfl := Option.some.inj e'
  have hc : 1 < 2 ^ t.height := h1 1 (by decide)
  have hp : 1 ≤ t.height := by
    rcases Nat.eq_zero_or_pos t.height with h | h
    · rw [h] at hc; exact absurd hc (by decide)
    · exact h
  refine ⟨t, e, hc, h2 1 64 hc (by decide) ?_⟩
  intro hall
  rcases hall 1 (by decide) hp with ⟨w, hw, _⟩ | h | h
  · exact absurd hw (by simp)
  · exact absurd h (by decide)
  · exact absurd h (by decide)

example : ∃ t, make [3, 0, 255, 7, 7] = some t ∧ ∀ i j c, [3, 0, 255, 7, 7][j]? = some c → i ≤ j →
    t.rankC c i = some (([3, 0, 255, 7, 7].take i).count c) := C36_rank_own [3, 0, 255, 7, 7] (by decide) (by decide)

example : (make [3, 0, 2, 1, 1]).bind (fun t => t.rankC 1 5) = some 2 := by decide +kernel

/-! ### C37 -/

/-- Reading a written tree into any tree with the same number of nodes reproduces it exactly, and consumes exactly the
bytes written, `size_in_bytes()` of them. -/
theorem C37_roundtrip (vec : List Nat) (hne : vec ≠ []) (hv : ∀ v ∈ vec, v < 2 ^ 30) (hl : vec.length < 2 ^ 41) :
    ∃ t, make vec = some t ∧ t.write.length = t.sizeInBytes ∧
      ∀ (old : WT) (st : Stream), old.nodes.length = t.nodes.length → old.read (t.write ++ st) = some (t, st) := by
  obtain ⟨t, e, ok, hs, hlf⟩ := make_spec vec hne hv
  refine ⟨t, e, write_length ok hl, ?_⟩
  intro old st ho
  exact read_write ok hl hs hlf old st ho

/-- In particular two trees over values of the same bit length can be read into each other. -/
theorem C37_roundtrip_same_height (vec vec' : List Nat) (hne : vec ≠ []) (hv : ∀ v ∈ vec, v < 2 ^ 30) (hl : vec.length < 2 ^ 41)
    (hne' : vec' ≠ []) (hv' : ∀ v ∈ vec', v < 2 ^ 30) :
    ∃ t t', make vec = some t ∧ make vec' = some t' ∧
      (t.height = t'.height → ∀ st : Stream, t'.read (t.write ++ st) = some (t, st)) := by
  obtain ⟨t, e, ok, hs, hlf⟩ := make_spec vec hne hv
  obtain ⟨t', e', ok', _, _⟩ := make_spec vec' hne' hv'
  exact ⟨t, t', e, e', fun hh st => read_write ok hl hs hlf t' st (by rw [ok.len, ok'.len, hh])⟩

/-- A default constructed tree has no nodes: reading into it takes only the three numbers, so every element access
afterwards faults. -/
theorem C37_default (vec : List Nat) (hne : vec ≠ []) (hv : ∀ v ∈ vec, v < 2 ^ 30) :
    ∃ t rest, make vec = some t ∧ (⟨0, 0, 0, []⟩ : WT).read t.write = some (⟨t.height, t.leafs, t.size, []⟩, rest) ∧ rest ≠ [] ∧
      ∀ i, (⟨t.height, t.leafs, t.size, []⟩ : WT).get i = none := by
  obtain ⟨t, e, ok, hs, hlf⟩ := make_spec vec hne hv
  refine ⟨t, (t.nodes.map (Succ.SBV.write false)).flatten, e, read_default ok hs hlf, ?_, ?_⟩
  · obtain ⟨b, s, hb, _⟩ := ok.node 0 0 ok.pos (by decide)
    intro h0
    have := write_ne_nil s
    exact this (List.flatten_eq_nil_iff.1 h0 _ (List.mem_map.2 ⟨s, List.mem_of_getElem? hb, rfl⟩))
  · intro i
    unfold WT.get
    simp only
    cases h : t.height - 1 with
    | zero => rfl
    | succ k => rfl

example := C37_roundtrip [3, 1, 200, 3] (by decide) (by decide) (by decide)
example := C37_roundtrip_same_height [3, 1, 200, 3] [255, 7] (by decide) (by decide) (by decide) (by decide) (by decide)

example : ∃ t, make [3, 0, 255, 7, 7] = some t ∧ t.write.length = t.sizeInBytes ∧
      ∀ (old : WT) (st : Stream), old.nodes.length = t.nodes.length → old.read (t.write ++ st) = some (t, st) :=
  C37_roundtrip [3, 0, 255, 7, 7] (by decide) (by decide) (by decide)

end Verif.Wave
