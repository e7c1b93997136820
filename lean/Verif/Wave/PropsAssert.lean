/-
Property theorems C128 for `WaveletTree::rank(c, index)` in a build with assertions.
-/
import Verif.Wave.Props

namespace Verif.Wave
open Verif.Bits

/-- The loop of `rank(c, index)`, WaveletTree.hpp:85-91, with the assertion of line 88. The inner `none` is the abort. -/
def rankCLoopA (t : WT) (c : Nat) : (k depth id idx : Nat) → Option (Option Nat)
  | 0, _, _, idx => some (some idx)
  | k + 1, depth, id, idx => do
    let cbv ← t.nodes[id - 1]?
    let bit := bitOf t.height depth c
    let b ← cbv.get idx
    if bit = b then do
      let idx ← rankBit cbv bit idx
      rankCLoopA t c k (depth + 1) ((id <<< 1) ||| bit.toNat) idx
    else pure none

/-- `rank(c, index)` in a build with assertions, WaveletTree.hpp:83-93. -/
def WT.rankCA (t : WT) (c i : Nat) : Option (Option Nat) := rankCLoopA t c t.height 0 1 i

theorem rankCLoopA_spec {vec : List Nat} {t : WT} (ok : Ok vec t) (c i v : Nat) (hi : vec[i]? = some v) :
    ∀ k d, d + k = t.height → pre t.height d c = pre t.height d v →
      rankCLoopA t c k d (nid t.height d v) (posn vec t.height d v i) = some (if c = v then some ((vec.take i).count v) else none) := by
  intro k
  induction k with
  | zero =>
    intro d hd hp
    have : d = t.height := by omega
    subst this
    rw [pre_full, pre_full] at hp
    rw [posn_full, if_pos hp]
    rfl
  | succ k ih =>
    intro d hd hp
    obtain ⟨s, hs, hg, hr⟩ := get_step ok d i v (by omega) hi
    unfold rankCLoopA
    simp only [hs, hg, Option.bind_eq_bind, Option.bind_some]
    by_cases hb : bitOf t.height d c = bitOf t.height d v
    · rw [if_pos hb, hb, hr]
      simp only [Option.bind_some, nid_succ _ _ _ (show d < t.height by omega)]
      exact ih (d + 1) (by omega) (by rw [pre_succ _ _ _ (by omega), pre_succ _ _ _ (by omega), hp, hb])
    · rw [if_neg hb, if_neg (fun h => hb (by rw [h]))]
      rfl

/-- C128, WaveletTree: in a build with assertions `rank(c, i)`, `i` a position of the tree and `c` below `2^height`, returns the number of
earlier occurrences if position `i` holds `c` itself. Missing: every other `c`, see `C128_wavelet_refuted`. -/
theorem C128_wavelet_partial (vec : List Nat) (hne : vec ≠ []) (hv : ∀ v ∈ vec, v < 2 ^ 30) :
    ∃ t, make vec = some t ∧ ∀ i v, vec[i]? = some v → t.rankCA v i = some (some ((vec.take i).count v)) := by
  obtain ⟨t, e, ok, _, _⟩ := make_spec vec hne hv
  refine ⟨t, e, fun i v hi => ?_⟩
  have h := ok.lt v (List.mem_of_getElem? hi)
  have := rankCLoopA_spec ok v i v hi t.height 0 (by omega) rfl
  rw [nid_one _ _ h, posn_zero ok v i h (by have := (List.getElem?_eq_some_iff.1 hi).1; omega), if_pos rfl] at this
  exact this

/-- C128, WaveletTree: for every other `c` the assertion fires. -/
theorem C128_wavelet_refuted (vec : List Nat) (hne : vec ≠ []) (hv : ∀ v ∈ vec, v < 2 ^ 30) :
    ∃ t, make vec = some t ∧ (∀ v ∈ vec, v < 2 ^ t.height) ∧
      ∀ i v c, vec[i]? = some v → c < 2 ^ t.height → c ≠ v → t.rankCA c i = some none := by
  obtain ⟨t, e, ok, _, _⟩ := make_spec vec hne hv
  refine ⟨t, e, ok.lt, fun i v c hi hc hcv => ?_⟩
  have h := ok.lt v (List.mem_of_getElem? hi)
  have := rankCLoopA_spec ok c i v hi t.height 0 (by omega) (by rw [pre_zero _ _ hc, pre_zero _ _ h])
  rw [nid_one _ _ h, posn_zero ok v i h (by have := (List.getElem?_eq_some_iff.1 hi).1; omega), if_neg hcv] at this
  exact this

example := C128_wavelet_partial [3, 1, 200, 3] (by decide) (by decide)
example := C128_wavelet_refuted [3, 1, 200, 3] (by decide) (by decide)

/-- How often 3 occurs before the place of 1: 1 without assertions, an abort with them. -/
example : (make [3, 1, 200, 3]).map (fun t => (t.rankC 3 1, t.rankCA 3 1)) = some (some 1, some none) := by decide +kernel

end Verif.Wave
