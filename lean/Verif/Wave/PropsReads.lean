/-
Property theorems C108: how many cells the queries of the succinct structures read.
-/
import Verif.Wave.Reads
import Verif.Wave.PropsSpace
import Verif.Dac.Props
import Verif.Fit.Props
import Verif.Succ.Props

namespace Verif.Reads
open Verif.IArr

/-- The query returns `x` and reads at most `K` cells. -/
def Within {β : Type} (m : M β) (x : β) (K : Nat) : Prop := ∃ k, m 0 = some (x, k) ∧ k ≤ K

theorem Costs.within {β : Type} {m : M β} {p : Option β} {K : Nat} (h : Costs m p K) {x : β} (e : p = some x) : Within m x K := by
  obtain ⟨h1, h2⟩ := h 0
  rw [e] at h1
  obtain ⟨r, hr, rfl⟩ := Option.map_eq_some_iff.1 h1
  exact ⟨r.2, hr, by have := h2 r hr; omega⟩

/-- C108: `rank` and `rank_0` of every bit vector read three cells, an element one. -/
theorem C108_rank (us : Bool) (v : BV.BVec) (l : List Bool) (h : BV.Built v l) :
    ∃ s, Succ.build us v = some s ∧ ∀ i b, l[i]? = some b →
      Within (rank1C s i) ((l.take i).count true) 3 ∧ Within (rank0C s i) ((l.take i).count false) 3 ∧ Within (bitGetC s.bits i) b 1 := by
  obtain ⟨s, e, hs⟩ := Succ.C20_rank us v l h
  refine ⟨s, e, fun i b hb => ?_⟩
  obtain ⟨h1, h2, h3⟩ := hs i (List.getElem?_eq_some_iff.1 hb).1
  exact ⟨Costs.within (rank1_costs s i) h1, Costs.within (rank0_costs s i) h2, Costs.within (bitGet_costs s.bits i) (h3.trans hb)⟩

/-- C108: an element of a FitVector takes two cells. -/
theorem C108_fit (l : List Nat) (hl : l ≠ []) (hb : ∀ x ∈ l, x < 2 ^ 63) :
    ∃ v, Fit.ofVector l = some v ∧ ∀ i x, l[i]? = some x → Within (fitGetC v i) x 2 := by
  obtain ⟨v, e, _, h, _⟩ := Fit.C26_ofVector l hl hb
  exact ⟨v, e, fun i x hx => Costs.within (fitGet_costs v i) ((h i (List.getElem?_eq_some_iff.1 hx).1).trans hx)⟩

/-- C108: an element of a DacVector whose value fits into the first `j + 1` layers takes at most `9 j + 6` cells, however long the vector is. -/
theorem C108_dac (split : List Nat → Option (List Nat)) (list units : List Nat) (hne : list ≠ []) (hl : ∀ v ∈ list, v < 2 ^ 63)
    (hn : list.length < 2 ^ 31) (hu : Dac.UnitsOk list units) :
    ∃ d, Dac.make split list units = some d ∧ ∀ i x, list[i]? = some x → ∀ j, x < 2 ^ (units.take (j + 1)).sum → Within (dacGetC d i) x (9 * j + 6) := by
  obtain ⟨d, e, h1⟩ := Dac.C33_depth split list units hne hl hn hu
  obtain ⟨d', e', _, h2, _⟩ := Dac.C32_values split list units hne hl hn hu
  rw [e] at e'
  cases e'
  refine ⟨d, e, fun i x hx j hj => ?_⟩
  obtain ⟨r, er, _, hr⟩ := h1 i x hx
  have := hr j hj
  exact Costs.within ((dacGet_costs d i r er).mono (by omega)) ((h2 i (List.getElem?_eq_some_iff.1 hx).1).trans hx)

/-- C108: if the values of a WaveletTree are below `2 ^ h`, then an access, a rank and both together take at most `5 h` cells, and the rank of a letter
up to a place that holds it at most `4 h`. -/
theorem C108_wave (vec : List Nat) (hne : vec ≠ []) (hv : ∀ v ∈ vec, v < 256) (h : Nat) (h1 : 1 ≤ h) (hh : ∀ v ∈ vec, v < 2 ^ h) :
    ∃ t, Wave.make vec = some t ∧ ∀ i v, vec[i]? = some v →
      Within (waveGetC t i) v (5 * h) ∧ Within (waveRankC t i) ((vec.take i).count v) (5 * h) ∧
      Within (accessAndRankC t i) (v, (vec.take i).count v) (5 * h) ∧
      ∀ j, j ≤ i → Within (waveRankCC t v j) ((vec.take j).count v) (4 * h) := by
  have hv' : ∀ v ∈ vec, v < 2 ^ 30 := fun v hv' => Nat.lt_of_lt_of_le (hv v hv') (by decide)
  obtain ⟨t, e, _, ha⟩ := Wave.C34_access vec hne hv
  obtain ⟨t1, e1, hr⟩ := Wave.C35_rank vec hne hv
  obtain ⟨t2, e2, hc⟩ := Wave.C36_rank_own vec hne hv'
  rw [e] at e1 e2
  cases e1
  cases e2
  have ht := Wave.make_height hv' e h h1 hh
  refine ⟨t, e, fun i v hi => ?_⟩
  obtain ⟨r1, r2⟩ := hr i v hi
  refine ⟨Costs.within ((waveGet_costs t i).mono (by omega)) ((ha i (List.getElem?_eq_some_iff.1 hi).1).trans hi), ?_, ?_, fun j hj => ?_⟩
  · exact Costs.within ((rankLoop_costs t _ _ _).mono (by omega)) r1
  · exact Costs.within ((accRankLoop_costs t _ _ _ _ _).mono (by omega)) r2
  · exact Costs.within ((rankCLoop_costs t v _ _ _ _).mono (by omega)) (hc j i v hi hj)

example := C108_wave [3, 1, 200, 3] (by decide) (by decide) 8 (by decide) (by decide)
example := C108_fit [5, 1000, 0] (by decide) (by decide)

/-- Values of one byte need one layer of eight bits, 6 cells; 70000 needs the third, 24 cells. -/
example : ∃ d, Dac.make (fun _ => none) [5, 70000, 255, 300] [8, 4, 8] = some d ∧ Within (dacGetC d 2) 255 6 ∧ Within (dacGetC d 1) 70000 24 := by
  obtain ⟨d, e, h⟩ := C108_dac (fun _ => none) [5, 70000, 255, 300] [8, 4, 8] (by decide) (by decide) (by decide)
    ⟨by decide, by decide, by decide, 70000, by decide, by decide⟩
  exact ⟨d, e, h 2 255 rfl 0 (by decide), h 1 70000 rfl 2 (by decide)⟩

example : ∃ t, Wave.make [3, 0, 7, 7, 1] = some t ∧ Within (waveRankC t 3) 1 15 := by
  obtain ⟨t, e, h⟩ := C108_wave [3, 0, 7, 7, 1] (by decide) (by decide) 3 (by decide) (by decide)
  exact ⟨t, e, (h 3 7 rfl).2.1⟩

example : ∃ v, Fit.ofVector [5, 1000, 3] = some v ∧ Within (fitGetC v 1) 1000 2 := by
  obtain ⟨v, e, h⟩ := C108_fit [5, 1000, 3] (by decide) (by decide)
  exact ⟨v, e, h 1 1000 rfl⟩

example : ∃ v s, BV.Built v (List.replicate 1500 true) ∧ Succ.build false v = some s ∧ Within (rank1C s 700) 700 3 := by
  obtain ⟨v, hv⟩ := BV.Built.exists (List.replicate 1500 true)
  obtain ⟨s, e, h⟩ := C108_rank false v _ hv
  have := (h 700 true (by rw [List.getElem?_replicate]; rfl)).1
  rw [List.take_replicate, List.count_replicate_self] at this
  exact ⟨v, s, hv, e, this⟩

end Verif.Reads
