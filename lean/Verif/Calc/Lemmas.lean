/-
Helper facts about calc.hpp.
-/
import Verif.Calc.Model
import Mathlib.Tactic.Ring
import Mathlib.Tactic.Linarith
import Mathlib.Algebra.BigOperators.Group.List.Basic

namespace Verif.Calc

theorem shr_zero (v s : Nat) : v >>> s = 0 ↔ v < 2 ^ s := by
  rw [Nat.shiftRight_eq_div_pow]
  constructor
  · intro h
    rcases Nat.div_eq_zero_iff.1 h with h | h
    · have := Nat.two_pow_pos s; omega
    · exact h
  · exact Nat.div_eq_of_lt

/-- Some `k` units suffice, with `k u ≤ 63`, `k > size`; all smaller counts do not. -/
theorem sizeFitsLoop_spec (v u : Nat) (hu : 0 < u) :
    ∀ (d size k : Nat), size + d + 1 = k → k * u < 64 → v < 2 ^ (k * u) →
      (∀ j, 1 ≤ j → j ≤ size → ¬ v < 2 ^ (j * u)) →
      ∃ k', sizeFitsLoop v u size = some k' ∧ 1 ≤ k' ∧ v < 2 ^ (k' * u) ∧
        ∀ j, 1 ≤ j → v < 2 ^ (j * u) → k' ≤ j
  | d, size, k, hk, h64, hv, hlt => by
    have hle : (size + 1) * u ≤ k * u := Nat.mul_le_mul_right _ (by omega)
    rw [sizeFitsLoop, if_neg (by omega)]
    by_cases hz : v < 2 ^ ((size + 1) * u)
    · rw [if_pos ((shr_zero _ _).2 hz)]
      refine ⟨size + 1, rfl, by omega, hz, ?_⟩
      intro j hj hvj
      by_contra hcon
      exact hlt j hj (by omega) hvj
    · rw [if_neg (fun h => hz ((shr_zero _ _).1 h)), if_neg (by omega)]
      cases d with
      | zero =>
        subst hk
        exact absurd hv hz
      | succ d =>
        apply sizeFitsLoop_spec v u hu d (size + 1) k (by omega) h64 hv
        intro j hj hjs
        by_cases e : j = size + 1
        · subst e; exact hz
        · exact hlt j hj (by omega)

theorem sizeFitsLoop_none (v u : Nat) (hu : 0 < u) (hv : ∀ k, k * u < 64 → ¬ v < 2 ^ (k * u)) :
    ∀ (d size : Nat), 64 ≤ size + d → sizeFitsLoop v u size = none
  | 0, size, h => by
    rw [sizeFitsLoop, if_pos]
    have : (size + 1) * 1 ≤ (size + 1) * u := Nat.mul_le_mul (Nat.le_refl _) (by omega)
    omega
  | d + 1, size, h => by
    rw [sizeFitsLoop]
    by_cases h1 : (size + 1) * u ≥ 64
    · rw [if_pos h1]
    · rw [if_neg h1, if_neg (fun h => hv (size + 1) (by omega) ((shr_zero _ _).1 h)), if_neg (by omega)]
      exact sizeFitsLoop_none v u hu hv d (size + 1) (by omega)

/-- Bit length of a value; zero has length 1. -/
def bitLen (v : Nat) : Nat := Nat.log2 v + 1

theorem bitLen_le_iff (v k : Nat) (hk : 1 ≤ k) : bitLen v ≤ k ↔ v < 2 ^ k := by
  unfold bitLen
  by_cases h : v = 0
  · subst h; simp; omega
  · rw [← Nat.log2_lt h]; omega

theorem sizeFitsInBits_eq (v : Nat) (hv : v < 2 ^ 63) : sizeFitsInBits v = some (bitLen v) := by
  obtain ⟨k, h1, h2, h3, h4⟩ := sizeFitsLoop_spec v 1 (by decide) 62 0 63 (by decide) (by decide) (by simpa using hv)
    (by intro j h1 h2; omega)
  have : k = bitLen v := by
    simp only [Nat.mul_one] at h3 h4
    have a := (bitLen_le_iff v k h2).2 h3
    have b : 1 ≤ bitLen v := by unfold bitLen; omega
    have c := h4 (bitLen v) b ((bitLen_le_iff v _ b).1 (Nat.le_refl _))
    omega
  subst this
  exact h1

theorem asListLoop_spec : ∀ (sizes : List Nat) (v n : Nat), (∀ s ∈ sizes, s < 64) → v < 2 ^ sizes.sum → sizes ≠ [] →
    ∃ k, sizeFitsAsListLoop v sizes n = some (n + k) ∧ 1 ≤ k ∧ k ≤ sizes.length ∧ v < 2 ^ (sizes.take k).sum ∧
      ∀ j, 1 ≤ j → v < 2 ^ (sizes.take j).sum → k ≤ j
  | [], _, _, _, _, h => absurd rfl h
  | s :: rest, v, n, hs, hv, _ => by
    rw [sizeFitsAsListLoop]
    have h64 : s < 64 := hs s (by simp)
    rw [if_neg (by omega)]
    by_cases hz : v < 2 ^ s
    · rw [if_pos ((shr_zero _ _).2 hz)]
      exact ⟨1, rfl, by omega, by simp, by simpa using hz, fun j hj _ => hj⟩
    · rw [if_neg (fun h => hz ((shr_zero _ _).1 h))]
      have hdiv : ∀ t, v >>> s < 2 ^ t ↔ v < 2 ^ (s + t) := by
        intro t
        rw [Nat.shiftRight_eq_div_pow, Nat.div_lt_iff_lt_mul (Nat.two_pow_pos s), Nat.pow_add, Nat.mul_comm]
      have hne : rest ≠ [] := by
        rintro rfl
        simp at hv; exact hz hv
      obtain ⟨k, h1, h2, h3, h4, h5⟩ := asListLoop_spec rest (v >>> s) (n + 1)
        (fun x hx => hs x (by simp [hx])) ((hdiv _).2 (by simpa using hv)) hne
      refine ⟨k + 1, by rw [h1]; congr 1; omega, by omega, by simpa using h3, ?_, ?_⟩
      · simpa using (hdiv _).1 h4
      · intro j hj hvj
        cases j with
        | zero => omega
        | succ j =>
          simp only [List.take_succ_cons, List.sum_cons] at hvj
          have hj1 : 1 ≤ j := by
            rcases Nat.eq_zero_or_pos j with h | h
            · subst h; simp at hvj; exact absurd hvj hz
            · exact h
          have := h5 j hj1 ((hdiv _).2 hvj)
          omega

/-- Histogram invariant. -/
def IsHist (l : List Nat) (map : List Nat) (mx : Nat) : Prop :=
  map.length = mx ∧ (∀ v ∈ l, bitLen v ≤ mx) ∧ (mx = 0 ∨ ∃ v ∈ l, bitLen v = mx) ∧
  ∀ k, k < mx → map.getD k 0 = l.countP (fun v => bitLen v == k + 1)

theorem blfStep_spec (l map : List Nat) (mx v : Nat) (h : IsHist l map mx) (hv : v < 2 ^ 63) :
    ∃ map' mx', blfStep (map, mx) v = some (map', mx') ∧ IsHist (l ++ [v]) map' mx' := by
  obtain ⟨h1, h2, h3, h4⟩ := h
  have hb : 1 ≤ bitLen v := by unfold bitLen; omega
  unfold blfStep
  rw [sizeFitsInBits_eq v hv]
  simp only [Option.bind_eq_bind, Option.bind_some]
  by_cases hgt : bitLen v > mx
  · rw [if_pos hgt]
    simp only
    have hlen := vresize_length map (bitLen v) 0
    have hlt : bitLen v - 1 < (vresize map (bitLen v) 0).length := by omega
    rw [List.getElem?_eq_getElem hlt]
    simp only [Option.bind_some]
    rw [wr_eq _ _ _ hlt]
    refine ⟨_, _, rfl, by simp [hlen], ?_, Or.inr ⟨v, by simp, rfl⟩, ?_⟩
    · intro w hw
      rcases List.mem_append.1 hw with hw | hw
      · have := h2 w hw; omega
      · simp at hw; subst hw; exact Nat.le_refl _
    · intro k hk
      rw [List.countP_append]
      simp only [List.countP_singleton]
      rw [List.getD_eq_getElem?_getD, List.getElem?_set]
      have hg : ∀ k (h : k < (vresize map (bitLen v) 0).length),
          (vresize map (bitLen v) 0)[k] = l.countP (fun w => bitLen w == k + 1) := by
        intro k hk
        have e := vresize_getElem? map (bitLen v) 0 k
        rw [List.getElem?_eq_getElem hk, if_pos (by omega)] at e
        rw [Option.some.inj e]
        by_cases hkm : k < map.length
        · rw [dif_pos hkm]
          have := h4 k (by omega)
          simpa [List.getD_eq_getElem?_getD, hkm] using this
        · rw [dif_neg hkm]
          symm
          rw [List.countP_eq_zero]
          intro w hw
          have := h2 w hw
          simp; omega
      by_cases hkv : bitLen v - 1 = k
      · rw [if_pos hkv, if_pos hlt]
        simp only [Option.getD_some]
        rw [hg, hkv]
        have : bitLen v = k + 1 := by omega
        simp [this]
      · rw [if_neg hkv, List.getElem?_eq_getElem (by omega)]
        simp only [Option.getD_some]
        rw [hg]
        have : ¬ bitLen v = k + 1 := by omega
        simp [this]
  · rw [if_neg hgt]
    simp only
    have hlt : bitLen v - 1 < map.length := by omega
    rw [List.getElem?_eq_getElem hlt]
    simp only [Option.bind_some]
    rw [wr_eq _ _ _ hlt]
    refine ⟨_, _, rfl, by simp [h1], ?_, ?_, ?_⟩
    · intro w hw
      rcases List.mem_append.1 hw with hw | hw
      · exact h2 w hw
      · simp at hw; subst hw; omega
    · rcases h3 with h3 | ⟨w, hw, e⟩
      · exact Or.inl h3
      · exact Or.inr ⟨w, by simp [hw], e⟩
    · intro k hk
      rw [List.countP_append]
      simp only [List.countP_singleton]
      rw [List.getD_eq_getElem?_getD, List.getElem?_set]
      have hg : ∀ k (h : k < map.length), map[k] = l.countP (fun w => bitLen w == k + 1) := by
        intro k hk
        have := h4 k (by omega)
        simpa [List.getD_eq_getElem?_getD, hk] using this
      by_cases hkv : bitLen v - 1 = k
      · rw [if_pos hkv, if_pos hlt]
        simp only [Option.getD_some]
        rw [hg, hkv]
        have : bitLen v = k + 1 := by omega
        simp [this]
      · rw [if_neg hkv, List.getElem?_eq_getElem (by omega)]
        simp only [Option.getD_some]
        rw [hg]
        have : ¬ bitLen v = k + 1 := by omega
        simp [this]

theorem blfLoop_spec : ∀ (vs l map : List Nat) (mx : Nat), IsHist l map mx → (∀ v ∈ vs, v < 2 ^ 63) →
    ∃ map' mx', blfLoop vs (map, mx) = some (map', mx') ∧ IsHist (l ++ vs) map' mx'
  | [], l, map, mx, h, _ => ⟨map, mx, rfl, by simpa using h⟩
  | v :: vs, l, map, mx, h, hv => by
    obtain ⟨m1, x1, e1, i1⟩ := blfStep_spec l map mx v h (hv v (by simp))
    obtain ⟨m2, x2, e2, i2⟩ := blfLoop_spec vs (l ++ [v]) m1 x1 i1 (fun w hw => hv w (by simp [hw]))
    exact ⟨m2, x2, by simp [blfLoop, e1, e2], by simpa using i2⟩

theorem blf_hist (l : List Nat) (hl : ∀ v ∈ l, v < 2 ^ 63) :
    ∃ map, bitLengthFrequencies l = some map ∧ IsHist l map map.length := by
  obtain ⟨m, x, e, i⟩ := blfLoop_spec l [] [] 0 ⟨rfl, by simp, Or.inl rfl, by simp⟩ hl
  have : x = m.length := i.1.symm
  subst this
  exact ⟨m, by simp [bitLengthFrequencies, e], by simpa using i⟩

theorem toInt32_small (x : Int) (h0 : 0 ≤ x) (h : x < 2 ^ 31) : toInt32 x = x := by
  unfold toInt32
  rw [Int.bmod_def]
  have : x % ((2 ^ 32 : Nat) : Int) = x := Int.emod_eq_of_lt h0 (by norm_num; omega)
  rw [this]; norm_num; omega

theorem intToSize_small (x : Nat) (h : x < 2 ^ 31) : intToSize x = x := by
  unfold intToSize
  rw [Int.emod_eq_of_lt (by omega) (by omega)]; simp

theorem cumLoop_spec : ∀ (map : List Nat), map.sum < 2 ^ 31 →
    (cumLoop map).1 = map.sum ∧ (cumLoop map).2.length = map.length ∧
      ∀ k, k < map.length → (cumLoop map).2.getD k 0 = (map.drop k).sum
  | [], _ => ⟨rfl, rfl, by simp⟩
  | x :: xs, h => by
    simp only [List.sum_cons] at h
    obtain ⟨h1, h2, h3⟩ := cumLoop_spec xs (by omega)
    have e : toInt32 ((cumLoop xs).1 + x) = ((x + xs.sum : Nat) : Int) := by
      rw [h1, toInt32_small _ (by omega) (by omega)]; push_cast; ring
    refine ⟨?_, ?_, ?_⟩
    · simp only [cumLoop, e, List.sum_cons]
    · simp [cumLoop, h2]
    · intro k hk
      cases k with
      | zero =>
        simp only [cumLoop, e, List.getD_cons_zero, List.drop_zero, List.sum_cons]
        exact intToSize_small _ (by omega)
      | succ k =>
        simp only [cumLoop, List.getD_cons_succ, List.drop_succ_cons]
        exact h3 k (by simpa using hk)

theorem hist_drop_sum (l map : List Nat) (h : IsHist l map map.length) :
    ∀ (d k : Nat), k + d = map.length → (map.drop k).sum = l.countP (fun v => decide (k < bitLen v))
  | 0, k, hk => by
    rw [List.drop_eq_nil_of_le (by omega)]
    symm
    simp only [List.sum_nil, List.countP_eq_zero]
    intro v hv
    have := h.2.1 v hv
    simp; omega
  | d + 1, k, hk => by
    have hkl : k < map.length := by omega
    rw [List.drop_eq_getElem_cons hkl, List.sum_cons, hist_drop_sum l map h d (k + 1) (by omega)]
    have e := h.2.2.2 k hkl
    simp only [List.getD_eq_getElem?_getD, List.getElem?_eq_getElem hkl, Option.getD_some] at e
    rw [e]
    clear e h
    induction l with
    | nil => rfl
    | cons v vs ih =>
      simp only [List.countP_cons]
      by_cases h1 : bitLen v = k + 1
      · simp [h1]; omega
      · by_cases h2 : k < bitLen v
        · simp [h1, h2, show k + 1 < bitLen v by omega]; omega
        · simp [h1, h2, show ¬ k + 1 < bitLen v by omega]; omega

end Verif.Calc
