/-
Property theorem C77 (DacVector), the size of the object, and its consequence for C75.
-/
import Verif.Dac.Props
import Verif.Succ.PropsSpace
import Verif.Calc.PropsOpt

namespace Verif.Dac
open Verif.Bits Verif.Serial

theorem sum_bounds {α : Type} (f : α → Nat) (K : Nat) : ∀ (A : List α) (g : Nat → Nat),
    (∀ (i : Nat) a, A[i]? = some a → g i ≤ f a ∧ f a ≤ g i + K) →
    ((List.range A.length).map g).sum ≤ (A.map f).sum ∧ (A.map f).sum ≤ ((List.range A.length).map g).sum + K * A.length := by
  intro A
  induction A with
  | nil => intro g _; simp
  | cons a A ih =>
    intro g h
    obtain ⟨h1, h2⟩ := ih (fun i => g (i + 1)) (fun i b hb => h (i + 1) b (by rw [List.getElem?_cons_succ]; exact hb))
    obtain ⟨h3, h4⟩ := h 0 a rfl
    rw [List.length_cons, List.range_succ_eq_map, List.map_cons, List.map_map, List.map_cons, List.sum_cons, List.sum_cons, Nat.mul_succ]
    have e : (g ∘ Nat.succ) = fun i => g (i + 1) := rfl
    rw [e]
    omega

theorem spaceFrom_sum (cost c : Nat → Nat) : ∀ (us : List Nat) (t : Nat), Calc.spaceFrom cost c t us =
    ((List.range us.length).map (fun i => c (t + sh us i) * us.getD i 0)).sum +
      ((List.range (us.length - 1)).map (fun i => cost (c (t + sh us i)))).sum
  | [], t => rfl
  | [w], t => by simp [Calc.spaceFrom, sh_zero]
  | w :: w' :: ws, t => by
    have ih := spaceFrom_sum cost c (w' :: ws) (t + w)
    rw [Calc.spaceFrom, ih]
    have e : ∀ i, t + sh (w :: w' :: ws) (i + 1) = t + w + sh (w' :: ws) i := by
      intro i
      simp only [sh, List.take_succ_cons, List.sum_cons]
      omega
    have e1 : List.range (w :: w' :: ws).length = 0 :: (List.range (w' :: ws).length).map Nat.succ := List.range_succ_eq_map
    have e2 : List.range ((w :: w' :: ws).length - 1) = 0 :: (List.range ((w' :: ws).length - 1)).map Nat.succ := by
      simp only [List.length_cons, Nat.add_sub_cancel]
      exact List.range_succ_eq_map
    rw [e1, e2, List.map_cons, List.map_cons, List.map_map, List.map_map, List.sum_cons, List.sum_cons]
    have f1 : ((fun i => c (t + sh (w :: w' :: ws) i) * (w :: w' :: ws).getD i 0) ∘ Nat.succ) =
        fun i => c (t + w + sh (w' :: ws) i) * (w' :: ws).getD i 0 := by
      funext i
      simp only [Function.comp, Nat.succ_eq_add_one, e, List.getD_cons_succ]
    have f2 : ((fun i => cost (c (t + sh (w :: w' :: ws) i))) ∘ Nat.succ) = fun i => cost (c (t + w + sh (w' :: ws) i)) := by
      funext i
      simp only [Function.comp, Nat.succ_eq_add_one, e]
    rw [f1, f2, sh_zero]
    simp only [Nat.add_zero, List.getD_cons_zero]
    omega

theorem arr_reach (units : List Nat) (hu : ∀ u ∈ units, 1 ≤ u ∧ u ≤ 63) (d : Nat) (hd : d ≤ units.length) (xs : List Nat) :
    (arr units d xs).length = Calc.reach xs (sh units d) := by
  unfold arr Calc.reach
  by_cases h : d = 0
  · subst h
    rw [if_pos rfl, sh_zero, if_pos rfl]
  · have hpos : sh units d ≠ 0 := by
      cases units with
      | nil => simp at hd; omega
      | cons u us =>
        have := (hu u (by simp)).1
        cases d with
        | zero => omega
        | succ d => simp only [sh, List.take_succ_cons, List.sum_cons]; omega
    rw [if_neg h, if_neg hpos, List.filter_map, List.length_map]
    congr 1
    apply List.filter_congr
    intro v _
    simp only [Function.comp, decide_eq_decide]
    constructor
    · intro hv
      apply Decidable.byContradiction
      intro hc
      rw [Nat.div_eq_of_lt (by omega)] at hv
      omega
    · intro hv
      exact Nat.div_pos hv (Nat.two_pow_pos _)

theorem layer_bits {u : Nat} {L : Fit.FVec} {l : List Nat} (h : LayOk u L l) :
    l.length * u ≤ 8 * L.sizeInBytes ∧ 8 * L.sizeInBytes ≤ l.length * u + 255 := by
  have hs := h.size
  have hw := h.wf.len
  unfold Fit.need at hw
  rw [hs] at hw
  unfold Fit.FVec.sizeInBytes sizeVec
  rw [List.length_map]
  by_cases hz : l.length = 0 ∨ u = 0
  · have : l.length * u = 0 := by rcases hz with hz | hz <;> simp [hz]
    rw [if_pos hz] at hw
    omega
  · rw [if_neg hz] at hw
    have : 0 < l.length * u := Nat.mul_pos (by omega) (by omega)
    omega

/-- The size in bits is the estimate `space` of the split (C75) and at most 512 bits per layer and 128 bits more. -/
theorem C77_size (split : List Nat → Option (List Nat)) (list units : List Nat) (hne : list ≠ []) (hl : ∀ v ∈ list, v < 2 ^ 63)
    (hn : list.length < 2 ^ 31) (hu : UnitsOk list units) :
    ∃ d k, make split list units = some d ∧ d.sizeInBytes = some k ∧ Calc.space Calc.rankBits list units ≤ 8 * k ∧
      8 * k ≤ Calc.space Calc.rankBits list units + 512 * units.length + 128 := by
  obtain ⟨d, e, hok⟩ := ok_of_units split list units hne hl hn hu
  have hlp := List.length_pos_iff.2 hu.ne
  refine ⟨d, _, e, by
    unfold Dac.sizeInBytes
    simp only [hok.num, hok.us, Option.bind_eq_bind, Option.bind_some, Option.pure_def]
    rfl, ?_⟩
  rw [List.take_of_length_le (Nat.le_of_eq hok.llen), List.take_of_length_le (Nat.le_of_eq hok.plen)]
  have hL := sum_bounds (fun L : Fit.FVec => 8 * L.sizeInBytes) 255 d.layers (fun i => Calc.reach list (0 + sh units i) * units.getD i 0) (by
    intro i L hi
    have hil : i < units.length := by rw [← hok.llen]; exact (List.getElem?_eq_some_iff.1 hi).1
    obtain ⟨M, hM, hMo⟩ := hok.lay i _ (List.getElem?_eq_getElem hil)
    rw [hi] at hM
    obtain rfl := Option.some.inj hM
    have hb := layer_bits hMo
    rw [List.length_map, arr_reach units hu.width i (by omega)] at hb
    rw [Nat.zero_add, List.getD_eq_getElem?_getD, List.getElem?_eq_getElem hil]
    exact hb)
  have hP := sum_bounds (fun p : Succ.SBV => 8 * p.sizeInBytes false) 193 d.paths (fun i => Calc.rankBits (Calc.reach list (0 + sh units i))) (by
    intro i p hi
    have hil : i + 1 < units.length := by
      have := (List.getElem?_eq_some_iff.1 hi).1
      rw [hok.plen] at this
      omega
    obtain ⟨q, s, hs, hb, hbl⟩ := hok.pth i _ hil (List.getElem?_eq_getElem (by omega))
    rw [hi] at hs
    obtain rfl := Option.some.inj hs
    have hfl : (flags units i units[i] list).length = Calc.reach list (sh units i) := by
      rw [flags, List.length_map, arr_reach units hu.width i (by omega)]
    have hrpos : 0 < Calc.reach list (sh units i) := by
      obtain ⟨v, hv, hst⟩ := hu.start
      have hsi := hst i (by omega)
      rw [← Calc.reach_eq]
      apply List.length_pos_of_mem (a := v)
      rw [List.mem_filter]
      exact ⟨hv, decide_eq_true hsi⟩
    have hrle : Calc.reach list (sh units i) ≤ list.length := by
      rw [← Calc.reach_eq]; exact List.length_filter_le _ _
    obtain ⟨s', e', h1, h2, _⟩ := Succ.C76_space false q _ hbl (by
      intro hc
      rw [hc] at hfl
      simp at hfl
      omega) (by omega)
    rw [hb] at e'
    obtain rfl := Option.some.inj e'
    have h2' := h2 rfl
    rw [hfl] at h1 h2'
    simp only [Bool.false_eq_true, if_false] at h1
    rw [Nat.zero_add]
    unfold Calc.rankBits
    omega)
  unfold Calc.space
  rw [spaceFrom_sum]
  rw [hok.llen] at hL
  rw [hok.plen] at hP
  have e1 : ∀ A : List Fit.FVec, (A.map (fun L => 8 * L.sizeInBytes)).sum = 8 * (A.map Fit.FVec.sizeInBytes).sum := by
    intro A
    induction A with
    | nil => rfl
    | cons a A ih => rw [List.map_cons, List.map_cons, List.sum_cons, List.sum_cons, ih, Nat.mul_add]
  have e2 : ∀ A : List Succ.SBV, (A.map (fun p => 8 * p.sizeInBytes false)).sum = 8 * (A.map (Succ.SBV.sizeInBytes false)).sum := by
    intro A
    induction A with
    | nil => rfl
    | cons a A ih => rw [List.map_cons, List.map_cons, List.sum_cons, List.sum_cons, ih, Nat.mul_add]
  rw [e1] at hL
  rw [e2] at hP
  unfold sizeVec
  omega

example := C77_size (fun _ => none) [5, 300, 7] [4, 5] (by decide) (by decide) (by decide) ⟨by decide, by decide, by decide, ⟨300, by decide, by decide⟩⟩

theorem spaceFrom_last (cost c : Nat → Nat) (w w' : Nat) (h : w' ≤ w) : ∀ (a : List Nat) (t : Nat),
    Calc.spaceFrom cost c t (a ++ [w']) ≤ Calc.spaceFrom cost c t (a ++ [w])
  | [], t => by
    simp only [List.nil_append, Calc.spaceFrom]
    exact Nat.mul_le_mul_left _ h
  | [x], t => by
    have := spaceFrom_last cost c w w' h [] (t + x)
    simp only [List.cons_append, List.nil_append, Calc.spaceFrom] at this ⊢
    omega
  | x :: y :: a, t => by
    have := spaceFrom_last cost c w w' h (y :: a) (t + x)
    simp only [List.cons_append, Calc.spaceFrom] at this ⊢
    omega

/-- The vector with the computed widths, if these are fewer than `max_levels` (or `max_levels` is at least 63), is at most 64 bytes per layer
and 16 bytes larger than with any other widths the constructor accepts. Missing: results with exactly `max_levels` layers, where it is
false by `C75_limited_refuted`, and the out of bounds accesses of `C15_split_refuted`, which are taken as harmless. -/
theorem C75_object_partial (srt : List (Nat × Nat) → List (Nat × Nat)) (hsrt : ∀ l, (srt l).Perm l) (maxLevels : Nat)
    (list : List Nat) (hne : list ≠ []) (hl : ∀ v ∈ list, v < 2 ^ 63) (hn : list.length < 2 ^ 31) :
    ∃ d k m, make (Calc.splitPositions srt Calc.rankBits maxLevels) list [] = some d ∧ d.sizeInBytes = some k ∧ d.num = some m ∧
      (m < maxLevels ∨ 63 ≤ maxLevels → ∀ units, UnitsOk list units →
        ∃ d' k', make (Calc.splitPositions srt Calc.rankBits maxLevels) list units = some d' ∧ d'.sizeInBytes = some k' ∧
          k ≤ k' + 64 * m + 16) := by
  obtain ⟨r, er, h1, hmax, hopt⟩ := Calc.C75_optimal_partial srt hsrt Calc.rankBits maxLevels list hne hl hn (by
    intro k hk
    unfold Calc.rankBits
    omega)
  have hu := units_of_split srt hsrt Calc.rankBits maxLevels list hne hl hn r er
  obtain ⟨d, k, e, ek, _, hk⟩ := C77_size (Calc.splitPositions srt Calc.rankBits maxLevels) list r hne hl hn hu
  obtain ⟨d2, e2, hok⟩ := ok_of_units (Calc.splitPositions srt Calc.rankBits maxLevels) list r hne hl hn hu
  rw [e] at e2
  obtain rfl := Option.some.inj e2
  refine ⟨d, k, r.length, ?_, ek, hok.num, ?_⟩
  · unfold make at e ⊢
    rw [if_neg hne, if_neg hu.ne] at e
    rw [if_neg hne, if_pos rfl, er]
    exact e
  · intro hm units hus
    obtain ⟨d', k', e', ek', hk', _⟩ := C77_size (Calc.splitPositions srt Calc.rankBits maxLevels) list units hne hl hn hus
    refine ⟨d', k', e', ek', ?_⟩
    obtain ⟨v, hv, hvs⟩ := hmax
    have hb : Nat.log2 v + 1 ≤ units.sum := by
      have := hus.cover v hv
      have hw := hus.width
      by_cases h0 : v = 0
      · subst h0
        have hun := hus.ne
        cases units with
        | nil => exact absurd rfl hun
        | cons u us =>
          have := (hw u (by simp)).1
          simp only [List.sum_cons, Nat.log2_zero]
          omega
      · exact (Nat.log2_lt h0).2 this
    have hs : (units.dropLast).sum < r.sum := by
      obtain ⟨x, hx, hst⟩ := hus.start
      have h2 := hst (units.length - 1) (by have := List.length_pos_iff.2 hus.ne; omega)
      have h3 : x < 2 ^ r.sum := hu.cover x hx
      rw [← List.dropLast_eq_take] at h2
      have hlx : Nat.log2 x + 1 ≤ r.sum := by
        by_cases h0 : x = 0
        · subst h0
          rw [Nat.log2_zero]
          omega
        · exact (Nat.log2_lt h0).2 h3
      omega
    have hd : units = units.dropLast ++ [units.getLast hus.ne] := (List.dropLast_concat_getLast hus.ne).symm
    have hsum : units.sum = units.dropLast.sum + units.getLast hus.ne := by
      conv => lhs; rw [hd]
      simp
    have h4 := hopt hm (units.dropLast ++ [r.sum - units.dropLast.sum]) (by
      intro x hx
      rcases List.mem_append.1 hx with hx | hx
      · exact (hus.width x (List.dropLast_subset _ hx)).1
      · simp at hx; omega) (by simp; omega)
    have h5 := spaceFrom_last Calc.rankBits (Calc.reach list) (units.getLast hus.ne) (r.sum - units.dropLast.sum) (by omega) units.dropLast 0
    rw [← hd] at h5
    unfold Calc.space at h4 hk hk'
    omega

/-- A case: 40 small values and two large ones, 2 layers; one layer of 41 bits is a choice with another size. -/
example : ((make (Calc.splitPositions id Calc.rankBits 8) (List.replicate 40 1 ++ [2 ^ 40, 2 ^ 39 + 7]) []).bind Dac.num = some 2) ∧
    (make (Calc.splitPositions id Calc.rankBits 8) (List.replicate 40 1 ++ [2 ^ 40, 2 ^ 39 + 7]) []).bind Dac.sizeInBytes = some 152 ∧
    (make (Calc.splitPositions id Calc.rankBits 8) (List.replicate 40 1 ++ [2 ^ 40, 2 ^ 39 + 7]) [41]).bind Dac.sizeInBytes = some 264 := by
  decide +kernel

end Verif.Dac
