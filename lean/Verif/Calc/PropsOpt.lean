/-
Property theorem C75 (calc.hpp): the split for DacVector takes the least space.
-/
import Verif.Calc.Opt
import Verif.Calc.Props

namespace Verif.Calc

/-- The number of values that reach the layer that begins at bit `t`: all for the first layer, the values with more than `t` bits for the others. -/
def reach (l : List Nat) (t : Nat) : Nat := if t = 0 then l.length else (l.filter (fun v => decide (2 ^ t ≤ v))).length

/-- Bits of the layers and, estimated by `cost`, of the bit vectors of a `DacVector` for `l` with the widths `us`. -/
def space (cost : Nat → Nat) (l us : List Nat) : Nat := spaceFrom cost (reach l) 0 us

theorem reach_eq (l : List Nat) (t : Nat) : (l.filter fun v => decide (t < Nat.log2 v + 1)).length = reach l t := by
  unfold reach
  split
  · rename_i h
    subst h
    rw [List.filter_eq_self.2 (by simp)]
  · rename_i h
    congr 1
    apply List.filter_congr
    intro v _
    rw [decide_eq_decide]
    by_cases hv : v = 0
    · subst hv
      have : 0 < 2 ^ t := Nat.two_pow_pos t
      simp [Nat.log2_zero, h]
    · rw [Nat.lt_succ_iff, Nat.le_log2 hv]

theorem spaceFrom_congr (cost c c' : Nat → Nat) (n : Nat) (h : ∀ i, i < n → c i = c' i) : ∀ (us : List Nat) (t : Nat), (∀ x ∈ us, 0 < x) →
    t + us.sum ≤ n → spaceFrom cost c t us = spaceFrom cost c' t us
  | [], t, _, _ => rfl
  | [w], t, hp, hs => by
    have := hp w (by simp)
    simp at hs
    rw [spaceFrom, spaceFrom, h t (by omega)]
  | w :: w' :: ws, t, hp, hs => by
    have := hp w (by simp)
    rw [List.sum_cons] at hs
    rw [spaceFrom, spaceFrom, h t (by omega),
      spaceFrom_congr cost c c' n h (w' :: ws) (t + w) (fun x hx => hp x (by simp [List.mem_cons.1 hx])) (by omega)]

/-- When the result has fewer than `max_levels` entries, or `max_levels` is at least 63, no other split of the same bits takes less space by the
estimate of the code (`rankBits`, and any other estimate below 2^63). Missing: results with exactly `max_levels` entries, where it is false
(`C75_limited_refuted`), and the out of bounds accesses of `C15_split_refuted`, which are taken as harmless. -/
theorem C75_optimal_partial (srt : List (Nat × Nat) → List (Nat × Nat)) (hsrt : ∀ l, (srt l).Perm l)
    (cost : Nat → Nat) (maxLevels : Nat) (l : List Nat) (hne : l ≠ []) (hl : ∀ v ∈ l, v < 2 ^ 63)
    (hn : l.length < 2 ^ 31) (hcost : ∀ k, k ≤ l.length → cost k < 2 ^ 63) :
    ∃ r, splitPositions srt cost maxLevels l = some r ∧ (∀ x ∈ r, 0 < x) ∧ (∃ v ∈ l, Nat.log2 v + 1 = r.sum) ∧
      (r.length < maxLevels ∨ 63 ≤ maxLevels →
        ∀ us : List Nat, (∀ x ∈ us, 0 < x) → us.sum = r.sum → space cost l r ≤ space cost l us) := by
  obtain ⟨r, hr, hpos, _, hmax, _⟩ := C15_split_partial srt hsrt cost maxLevels l hne hl hn
  refine ⟨r, hr, hpos, hmax, ?_⟩
  obtain ⟨cf, h1, h2, h3, h4⟩ := C14_cumulative l hl hn
  have hcf : 0 < cf.length := by
    obtain ⟨v, hv⟩ := List.exists_mem_of_ne_nil l hne
    have := h2 v hv
    omega
  have hcf63 : cf.length ≤ 63 := by
    rcases h3 with h3 | ⟨v, hv, he⟩
    · omega
    · have hv63 := hl v hv
      by_cases hv0 : v = 0
      · subst hv0; simp at he; omega
      · have := (Nat.log2_lt hv0).2 hv63
        omega
  have hreach : ∀ i, i < cf.length → cf.getD i 0 = reach l i := by
    intro i hi
    rw [← reach_eq, ← h4 i hi, List.getD_eq_getElem?_getD, List.getElem?_eq_getElem hi]
    rfl
  have hle : ∀ i, cf.getD i 0 ≤ l.length := by
    intro i
    by_cases hi : i < cf.length
    · rw [hreach i hi, ← reach_eq]
      exact List.length_filter_le _ _
    · rw [List.getD_eq_getElem?_getD, List.getElem?_eq_none (by omega)]
      exact Nat.zero_le _
  obtain ⟨hs, hg⟩ := dpTable_spec cost cf
  have hopt := dpTable_opt cost cf l.length (by omega) hn hle hcost
  obtain ⟨f1, f2⟩ := follow_spec (dpTable cost cf) (cf.length - 1) hg _ 0 (Nat.zero_le _) rfl
  have hlen := follow_length (dpTable cost cf).b ((dpTable cost cf).l.getD 0 0) 0
  have hsum : (follow (dpTable cost cf).b ((dpTable cost cf).l.getD 0 0) 0).sum = cf.length := by omega
  unfold splitPositions at hr
  rw [if_neg hne, h1] at hr
  simp only [Option.bind_eq_bind, Option.bind_some] at hr
  intro hcase us hus hsus
  have hL : (dpTable cost cf).l.getD 0 0 ≤ 63 := by
    have : ∀ (q : List Nat), (∀ x ∈ q, 0 < x) → q.length ≤ q.sum := by
      intro q
      induction q with
      | nil => simp
      | cons a q ih =>
        intro hq
        have := hq a (by simp)
        have := ih (fun x hx => hq x (by simp [hx]))
        simp only [List.length_cons, List.sum_cons]
        omega
    have := this _ f2
    omega
  by_cases hc : (dpTable cost cf).l.getD 0 0 > maxLevels
  · exfalso
    rw [if_pos hc] at hr
    simp only [Option.pure_def, Option.some.injEq] at hr
    have := reduceLevels_ge srt cf _ maxLevels _ f2 hlen hsum (by omega)
    rw [hr] at this
    omega
  · rw [if_neg hc] at hr
    simp only [Option.pure_def, Option.some.injEq] at hr
    have e1 := follow_space cost _ _ _ hopt _ 0 (Nat.zero_le _) rfl
    rw [hr] at e1 hsum f2
    have e2 := (hopt 0 (Nat.zero_le _)).best us hus (by omega)
    rw [← e1] at e2
    unfold space
    rw [← spaceFrom_congr cost _ _ cf.length hreach r 0 f2 (by omega), ← spaceFrom_congr cost _ _ cf.length hreach us 0 hus (by omega)]
    exact e2

/-- A case: 40 small values and two large ones are split after the first bit. -/
example : splitPositions id rankBits 8 (List.replicate 40 1 ++ [2 ^ 40, 2 ^ 39 + 7]) = some [1, 40] ∧
    space rankBits (List.replicate 40 1 ++ [2 ^ 40, 2 ^ 39 + 7]) [1, 40] = 365 ∧
    space rankBits (List.replicate 40 1 ++ [2 ^ 40, 2 ^ 39 + 7]) [41] = 1722 := by decide +kernel

/-- One separator too many: the first of the list that is set is removed. -/
theorem dropSeps_one (mx i : Nat) (post : List Nat) : ∀ (pre : List Nat) (sp : List Bool), (∀ j ∈ pre, sp.getD j false = false) →
    sp.getD i false = true → dropSeps mx (pre ++ i :: post) (mx + 1) sp = sp.set i false
  | [], sp, _, h => by
    rw [List.nil_append, dropSeps, if_pos (by omega), if_pos h]
    cases post with
    | nil => rfl
    | cons j post => rw [dropSeps, if_neg (by omega)]
  | j :: pre, sp, hp, h => by
    rw [List.cons_append, dropSeps, if_pos (by omega), if_neg (by rw [hp j (by simp)]; decide)]
    exact dropSeps_one mx i post pre sp (fun k hk => hp k (by simp [hk])) h

/-- With `max_levels = 2` the separators with the least drop of the frequency are removed, which is not the best choice: of the three levels
`[2, 15, 38]` the result keeps `[2, 53]` (987 bits) where `[17, 38]` takes 907. For every order in which `std::sort` may leave ties. -/
theorem C75_limited_refuted : ∃ (l us r : List Nat), l ≠ [] ∧ (∀ v ∈ l, v < 2 ^ 63) ∧
    (∀ srt : List (Nat × Nat) → List (Nat × Nat), (∀ q, (srt q).Perm q ∧ (srt q).Pairwise (fun a b => b.1 ≤ a.1)) →
      splitPositions srt rankBits 2 l = some r) ∧
    us.length ≤ 2 ∧ (∀ x ∈ us, 0 < x) ∧ us.sum = r.sum ∧ space rankBits l us < space rankBits l r := by
  refine ⟨List.replicate 20 2 ++ List.replicate 10 (2 ^ 16) ++ List.replicate 2 (2 ^ 30) ++ [2 ^ 54], [17, 38], [2, 53], by decide +kernel,
    by decide +kernel, ?_, by decide, by decide, by decide, by decide +kernel⟩
  intro srt hsrt
  have hcf : cumulativeFrequencyList (List.replicate 20 2 ++ List.replicate 10 (2 ^ 16) ++ List.replicate 2 (2 ^ 30) ++ [2 ^ 54]) =
    some (List.replicate 2 33 ++ List.replicate 15 13 ++ List.replicate 14 3 ++ List.replicate 24 1) := by decide +kernel
  have hL : (dpTable rankBits (List.replicate 2 33 ++ List.replicate 15 13 ++ List.replicate 14 3 ++ List.replicate 24 1)).l.getD 0 0 = 3 := by
    decide +kernel
  have hF : follow (dpTable rankBits (List.replicate 2 33 ++ List.replicate 15 13 ++ List.replicate 14 3 ++ List.replicate 24 1)).b 3 0 =
    [2, 15, 38] := by decide +kernel
  have hR : reduceLevels srt (List.replicate 2 33 ++ List.replicate 15 13 ++ List.replicate 14 3 ++ List.replicate 24 1) (55 - 1) 3 2 [2, 15, 38] =
      [2, 53] := by
    unfold reduceLevels
    simp only
    generalize hq : (List.map (fun i => ((List.replicate 2 33 ++ List.replicate 15 13 ++ List.replicate 14 3 ++ List.replicate 24 1).getD (i - 1) 0 -
      (List.replicate 2 33 ++ List.replicate 15 13 ++ List.replicate 14 3 ++ List.replicate 24 1).getD i 0, i)) (List.range' 1 (55 - 1 - 1))) = q
    obtain ⟨hp, ho⟩ := hsrt q
    have hmem : ((10, 17) : Nat × Nat) ∈ (srt q).reverse := by
      rw [List.mem_reverse, hp.mem_iff, ← hq]
      decide +kernel
    obtain ⟨pre, post, hs⟩ := List.append_of_mem hmem
    have ho' : ((srt q).reverse).Pairwise (fun a b => a.1 ≤ b.1) := List.pairwise_reverse.2 ho
    rw [hs] at ho'
    rw [hs, List.map_append, List.map_cons, dropSeps_one 2 17]
    · decide +kernel
    · intro j hj
      obtain ⟨x, hx, rfl⟩ := List.mem_map.1 hj
      have h1 : x.1 ≤ 10 := (List.pairwise_append.1 ho').2.2 x hx (10, 17) (by simp)
      have h2 : x ∈ q := by
        rw [← hp.mem_iff, ← List.mem_reverse, hs]
        exact List.mem_append_left _ hx
      have h3 : x ≠ (10, 17) := by
        rintro rfl
        have hnd : q.Nodup := by rw [← hq]; decide +kernel
        have : ((srt q).reverse).Nodup := ((List.reverse_perm _).trans hp).nodup_iff.2 hnd
        rw [hs] at this
        exact (List.nodup_append.1 this).2.2 _ hx _ (by simp) rfl
      rw [← hq] at h2
      revert h1 h3
      have : ∀ x ∈ (List.map (fun i => ((List.replicate 2 33 ++ List.replicate 15 13 ++ List.replicate 14 3 ++ List.replicate 24 1).getD (i - 1) 0 -
        (List.replicate 2 33 ++ List.replicate 15 13 ++ List.replicate 14 3 ++ List.replicate 24 1).getD i 0, i)) (List.range' 1 (55 - 1 - 1))),
        x.1 ≤ 10 → x ≠ (10, 17) → (sepPos [2, 15, 38] 0 (List.replicate
          ((List.replicate 2 33 ++ List.replicate 15 13 ++ List.replicate 14 3 ++ List.replicate 24 1).length + 1) false)).getD x.2 false = false := by
        decide +kernel
      exact this x h2
    · decide +kernel
  unfold splitPositions
  rw [if_neg (by decide), hcf]
  simp only [Option.bind_eq_bind, Option.bind_some]
  rw [hL, hF, if_pos (by decide)]
  simp only [Option.pure_def, Option.some.injEq]
  exact hR

end Verif.Calc
