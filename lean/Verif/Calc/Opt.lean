/-
Helper facts: the dynamic program of split_positions_optimized_for_dac finds a cheapest split.
-/
import Verif.Calc.Split

namespace Verif.Calc

/-- `additional_bit_size_of_rank`, calc.hpp:85-87: `(((n-1)/64+1) + ((n/512+1)*2))*64 = 5n/4 + 191` in `double`. Divisions by powers of two are
exact and so are the sums for `1 ≤ n < 2^43`; the conversion to `size_t` rounds down. -/
def rankBits (n : Nat) : Nat := 5 * n / 4 + 191

/-- Bits of a split: layer `t..t+w` holds `c t` entries of `w` bits; every layer but the last has a bit vector of `c t` bits with its rank
directory, whose size is estimated by `cost`. -/
def spaceFrom (cost c : Nat → Nat) : Nat → List Nat → Nat
  | _, [] => 0
  | t, [w] => c t * w
  | t, w :: w' :: ws => c t * w + cost (c t) + spaceFrom cost c (t + w) (w' :: ws)

/-- The entry for `j` is optimal. -/
structure Opt (cost c : Nat → Nat) (T : Tab) (m j : Nat) : Prop where
  le : T.s.getD j 0 ≤ c j * (m + 1 - j)
  step : (T.l.getD j 0 = 1 ∧ T.b.getD j 0 = m + 1 - j ∧ T.s.getD j 0 = c j * (m + 1 - j)) ∨
    (j + T.b.getD j 0 ≤ m ∧ T.l.getD j 0 = T.l.getD (j + T.b.getD j 0) 0 + 1 ∧
      T.s.getD j 0 = T.s.getD (j + T.b.getD j 0) 0 + c j * T.b.getD j 0 + cost (c j))
  pos : 0 < T.b.getD j 0
  best : ∀ us : List Nat, (∀ x ∈ us, 0 < x) → us.sum = m + 1 - j → T.s.getD j 0 ≤ spaceFrom cost c j us

theorem sum_pos_of {us : List Nat} (h : ∀ x ∈ us, 0 < x) (hne : us ≠ []) : 0 < us.sum := by
  cases us with
  | nil => exact absurd rfl hne
  | cons u us =>
    have := h u (by simp)
    rw [List.sum_cons]
    omega

theorem dpStep_opt (cost : Nat → Nat) (cf : List Nat) (m t C : Nat) (T : Tab) (ht : t ≤ m) (hs : Sized T m) (hm : m < 64)
    (hC : C < 2 ^ 31) (hcf : ∀ i, cf.getD i 0 ≤ C) (hcost : ∀ k, k ≤ C → cost k < 2 ^ 63)
    (hg : ∀ j, t < j → j ≤ m → Opt cost (fun i => cf.getD i 0) T m j) :
    ∀ j, t ≤ j → j ≤ m → Opt cost (fun i => cf.getD i 0) (dpStep cost cf m t T) m j := by
  obtain ⟨h1, h2, h3⟩ := hs
  have hct := hcf t
  have hcc := hcost _ hct
  have hmul : ∀ x y, x ≤ C → y ≤ 64 → x * y < 2 ^ 37 := by
    intro x y hx hy
    have := Nat.mul_le_mul hx hy
    omega
  have hsm : ∀ i, t < i → i ≤ m → T.s.getD i 0 + cf.getD t 0 * (i - t) + cost (cf.getD t 0) < 2 ^ 64 - 1 := by
    intro i hi him
    have a := (hg i hi him).le
    have b := hmul _ (m + 1 - i) (hcf i) (by omega)
    have c := hmul _ (i - t) hct (by omega)
    omega
  have hin : (innerLoop cost cf T.s t (m - t) (t + 1) (2 ^ 64 - 1, m)).1 ≤ 2 ^ 64 - 1 ∧
      (∀ k, t + 1 ≤ k → k ≤ m → (innerLoop cost cf T.s t (m - t) (t + 1) (2 ^ 64 - 1, m)).1 ≤
        T.s.getD k 0 + cf.getD t 0 * (k - t) + cost (cf.getD t 0)) ∧
      (innerLoop cost cf T.s t (m - t) (t + 1) (2 ^ 64 - 1, m) = (2 ^ 64 - 1, m) ∨ ∃ k, t + 1 ≤ k ∧ k ≤ m ∧
        innerLoop cost cf T.s t (m - t) (t + 1) (2 ^ 64 - 1, m) = (T.s.getD k 0 + cf.getD t 0 * (k - t) + cost (cf.getD t 0), k)) := by
    have key : ∀ (n i mn pos : Nat), t + 1 ≤ i → i + n = m + 1 →
      (innerLoop cost cf T.s t n i (mn, pos)).1 ≤ mn ∧
      (∀ k, i ≤ k → k ≤ m → (innerLoop cost cf T.s t n i (mn, pos)).1 ≤ T.s.getD k 0 + cf.getD t 0 * (k - t) + cost (cf.getD t 0)) ∧
      (innerLoop cost cf T.s t n i (mn, pos) = (mn, pos) ∨ ∃ k, i ≤ k ∧ k ≤ m ∧ innerLoop cost cf T.s t n i (mn, pos) =
        (T.s.getD k 0 + cf.getD t 0 * (k - t) + cost (cf.getD t 0), k)) := by
      intro n
      induction n with
      | zero => intro i mn pos _ hn; exact ⟨Nat.le_refl _, fun k h1 h2 => by omega, Or.inl rfl⟩
      | succ n ih =>
        intro i mn pos hi hn
        rw [innerLoop]
        have hw : w64 (T.s.getD i 0 + cf.getD t 0 * (i - t) + cost (cf.getD t 0)) = T.s.getD i 0 + cf.getD t 0 * (i - t) + cost (cf.getD t 0) :=
          Nat.mod_eq_of_lt (by have := hsm i (by omega) (by omega); omega)
        simp only [hw]
        by_cases hc : T.s.getD i 0 + cf.getD t 0 * (i - t) + cost (cf.getD t 0) < mn
        · rw [if_pos hc]
          obtain ⟨h1, h2, h3⟩ := ih (i + 1) (T.s.getD i 0 + cf.getD t 0 * (i - t) + cost (cf.getD t 0)) i (by omega) (by omega)
          refine ⟨by omega, ?_, ?_⟩
          · intro k hk hkm
            by_cases he : i = k
            · subst he; exact h1
            · exact h2 k (by omega) hkm
          · rcases h3 with h3 | ⟨k, a, b, e⟩
            · exact Or.inr ⟨i, Nat.le_refl _, by omega, h3⟩
            · exact Or.inr ⟨k, by omega, b, e⟩
        · rw [if_neg hc]
          obtain ⟨h1, h2, h3⟩ := ih (i + 1) mn pos (by omega) (by omega)
          refine ⟨h1, ?_, ?_⟩
          · intro k hk hkm
            by_cases he : i = k
            · subst he; omega
            · exact h2 k (by omega) hkm
          · rcases h3 with h3 | ⟨k, a, b, e⟩
            · exact Or.inl h3
            · exact Or.inr ⟨k, by omega, b, e⟩
    exact key (m - t) (t + 1) _ _ (Nat.le_refl _) (by omega)
  unfold dpStep
  generalize innerLoop cost cf T.s t (m - t) (t + 1) (2 ^ 64 - 1, m) = r at hin
  obtain ⟨mn, pos⟩ := r
  simp only [Prod.mk.injEq] at hin ⊢
  obtain ⟨i1, i2, i3⟩ := hin
  have hone : w64 (cf.getD t 0 * (m + 1 - t)) = cf.getD t 0 * (m + 1 - t) :=
    Nat.mod_eq_of_lt (by have := hmul _ (m + 1 - t) hct (by omega); omega)
  have honeb := hmul _ (m + 1 - t) hct (by omega)
  have old : ∀ j x y z, t < j → j ≤ m → Opt cost (fun i => cf.getD i 0) T m j →
      Opt cost (fun i => cf.getD i 0) ⟨T.s.set t z, T.l.set t x, T.b.set t y⟩ m j := by
    intro j x y z hj hjm hgj
    have e1 : (T.b.set t y).getD j 0 = T.b.getD j 0 := by rw [getD_set', if_neg (by omega)]
    have e2 : (T.l.set t x).getD j 0 = T.l.getD j 0 := by rw [getD_set', if_neg (by omega)]
    have e3 : (T.l.set t x).getD (j + T.b.getD j 0) 0 = T.l.getD (j + T.b.getD j 0) 0 := by
      rw [getD_set', if_neg (by omega)]
    have e4 : (T.s.set t z).getD j 0 = T.s.getD j 0 := by rw [getD_set', if_neg (by omega)]
    have e5 : (T.s.set t z).getD (j + T.b.getD j 0) 0 = T.s.getD (j + T.b.getD j 0) 0 := by
      rw [getD_set', if_neg (by omega)]
    obtain ⟨a, b, c, d⟩ := hgj
    constructor
    · simp only [e4]; exact a
    · simp only [e1, e2, e3, e4, e5]; exact b
    · simp only [e1]; exact c
    · simp only [e4]; exact d
  have hbest : ∀ v, (v ≤ cf.getD t 0 * (m + 1 - t)) → (∀ k, t + 1 ≤ k → k ≤ m → v ≤ T.s.getD k 0 + cf.getD t 0 * (k - t) + cost (cf.getD t 0)) →
      ∀ us : List Nat, (∀ x ∈ us, 0 < x) → us.sum = m + 1 - t → v ≤ spaceFrom cost (fun i => cf.getD i 0) t us := by
    intro v hv1 hv2 us hpos hsum
    match us with
    | [] => simp at hsum; omega
    | [w] =>
      simp at hsum
      rw [spaceFrom, hsum]
      exact hv1
    | w :: w' :: ws =>
      have hw := hpos w (by simp)
      have hr : ∀ x ∈ w' :: ws, 0 < x := fun x hx => hpos x (by simp [List.mem_cons.1 hx])
      have hrp := sum_pos_of hr (by simp)
      rw [List.sum_cons] at hsum
      have h4 := (hg (t + w) (by omega) (by omega)).best (w' :: ws) hr (by omega)
      have h5 := hv2 (t + w) (by omega) (by omega)
      rw [show t + w - t = w by omega] at h5
      rw [spaceFrom]
      omega
  rw [hone]
  by_cases hc : mn < cf.getD t 0 * (m + 1 - t)
  · rw [if_pos hc]
    obtain ⟨k, k1, k2, k3, k4⟩ : ∃ k, t + 1 ≤ k ∧ k ≤ m ∧ mn = T.s.getD k 0 + cf.getD t 0 * (k - t) + cost (cf.getD t 0) ∧ pos = k := by
      rcases i3 with h | h
      · omega
      · exact h
    subst k4
    intro j hj hjm
    by_cases he : t = j
    · subst he
      have e1 : (T.b.set t (pos - t)).getD t 0 = pos - t := by rw [getD_set', if_pos ⟨rfl, by omega⟩]
      have e2 : (T.l.set t (T.l.getD pos 0 + 1)).getD t 0 = T.l.getD pos 0 + 1 := by
        rw [getD_set', if_pos ⟨rfl, by omega⟩]
      have e4 : (T.s.set t mn).getD t 0 = mn := by rw [getD_set', if_pos ⟨rfl, by omega⟩]
      have e5 : t + (pos - t) = pos := by omega
      have e6 : (T.s.set t mn).getD pos 0 = T.s.getD pos 0 := by rw [getD_set', if_neg (by omega)]
      have e7 : (T.l.set t (T.l.getD pos 0 + 1)).getD pos 0 = T.l.getD pos 0 := by rw [getD_set', if_neg (by omega)]
      constructor
      · simp only [e4]; omega
      · simp only [e1, e2, e4, e5, e6, e7]
        exact Or.inr ⟨k2, trivial, k3⟩
      · simp only [e1]; omega
      · simp only [e4]
        exact hbest mn (by omega) i2
    · exact old j _ _ _ (by omega) hjm (hg j (by omega) hjm)
  · rw [if_neg hc]
    intro j hj hjm
    by_cases he : t = j
    · subst he
      have e1 : (T.b.set t (m + 1 - t)).getD t 0 = m + 1 - t := by rw [getD_set', if_pos ⟨rfl, by omega⟩]
      have e2 : (T.l.set t 1).getD t 0 = 1 := by rw [getD_set', if_pos ⟨rfl, by omega⟩]
      have e4 : (T.s.set t (cf.getD t 0 * (m + 1 - t))).getD t 0 = cf.getD t 0 * (m + 1 - t) := by rw [getD_set', if_pos ⟨rfl, by omega⟩]
      constructor
      · simp only [e4]; omega
      · simp only [e1, e2, e4]
        exact Or.inl ⟨trivial, trivial, trivial⟩
      · simp only [e1]; omega
      · simp only [e4]
        exact hbest _ (Nat.le_refl _) (fun k a b => by have := i2 k a b; omega)
    · exact old j _ _ _ (by omega) hjm (hg j (by omega) hjm)

theorem dpLoop_opt (cost : Nat → Nat) (cf : List Nat) (m C : Nat) (hm : m < 64)
    (hC : C < 2 ^ 31) (hcf : ∀ i, cf.getD i 0 ≤ C) (hcost : ∀ k, k ≤ C → cost k < 2 ^ 63) :
    ∀ (n : Nat) (T : Tab), n ≤ m + 1 → Sized T m → (∀ j, n ≤ j → j ≤ m → Good T m j) →
      (∀ j, n ≤ j → j ≤ m → Opt cost (fun i => cf.getD i 0) T m j) →
      ∀ j, j ≤ m → Opt cost (fun i => cf.getD i 0) (dpLoop cost cf m n T) m j
  | 0, T, _, hs, _, ho => fun j hj => ho j (Nat.zero_le _) hj
  | n + 1, T, hn, hs, hg, ho => by
    obtain ⟨h1, h2⟩ := dpStep_spec cost cf m n T (by omega) hs (fun j a b => hg j a b)
    exact dpLoop_opt cost cf m C hm hC hcf hcost n _ (by omega) h1 h2 (dpStep_opt cost cf m n C T (by omega) hs hm hC hcf hcost (fun j a b => ho j a b))

theorem dpTable_opt (cost : Nat → Nat) (cf : List Nat) (C : Nat) (hm : cf.length ≤ 64)
    (hC : C < 2 ^ 31) (hcf : ∀ i, cf.getD i 0 ≤ C) (hcost : ∀ k, k ≤ C → cost k < 2 ^ 63) :
    ∀ j, j ≤ cf.length - 1 → Opt cost (fun i => cf.getD i 0) (dpTable cost cf) (cf.length - 1) j :=
  dpLoop_opt cost cf _ C (by omega) hC hcf hcost _ _ (Nat.le_refl _) (by simp [Sized]) (fun j a b => by omega) (fun j a b => by omega)

theorem follow_space (cost c : Nat → Nat) (T : Tab) (m : Nat) (hg : ∀ j, j ≤ m → Opt cost c T m j) :
    ∀ (n t : Nat), t ≤ m → T.l.getD t 0 = n → spaceFrom cost c t (follow T.b n t) = T.s.getD t 0 := by
  intro n
  induction n with
  | zero =>
    intro t ht hl
    rcases (hg t ht).step with ⟨h, _⟩ | ⟨_, h, _⟩ <;> omega
  | succ n ih =>
    intro t ht hl
    rcases (hg t ht).step with ⟨h1, h2, h3⟩ | ⟨h1, h2, h3⟩
    · have : n = 0 := by omega
      subst this
      simp only [follow, spaceFrom]
      rw [h3, h2]
    · have hi := ih (t + T.b.getD t 0) h1 (by omega)
      cases n with
      | zero =>
        rcases (hg _ h1).step with ⟨h, _⟩ | ⟨_, h, _⟩ <;> omega
      | succ n =>
        rw [follow]
        rw [follow] at hi ⊢
        rw [spaceFrom, hi, h3]
        omega

theorem dropSeps_count (mx : Nat) : ∀ (pq : List Nat) (num : Nat) (sp : List Bool), sp.count true = num → mx ≤ num →
    mx ≤ (dropSeps mx pq num sp).count true
  | [], num, sp, h, hm => by rw [dropSeps]; omega
  | i :: pq, num, sp, h, hm => by
    rw [dropSeps]
    split
    · split
      · rename_i hn hi
        have hc := count_set_false sp i hi
        exact dropSeps_count mx pq (num - 1) _ (by omega) (by omega)
      · exact dropSeps_count mx pq num sp h hm
    · omega

theorem reduceLevels_ge (srt : List (Nat × Nat) → List (Nat × Nat)) (cf : List Nat) (L mx : Nat) (bk : List Nat) (hbk : ∀ x ∈ bk, 0 < x)
    (hL : bk.length = L) (hsum : bk.sum = cf.length) (hmx : mx ≤ L) : mx ≤ (reduceLevels srt cf (cf.length - 1) L mx bk).length := by
  unfold reduceLevels
  simp only
  have hrep : ∀ j, (List.replicate (cf.length + 1) false).getD j false = false := by
    intro j
    simp [List.getD_eq_getElem?_getD, List.getElem?_replicate]
    split <;> rfl
  obtain ⟨a1, a2, a3, a4⟩ := sepPos_spec bk 0 (List.replicate (cf.length + 1) false) hbk (by simp; omega) (fun j _ => hrep j)
  rw [gaps_length]
  exact dropSeps_count mx _ L _ (by rw [a2, hL]; simp [List.count_replicate]) hmx

end Verif.Calc
