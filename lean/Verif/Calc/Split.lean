/-
Helper facts about split_positions_optimized_for_dac.
-/
import Verif.Calc.Lemmas

namespace Verif.Calc

theorem getD_set' (l : List Nat) (i j v d : Nat) : (l.set i v).getD j d = if i = j ∧ j < l.length then v else l.getD j d := by
  simp only [List.getD_eq_getElem?_getD, List.getElem?_set]
  by_cases h : i = j
  · subst h
    by_cases h2 : i < l.length <;> simp [h2]
  · simp [h]

theorem getD_setB (l : List Bool) (i j : Nat) (v d : Bool) : (l.set i v).getD j d = if i = j ∧ j < l.length then v else l.getD j d := by
  simp only [List.getD_eq_getElem?_getD, List.getElem?_set]
  by_cases h : i = j
  · subst h
    by_cases h2 : i < l.length <;> simp [h2]
  · simp [h]

theorem innerLoop_spec (cost : Nat → Nat) (cf s : List Nat) (t m : Nat) :
    ∀ (n i mn pos : Nat), t < i → i + n = m + 1 → mn ≤ 2 ^ 64 - 1 → (mn = 2 ^ 64 - 1 ∨ (t < pos ∧ pos ≤ m)) →
      (innerLoop cost cf s t n i (mn, pos)).1 ≤ 2 ^ 64 - 1 ∧
      ((innerLoop cost cf s t n i (mn, pos)).1 = 2 ^ 64 - 1 ∨
        (t < (innerLoop cost cf s t n i (mn, pos)).2 ∧ (innerLoop cost cf s t n i (mn, pos)).2 ≤ m))
  | 0, i, mn, pos, _, _, h, h' => ⟨h, h'⟩
  | n + 1, i, mn, pos, hi, hn, h, h' => by
    rw [innerLoop]
    have hw : ∀ x, w64 x ≤ 2 ^ 64 - 1 := by
      intro x; unfold w64
      have := Nat.mod_lt x (Nat.two_pow_pos 64)
      omega
    by_cases hc : w64 (s.getD i 0 + cf.getD t 0 * (i - t) + cost (cf.getD t 0)) < mn
    · rw [if_pos hc]
      exact innerLoop_spec cost cf s t m n (i + 1) _ _ (by omega) (by omega) (hw _) (Or.inr ⟨hi, by omega⟩)
    · rw [if_neg hc]
      exact innerLoop_spec cost cf s t m n (i + 1) _ _ (by omega) (by omega) h h'

/-- Entry `j` of the tables is a valid step. -/
def Good (T : Tab) (m j : Nat) : Prop :=
  0 < T.b.getD j 0 ∧ ((T.b.getD j 0 = m + 1 - j ∧ T.l.getD j 0 = 1) ∨
    (j + T.b.getD j 0 ≤ m ∧ T.l.getD j 0 = T.l.getD (j + T.b.getD j 0) 0 + 1))

def Sized (T : Tab) (m : Nat) : Prop := T.s.length = m + 1 ∧ T.l.length = m + 1 ∧ T.b.length = m + 1

theorem dpStep_spec (cost : Nat → Nat) (cf : List Nat) (m t : Nat) (T : Tab) (ht : t ≤ m) (hs : Sized T m)
    (hg : ∀ j, t < j → j ≤ m → Good T m j) :
    Sized (dpStep cost cf m t T) m ∧ ∀ j, t ≤ j → j ≤ m → Good (dpStep cost cf m t T) m j := by
  have hin := innerLoop_spec cost cf T.s t m (m - t) (t + 1) (2 ^ 64 - 1) m (by omega) (by omega) (Nat.le_refl _) (Or.inl rfl)
  obtain ⟨h1, h2, h3⟩ := hs
  unfold dpStep
  generalize innerLoop cost cf T.s t (m - t) (t + 1) (2 ^ 64 - 1, m) = r at hin
  obtain ⟨mn, pos⟩ := r
  simp only at hin ⊢
  have hone : w64 (cf.getD t 0 * (m + 1 - t)) ≤ 2 ^ 64 - 1 := by
    unfold w64
    have := Nat.mod_lt (cf.getD t 0 * (m + 1 - t)) (Nat.two_pow_pos 64)
    omega
  have old : ∀ j x y, t < j → j ≤ m → (Good T m j) →
      0 < (T.b.set t y).getD j 0 ∧ (((T.b.set t y).getD j 0 = m + 1 - j ∧ (T.l.set t x).getD j 0 = 1) ∨
       (j + (T.b.set t y).getD j 0 ≤ m ∧ (T.l.set t x).getD j 0 = (T.l.set t x).getD (j + (T.b.set t y).getD j 0) 0 + 1)) := by
    intro j x y hj hjm hgj
    have e1 : (T.b.set t y).getD j 0 = T.b.getD j 0 := by rw [getD_set', if_neg (by omega)]
    have e2 : (T.l.set t x).getD j 0 = T.l.getD j 0 := by rw [getD_set', if_neg (by omega)]
    have e3 : (T.l.set t x).getD (j + T.b.getD j 0) 0 = T.l.getD (j + T.b.getD j 0) 0 := by
      rw [getD_set', if_neg (by omega)]
    rw [e1, e2, e3]
    exact hgj
  by_cases hc : mn < w64 (cf.getD t 0 * (m + 1 - t))
  · rw [if_pos hc]
    have hp : t < pos ∧ pos ≤ m := by
      rcases hin.2 with h | h
      · omega
      · exact h
    refine ⟨⟨by simp [h1], by simp [h2], by simp [h3]⟩, ?_⟩
    intro j hj hjm
    by_cases he : t = j
    · subst he
      unfold Good
      simp only
      have e1 : (T.b.set t (pos - t)).getD t 0 = pos - t := by rw [getD_set', if_pos ⟨rfl, by omega⟩]
      have e2 : (T.l.set t (T.l.getD pos 0 + 1)).getD t 0 = T.l.getD pos 0 + 1 := by
        rw [getD_set', if_pos ⟨rfl, by omega⟩]
      have e3 : t + (pos - t) = pos := by omega
      rw [e1, e2, e3]
      refine ⟨by omega, Or.inr ⟨hp.2, ?_⟩⟩
      rw [getD_set', if_neg (by omega)]
    · exact old j _ _ (by omega) hjm (hg j (by omega) hjm)
  · rw [if_neg hc]
    refine ⟨⟨by simp [h1], by simp [h2], by simp [h3]⟩, ?_⟩
    intro j hj hjm
    by_cases he : t = j
    · subst he
      unfold Good
      simp only
      have e1 : (T.b.set t (m + 1 - t)).getD t 0 = m + 1 - t := by rw [getD_set', if_pos ⟨rfl, by omega⟩]
      have e2 : (T.l.set t 1).getD t 0 = 1 := by rw [getD_set', if_pos ⟨rfl, by omega⟩]
      rw [e1, e2]
      exact ⟨by omega, Or.inl ⟨rfl, rfl⟩⟩
    · exact old j _ _ (by omega) hjm (hg j (by omega) hjm)

theorem dpLoop_spec (cost : Nat → Nat) (cf : List Nat) (m : Nat) :
    ∀ (n : Nat) (T : Tab), n ≤ m + 1 → Sized T m → (∀ j, n ≤ j → j ≤ m → Good T m j) →
      Sized (dpLoop cost cf m n T) m ∧ ∀ j, j ≤ m → Good (dpLoop cost cf m n T) m j
  | 0, T, _, hs, hg => ⟨hs, fun j hj => hg j (Nat.zero_le _) hj⟩
  | n + 1, T, hn, hs, hg => by
    obtain ⟨h1, h2⟩ := dpStep_spec cost cf m n T (by omega) hs (fun j a b => hg j a b)
    exact dpLoop_spec cost cf m n _ (by omega) h1 h2

theorem dpTable_spec (cost : Nat → Nat) (cf : List Nat) :
    Sized (dpTable cost cf) (cf.length - 1) ∧ ∀ j, j ≤ cf.length - 1 → Good (dpTable cost cf) (cf.length - 1) j :=
  dpLoop_spec cost cf _ _ _ (Nat.le_refl _) (by simp [Sized]) (fun j a b => by omega)

theorem follow_length (b : List Nat) : ∀ n t, (follow b n t).length = n
  | 0, _ => rfl
  | n + 1, t => by simp [follow, follow_length b n]

theorem follow_spec (T : Tab) (m : Nat) (hg : ∀ j, j ≤ m → Good T m j) :
    ∀ (n t : Nat), t ≤ m → T.l.getD t 0 = n → (follow T.b n t).sum = m + 1 - t ∧ ∀ x ∈ follow T.b n t, 0 < x := by
  intro n
  induction n with
  | zero =>
    intro t ht hl
    obtain ⟨_, h | h⟩ := hg t ht <;> omega
  | succ n ih =>
    intro t ht hl
    obtain ⟨hpos, h⟩ := hg t ht
    simp only [follow, List.sum_cons]
    rcases h with ⟨h1, h2⟩ | ⟨h1, h2⟩
    · have : n = 0 := by omega
      subst this
      simp only [follow, List.sum_nil, Nat.add_zero]
      refine ⟨h1, ?_⟩
      intro x hx
      rw [List.mem_singleton] at hx
      rw [hx]; exact hpos
    · obtain ⟨s1, s2⟩ := ih (t + T.b.getD t 0) h1 (by omega)
      refine ⟨by omega, ?_⟩
      intro x hx
      rcases List.mem_cons.1 hx with rfl | hx
      · exact hpos
      · exact s2 x hx

theorem followStrict_none (T : Tab) (m : Nat) (hs : Sized T m) (hg : ∀ j, j ≤ m → Good T m j) :
    ∀ (n t k : Nat) (bk : List Nat), t ≤ m → T.l.getD t 0 = n → followStrict T.b (n + 1) k t bk = none := by
  intro n
  induction n with
  | zero =>
    intro t k bk ht hl
    obtain ⟨_, h | h⟩ := hg t ht <;> omega
  | succ n ih =>
    intro t k bk ht hl
    obtain ⟨hpos, h⟩ := hg t ht
    have htl : t < T.b.length := by rw [hs.2.2]; omega
    have e : T.b[t]? = some (T.b.getD t 0) := by
      simp [List.getD_eq_getElem?_getD, htl]
    rw [followStrict, e]
    simp only [Option.bind_eq_bind, Option.bind_some]
    rcases h with ⟨h1, h2⟩ | ⟨h1, h2⟩
    · have : n = 0 := by omega
      subst this
      have e2 : T.b[t + T.b.getD t 0]? = none := by
        rw [List.getElem?_eq_none]; rw [hs.2.2]; omega
      cases wr bk k (T.b.getD t 0) with
      | none => rfl
      | some bk' =>
        simp only [Option.bind_some]
        rw [followStrict, e2]; rfl
    · cases wr bk k (T.b.getD t 0) with
      | none => rfl
      | some bk' => exact ih (t + T.b.getD t 0) (k + 1) bk' h1 (by omega)

theorem count_set_true (l : List Bool) (i : Nat) (h : i < l.length) (hf : l.getD i false = false) :
    (l.set i true).count true = l.count true + 1 := by
  induction l generalizing i with
  | nil => simp at h
  | cons b bs ih =>
    cases i with
    | zero =>
      simp at hf
      subst hf
      simp
    | succ i =>
      simp only [List.set_cons_succ, List.count_cons]
      rw [ih i (by simpa using h) (by simpa using hf)]
      omega

theorem count_set_false (l : List Bool) (i : Nat) (hf : l.getD i false = true) :
    (l.set i false).count true + 1 = l.count true := by
  induction l generalizing i with
  | nil => simp at hf
  | cons b bs ih =>
    cases i with
    | zero =>
      simp at hf
      subst hf
      simp
    | succ i =>
      simp only [List.set_cons_succ, List.count_cons]
      have := ih i (by simpa using hf)
      omega

theorem sepPos_spec : ∀ (bk : List Nat) (p : Nat) (sp : List Bool), (∀ x ∈ bk, 0 < x) → p + bk.sum < sp.length →
    (∀ j, p < j → sp.getD j false = false) →
    (sepPos bk p sp).length = sp.length ∧ (sepPos bk p sp).count true = sp.count true + bk.length ∧
      (∀ j, j ≤ p → (sepPos bk p sp).getD j false = sp.getD j false) ∧
      (bk ≠ [] → (sepPos bk p sp).getD (p + bk.sum) false = true)
  | [], p, sp, _, _, _ => ⟨rfl, rfl, fun _ _ => rfl, fun h => absurd rfl h⟩
  | v :: bk, p, sp, hpos, hlt, hf => by
    simp only [List.sum_cons] at hlt
    have hv : 0 < v := hpos v (by simp)
    obtain ⟨h1, h2, h3, h4⟩ := sepPos_spec bk (p + v) (sp.set (p + v) true) (fun x hx => hpos x (by simp [hx]))
      (by simp; omega) (by
        intro j hj
        rw [getD_setB, if_neg (by omega)]
        exact hf j (by omega))
    rw [sepPos]
    refine ⟨by rw [h1]; simp, ?_, ?_, ?_⟩
    · rw [h2, count_set_true _ _ (by omega) (hf _ (by omega))]
      simp; omega
    · intro j hj
      rw [h3 j (by omega), getD_setB, if_neg (by omega)]
    · intro _
      simp only [List.sum_cons]
      by_cases hb : bk = []
      · subst hb
        rw [sepPos, getD_setB, if_pos]
        simp only [List.sum_nil] at hlt ⊢
        omega
      · have := h4 hb
        rwa [Nat.add_assoc] at this

theorem dropSeps_spec (mx : Nat) : ∀ (pq : List Nat) (num : Nat) (sp : List Bool), sp.count true = num →
    (dropSeps mx pq num sp).length = sp.length ∧
      (∀ j, j ∉ pq → (dropSeps mx pq num sp).getD j false = sp.getD j false) ∧
      (∀ j, sp.getD j false = false → (dropSeps mx pq num sp).getD j false = false) ∧
      ((dropSeps mx pq num sp).count true ≤ mx ∨ ∀ j ∈ pq, (dropSeps mx pq num sp).getD j false = false)
  | [], num, sp, h => ⟨rfl, fun _ _ => rfl, fun _ h => h, Or.inr (by simp)⟩
  | i :: pq, num, sp, h => by
    rw [dropSeps]
    by_cases hn : num > mx
    · rw [if_pos hn]
      by_cases hi : sp.getD i false = true
      · rw [if_pos hi]
        have hc := count_set_false sp i hi
        obtain ⟨h1, h2, h3, h4⟩ := dropSeps_spec mx pq (num - 1) (sp.set i false) (by omega)
        have hfi : (sp.set i false).getD i false = false := by
          rw [getD_setB]; split
          · rfl
          · next hh =>
            rw [List.getD_eq_getElem?_getD, List.getElem?_eq_none (by omega)]; rfl
        refine ⟨by rw [h1]; simp, ?_, ?_, ?_⟩
        · intro j hj
          simp only [List.mem_cons, not_or] at hj
          rw [h2 j hj.2, getD_setB, if_neg (by rintro ⟨a, _⟩; exact hj.1 a.symm)]
        · intro j hj
          apply h3
          rw [getD_setB]; split
          · rfl
          · exact hj
        · rcases h4 with h4 | h4
          · exact Or.inl h4
          · right
            intro j hj
            rcases List.mem_cons.1 hj with rfl | hj
            · exact h3 _ hfi
            · exact h4 j hj
      · rw [if_neg hi]
        obtain ⟨h1, h2, h3, h4⟩ := dropSeps_spec mx pq num sp h
        refine ⟨h1, ?_, h3, ?_⟩
        · intro j hj
          simp only [List.mem_cons, not_or] at hj
          exact h2 j hj.2
        · rcases h4 with h4 | h4
          · exact Or.inl h4
          · right
            intro j hj
            rcases List.mem_cons.1 hj with rfl | hj
            · exact h3 _ (by simpa using hi)
            · exact h4 j hj
    · rw [if_neg hn]
      exact ⟨rfl, fun _ _ => rfl, fun _ h => h, Or.inl (by omega)⟩

theorem gaps_length : ∀ (sp : List Bool) (i last : Nat), (gaps sp i last).length = sp.count true
  | [], _, _ => rfl
  | b :: sp, i, last => by
    rw [gaps]
    cases b
    · simp [gaps_length sp]
    · simp [gaps_length sp]

theorem gaps_pos : ∀ (sp : List Bool) (i last : Nat), (last < i ∨ (last ≤ i ∧ sp.getD 0 false = false)) →
    ∀ x ∈ gaps sp i last, 0 < x
  | [], _, _, _ => by simp [gaps]
  | b :: sp, i, last, h => by
    rw [gaps]
    cases b
    · simp only [Bool.false_eq_true, if_false]
      exact gaps_pos sp (i + 1) last (Or.inl (by omega))
    · simp only [if_true]
      have hl : last < i := by
        rcases h with h | h
        · exact h
        · simp at h
      intro x hx
      rcases List.mem_cons.1 hx with rfl | hx
      · omega
      · exact gaps_pos sp (i + 1) i (Or.inl (by omega)) x hx

theorem gaps_sum : ∀ (sp : List Bool) (i last : Nat), last ≤ i → sp.getLast? = some true →
    (gaps sp i last).sum + last + 1 = i + sp.length
  | [], _, _, _, h => by simp at h
  | b :: sp, i, last, hl, h => by
    rw [gaps]
    by_cases hsp : sp = []
    · subst hsp
      simp at h
      subst h
      simp [gaps]; omega
    · have h' : sp.getLast? = some true := by
        rw [List.getLast?_cons] at h
        rw [List.getLast?_eq_some_getLast hsp] at h ⊢
        simpa using h
      cases b
      · have := gaps_sum sp (i + 1) last (by omega) h'
        simp only [Bool.false_eq_true, if_false, List.length_cons]
        omega
      · have := gaps_sum sp (i + 1) i (by omega) h'
        simp only [if_true, List.length_cons, List.sum_cons]
        omega

theorem reduceLevels_spec (srt : List (Nat × Nat) → List (Nat × Nat)) (hsrt : ∀ l, (srt l).Perm l)
    (cf : List Nat) (hcf : 0 < cf.length) (L mx : Nat) (bk : List Nat) (hbk : ∀ x ∈ bk, 0 < x) (hL : bk.length = L)
    (hsum : bk.sum = cf.length) :
    (reduceLevels srt cf (cf.length - 1) L mx bk).sum = cf.length ∧
    (∀ x ∈ reduceLevels srt cf (cf.length - 1) L mx bk, 0 < x) ∧
    (reduceLevels srt cf (cf.length - 1) L mx bk).length ≤ max mx 2 := by
  unfold reduceLevels
  simp only
  have hbne : bk ≠ [] := by rintro rfl; simp at hsum; omega
  have hrep : ∀ j, (List.replicate (cf.length + 1) false).getD j false = false := by
    intro j
    simp [List.getD_eq_getElem?_getD, List.getElem?_replicate]
    split <;> rfl
  obtain ⟨a1, a2, a3, a4⟩ := sepPos_spec bk 0 (List.replicate (cf.length + 1) false) hbk (by simp; omega) (fun j _ => hrep j)
  generalize hpq : (List.map (fun x => x.2) (srt ((List.range' 1 (cf.length - 1 - 1)).map fun i => (cf.getD (i - 1) 0 - cf.getD i 0, i))).reverse) = pq
  have hmem : ∀ j, j ∈ pq ↔ 1 ≤ j ∧ j < cf.length - 1 := by
    intro j
    rw [← hpq]
    simp only [List.mem_map, List.mem_reverse, (hsrt _).mem_iff]
    constructor
    · rintro ⟨x, ⟨i, hi, rfl⟩, rfl⟩
      simp [List.mem_range'] at hi
      simp only
      omega
    · intro hj
      refine ⟨_, ⟨j, ?_, rfl⟩, rfl⟩
      simp [List.mem_range']
      exact ⟨j - 1, by omega, by omega⟩
  obtain ⟨b1, b2, b3, b4⟩ := dropSeps_spec mx pq L (sepPos bk 0 (List.replicate (cf.length + 1) false)) (by
    rw [a2, hL]; simp [List.count_replicate])
  generalize dropSeps mx pq L (sepPos bk 0 (List.replicate (cf.length + 1) false)) = sp at *
  have hlen : sp.length = cf.length + 1 := by rw [b1, a1]; simp
  have hlast : sp.getD cf.length false = true := by
    rw [b2 _ (by rw [hmem]; omega)]
    have := a4 hbne
    rwa [Nat.zero_add, hsum] at this
  have hfirst : sp.getD 0 false = false := b3 0 (by rw [a3 0 (Nat.le_refl _)]; exact hrep 0)
  have hg : sp.getLast? = some true := by
    rw [List.getLast?_eq_getElem?, hlen]
    simp only [Nat.add_sub_cancel]
    rw [List.getD_eq_getElem?_getD, List.getElem?_eq_getElem (by omega)] at hlast
    rw [List.getElem?_eq_getElem (by omega)]
    simpa using hlast
  refine ⟨?_, gaps_pos sp 0 0 (Or.inr ⟨Nat.le_refl _, hfirst⟩), ?_⟩
  · have := gaps_sum sp 0 0 (Nat.le_refl _) hg
    omega
  · rw [gaps_length]
    rcases b4 with b4 | b4
    · omega
    · have h0 : (sp.take (cf.length - 1)).count true = 0 := by
        rw [List.count_eq_zero]
        intro hm
        obtain ⟨j, hj, e⟩ := List.getElem_of_mem hm
        rw [List.length_take] at hj
        rw [List.getElem_take] at e
        have hj2 : j < sp.length := by omega
        have : sp.getD j false = false := by
          by_cases hj0 : j = 0
          · subst hj0; exact hfirst
          · exact b4 j (by rw [hmem]; omega)
        rw [List.getD_eq_getElem?_getD, List.getElem?_eq_getElem hj2] at this
        simp at this
        rw [this] at e; exact absurd e (by decide)
      have h1 : sp.count true = (sp.take (cf.length - 1)).count true + (sp.drop (cf.length - 1)).count true := by
        rw [← List.count_append, List.take_append_drop]
      have h2 : (sp.drop (cf.length - 1)).count true ≤ (sp.drop (cf.length - 1)).length := List.count_le_length
      rw [List.length_drop] at h2
      omega

end Verif.Calc
