/-
Helper facts for Heap and HeapSort.
-/
import Verif.Heap.Model

namespace Verif.Heap

variable {α : Type} [Inhabited α]

/-- Value of node `i` (numbered from 1). -/
def at' (l : List α) (i : Nat) : α := l[i - 1]?.getD default

theorem at_some (l : List α) (i : Nat) (h1 : 1 ≤ i) (h2 : i ≤ l.length) : l[i - 1]? = some (at' l i) := by
  unfold at'; rw [List.getElem?_eq_getElem (by omega)]; rfl

/-- What is needed of the comparison. -/
structure Good (up : α → α → Bool) (R : α → α → Prop) : Prop where
  yes : ∀ a b, up a b = true → R b a
  no : ∀ a b, up a b = false → R a b
  trans : ∀ a b c, R a b → R b c → R a c
  refl : ∀ a, R a a

def Edge (R : α → α → Prop) (n : Nat) (l : List α) (j : Nat) : Prop :=
  ∀ c, (c = 2 * j ∨ c = 2 * j + 1) → c ≤ n → R (at' l j) (at' l c)

theorem swapAt_spec (l : List α) (i j : Nat) (hi : 1 ≤ i) (hj : 1 ≤ j) (hil : i ≤ l.length) (hjl : j ≤ l.length) :
    ∃ l', swapAt l (i - 1) (j - 1) = some l' ∧ l'.length = l.length ∧ l'.Perm l ∧
      (∀ k, 1 ≤ k → at' l' k = if k = i then at' l j else if k = j then at' l i else at' l k) ∧
      ∀ k, k ≠ i - 1 → k ≠ j - 1 → l'[k]? = l[k]? := by
  have h1 : i - 1 < l.length := by omega
  have h2 : j - 1 < l.length := by omega
  refine ⟨(l.set (i - 1) l[j - 1]).set (j - 1) l[i - 1], ?_, by simp, List.set_set_perm h1 h2, ?_, ?_⟩
  · unfold swapAt
    have h3 : j - 1 < (l.set (i - 1) l[j - 1]).length := by simpa using h2
    simp only [List.getElem?_eq_getElem h1, List.getElem?_eq_getElem h2, Option.bind_eq_bind, Option.bind_some, wr_eq _ _ _ h1,
      wr_eq _ _ _ h3]
  · intro k hk
    unfold at'
    rw [List.getElem?_set, List.getElem?_set, List.length_set, List.getElem?_eq_getElem h1, List.getElem?_eq_getElem h2]
    by_cases hki : k = i
    · subst hki
      rw [if_pos rfl]
      by_cases hkj : k = j
      · subst hkj; simp [h2]
      · rw [if_neg (by omega), if_pos rfl, if_pos h1]
    · rw [if_neg hki]
      by_cases hkj : k = j
      · subst hkj; rw [if_pos rfl, if_pos rfl, if_pos h2]
      · rw [if_neg (by omega), if_neg (by omega), if_neg hkj]
  · intro k h3 h4
    rw [List.getElem?_set, List.getElem?_set, if_neg (by omega), if_neg (by omega)]

theorem pickChild_spec {up : α → α → Bool} {R : α → α → Prop} (g : Good up R) (n id : Nat) (l : List α) (hl : n ≤ l.length) (h1 : 1 ≤ id)
    (h2 : 2 * id ≤ n) : ∃ m, pickChild up n id l = some m ∧ (m = 2 * id ∨ m = 2 * id + 1) ∧ m ≤ n ∧
      ∀ c, (c = 2 * id ∨ c = 2 * id + 1) → c ≤ n → R (at' l m) (at' l c) := by
  unfold pickChild
  simp only [at_some l (2 * id) (by omega) (by omega), Option.bind_eq_bind, Option.bind_some, Option.pure_def]
  by_cases h3 : 2 * id + 1 ≤ n
  · rw [if_pos h3]
    simp only [at_some l (2 * id + 1) (by omega) (by omega), Option.bind_some]
    cases hu : up (at' l (2 * id)) (at' l (2 * id + 1))
    · refine ⟨2 * id, by simp, Or.inl rfl, h2, ?_⟩
      rintro c (rfl | rfl) _
      · exact g.refl _
      · exact g.no _ _ hu
    · refine ⟨2 * id + 1, by simp, Or.inr rfl, h3, ?_⟩
      rintro c (rfl | rfl) _
      · exact g.yes _ _ hu
      · exact g.refl _
  · rw [if_neg h3]
    refine ⟨2 * id, rfl, Or.inl rfl, h2, ?_⟩
    rintro c (rfl | rfl) hc
    · exact g.refl _
    · omega

theorem heapify_spec {up : α → α → Bool} {R : α → α → Prop} (g : Good up R) (n s : Nat) (hs : 1 ≤ s) : ∀ (k id : Nat) (l : List α),
    n - id ≤ k → n ≤ l.length → s ≤ id →
    (∀ j, s ≤ j → j ≠ id → Edge R n l j) →
    (s ≤ id / 2 → ∀ c, (c = 2 * id ∨ c = 2 * id + 1) → c ≤ n → R (at' l (id / 2)) (at' l c)) →
    ∃ l', heapify up n id l = some l' ∧ l'.length = l.length ∧ l'.Perm l ∧ (∀ j, s ≤ j → Edge R n l' j) ∧
      ∀ i, n ≤ i → l'[i]? = l[i]? := by
  intro k
  induction k with
  | zero =>
    intro id l hk hl hid hE hG
    refine ⟨l, by unfold heapify; rw [if_pos (by omega)], rfl, .refl l, ?_, fun _ _ => rfl⟩
    intro j hj
    by_cases h : j = id
    · subst h
      rintro c hc hcn
      omega
    · exact hE j hj h
  | succ k ih =>
    intro id l hk hl hid hE hG
    unfold heapify
    by_cases hleaf : id > n / 2
    · rw [if_pos hleaf]
      refine ⟨l, rfl, rfl, .refl l, ?_, fun _ _ => rfl⟩
      intro j hj
      by_cases h : j = id
      · subst h
        rintro c hc hcn
        omega
      · exact hE j hj h
    · rw [if_neg hleaf]
      obtain ⟨m, em, hm, hmn, hmR⟩ := pickChild_spec g n id l hl (by omega) (by omega)
      simp only [em]
      rw [dif_pos (by omega)]
      simp only [at_some l id (by omega) (by omega), at_some l m (by omega) (by omega)]
      cases hu : up (at' l id) (at' l m)
      · simp only [Bool.false_eq_true, if_false]
        refine ⟨l, rfl, rfl, .refl l, ?_, fun _ _ => rfl⟩
        intro j hj
        by_cases h : j = id
        · subst h
          intro c hc hcn
          exact g.trans _ _ _ (g.no _ _ hu) (hmR c hc hcn)
        · exact hE j hj h
      · simp only [if_true]
        obtain ⟨l1, e1, len1, perm1, at1, out1⟩ := swapAt_spec l id m (by omega) (by omega) (by omega) (by omega)
        simp only [e1]
        have hRmi := g.yes _ _ hu
        obtain ⟨l2, e2, len2, perm2, E2, out2⟩ := ih m l1 (by omega) (by omega) (by omega) (by
          intro j hj hjm c hc hcn
          have hj1 : 1 ≤ j := by omega
          rw [at1 j hj1, at1 c (by omega)]
          by_cases hji : j = id
          · subst hji
            rw [if_pos rfl, if_neg (by omega)]
            by_cases hcm : c = m
            · rw [if_pos hcm]; exact hRmi
            · rw [if_neg hcm]; exact hmR c hc hcn
          · rw [if_neg hji, if_neg hjm]
            by_cases hci : c = id
            · subst hci
              rw [if_pos rfl]
              have hj2 : j = c / 2 := by omega
              rw [hj2]
              exact hG (by omega) m (by omega) hmn
            · rw [if_neg hci, if_neg (by omega)]
              exact hE j hj hji c hc hcn) (by
          intro _ c hc hcn
          have : m / 2 = id := by omega
          rw [this, at1 id (by omega), at1 c (by omega), if_pos rfl, if_neg (by omega), if_neg (by omega)]
          exact hE m (by omega) (by omega) c hc hcn)
        refine ⟨l2, e2, by omega, perm2.trans perm1, E2, ?_⟩
        intro i hi
        rw [out2 i hi, out1 i (by omega) (by omega)]

/-- All edges are in order. -/
def IsHeap (R : α → α → Prop) (n : Nat) (l : List α) : Prop := ∀ j, 1 ≤ j → Edge R n l j

theorem top {up : α → α → Bool} {R : α → α → Prop} (g : Good up R) (n : Nat) (l : List α) (h : IsHeap R n l) :
    ∀ k j, j ≤ k → 1 ≤ j → j ≤ n → R (at' l 1) (at' l j) := by
  intro k
  induction k with
  | zero => intro j h1 h2; omega
  | succ k ih =>
    intro j hj h1 hn
    by_cases hj1 : j = 1
    · subst hj1; exact g.refl _
    · exact g.trans _ _ _ (ih (j / 2) (by omega) (by omega) (by omega)) (h (j / 2) (by omega) j (by omega) hn)

theorem buildLoop_spec {up : α → α → Bool} {R : α → α → Prop} (g : Good up R) (n : Nat) : ∀ (i : Nat) (l : List α), n ≤ l.length →
    (∀ j, i < j → Edge R n l j) →
    ∃ l', buildLoop up n i l = some l' ∧ l'.length = l.length ∧ l'.Perm l ∧ IsHeap R n l' := by
  intro i
  induction i with
  | zero => intro l _ h; exact ⟨l, rfl, rfl, .refl l, fun j hj => h j hj⟩
  | succ i ih =>
    intro l hl h
    obtain ⟨l1, e1, len1, p1, E1, _⟩ := heapify_spec g n (i + 1) (by omega) (n - (i + 1)) (i + 1) l (Nat.le_refl _) hl (by omega)
      (fun j hj hne => h j (by omega)) (fun hh => by omega)
    obtain ⟨l2, e2, len2, p2, E2⟩ := ih l1 (by omega) (fun j hj => E1 j (by omega))
    exact ⟨l2, by simp [buildLoop, e1, e2], by omega, p2.trans p1, E2⟩

theorem build_heap {up : α → α → Bool} {R : α → α → Prop} (g : Good up R) (l : List α) :
    ∃ l', buildLoop up l.length (l.length / 2) l = some l' ∧ l'.length = l.length ∧ l'.Perm l ∧ IsHeap R l.length l' :=
  buildLoop_spec g l.length (l.length / 2) l (Nat.le_refl _) (fun j hj c hc hcn => by omega)

theorem mem_at (l : List α) (x : α) (h : x ∈ l) : ∃ j, 1 ≤ j ∧ j ≤ l.length ∧ at' l j = x := by
  obtain ⟨k, hk, rfl⟩ := List.getElem_of_mem h
  refine ⟨k + 1, by omega, by omega, ?_⟩
  unfold at'
  rw [Nat.add_sub_cancel, List.getElem?_eq_getElem hk]; rfl

theorem heap_top {up : α → α → Bool} {R : α → α → Prop} (g : Good up R) (l : List α) (h : IsHeap R l.length l) (x : α) (hx : x ∈ l) :
    R (at' l 1) x := by
  obtain ⟨j, h1, h2, rfl⟩ := mem_at l x hx
  exact top g l.length l h j j (Nat.le_refl _) h1 h2

/-- Exchange the ends, drop the last element and sift: the common part of `pop` and of a sorting step. -/
theorem pop_spec {up : α → α → Bool} {R : α → α → Prop} (g : Good up R) (l : List α) (hne : l ≠ []) (h : IsHeap R l.length l) :
    ∃ l1 l2, swapAt l 0 (l.length - 1) = some l1 ∧ l1 = l1.take (l.length - 1) ++ [at' l 1] ∧
      heapify up (l.length - 1) 1 (l1.take (l.length - 1)) = some l2 ∧ l2.length = l.length - 1 ∧
      (at' l 1 :: l2).Perm l ∧ IsHeap R (l.length - 1) l2 := by
  have hpos := List.length_pos_iff.2 hne
  obtain ⟨l1, e1, len1, p1, at1, _⟩ := swapAt_spec l 1 l.length (Nat.le_refl _) hpos hpos (Nat.le_refl _)
  have hat : ∀ i, 1 ≤ i → i ≤ l.length - 1 → at' (l1.take (l.length - 1)) i = at' l1 i := by
    intro i h1 h2
    unfold at'
    rw [List.getElem?_take, if_pos (by omega)]
  have hlast : l1 = l1.take (l.length - 1) ++ [at' l 1] := by
    have h2 := at1 l.length hpos
    have h3 : at' l1 l.length = at' l 1 := by
      rw [h2]
      by_cases hl1 : l.length = 1
      · rw [if_pos hl1, hl1]
      · rw [if_neg hl1, if_pos rfl]
    have h4 := at_some l1 l.length hpos (by omega)
    rw [h3] at h4
    have h5 := List.take_append_drop (l.length - 1) l1
    rw [List.drop_eq_getElem_cons (by omega), List.drop_eq_nil_of_le (by omega)] at h5
    rw [List.getElem?_eq_getElem (by omega)] at h4
    rw [Option.some.inj h4] at h5
    exact h5.symm
  obtain ⟨l2, e2, len2, p2, E2, _⟩ := heapify_spec g (l.length - 1) 1 (Nat.le_refl _) (l.length - 1 - 1) 1 (l1.take (l.length - 1))
    (Nat.le_refl _) (by rw [List.length_take]; omega) (Nat.le_refl _) (by
      intro j hj hj1 c hc hcn
      rw [hat j hj (by omega), hat c (by omega) hcn, at1 j hj, at1 c (by omega), if_neg hj1, if_neg (by omega), if_neg (by omega),
        if_neg (by omega)]
      exact h j hj c hc (by omega)) (fun hh => by omega)
  refine ⟨l1, l2, e1, hlast, e2, by rw [len2, List.length_take]; omega, ?_, E2⟩
  have q1 : (at' l 1 :: l2).Perm (at' l 1 :: l1.take (l.length - 1)) := p2.cons _
  have q2 : (at' l 1 :: l1.take (l.length - 1)).Perm (l1.take (l.length - 1) ++ [at' l 1]) := by
    have := List.perm_append_comm (l₁ := [at' l 1]) (l₂ := l1.take (l.length - 1))
    exact this
  exact (q1.trans q2).trans (hlast ▸ p1)

/-- Sifting the first part of a list leaves the rest alone. -/
theorem heapify_append (up : α → α → Bool) (s : List α) : ∀ (k id : Nat) (h : List α) (n : Nat), n = h.length → n - id ≤ k → 1 ≤ id →
    heapify up n id (h ++ s) = (heapify up n id h).map (· ++ s) := by
  intro k
  induction k with
  | zero =>
    intro id h n hn hk h1
    unfold heapify
    rw [if_pos (by omega), if_pos (by omega)]; rfl
  | succ k ih =>
    intro id h n hn hk h1
    have hap : ∀ i, i < h.length → (h ++ s)[i]? = h[i]? := fun i hi => List.getElem?_append_left hi
    unfold heapify
    by_cases hleaf : id > n / 2
    · rw [if_pos hleaf, if_pos hleaf]; rfl
    · rw [if_neg hleaf, if_neg hleaf]
      have hp : pickChild up n id (h ++ s) = pickChild up n id h := by
        unfold pickChild
        rw [hap _ (by omega)]
        by_cases h3 : 2 * id + 1 ≤ n
        · rw [hap _ (by omega)]
        · simp only [if_neg h3]
      rw [hp]
      cases hm : pickChild up n id h with
      | none => rfl
      | some m =>
        simp only
        by_cases hmn : id < m ∧ m ≤ n
        · rw [dif_pos hmn, dif_pos hmn, hap _ (by omega), hap _ (by omega)]
          rw [List.getElem?_eq_getElem (show id - 1 < h.length by omega), List.getElem?_eq_getElem (show m - 1 < h.length by omega)]
          simp only
          split
          · have hsw : swapAt (h ++ s) (id - 1) (m - 1) = (swapAt h (id - 1) (m - 1)).map (· ++ s) := by
              have a1 : id - 1 < h.length := by omega
              have a2 : m - 1 < h.length := by omega
              unfold swapAt
              rw [hap _ a1, hap _ a2, List.getElem?_eq_getElem a1, List.getElem?_eq_getElem a2]
              simp only [Option.bind_eq_bind, Option.bind_some]
              rw [wr_eq _ _ _ a1, wr_eq _ _ _ (by simp; omega)]
              simp only [Option.bind_some]
              rw [wr_eq _ _ _ (by simp; omega), wr_eq _ _ _ (by simpa using a2)]
              simp only [Option.map_some]
              rw [List.set_append_left _ _ a1, List.set_append_left _ _ (by simpa using a2)]
            rw [hsw]
            obtain ⟨l', e, len, _⟩ := swapAt_spec h id m (by omega) (by omega) (by omega) (by omega)
            rw [e]
            exact ih m l' n (by omega) (by omega) (by omega)
          · rfl
        · rw [dif_neg hmn, dif_neg hmn]; rfl

/-- The sorting loop on a heap followed by a sorted tail. -/
theorem sortLoop_spec {up : α → α → Bool} {R : α → α → Prop} (g : Good up R) : ∀ (n : Nat) (h s : List α), h.length = n → IsHeap R n h →
    (∀ x ∈ h, ∀ y ∈ s, R y x) → s.Pairwise (fun a b => R b a) →
    ∃ l, sortLoop up n (h ++ s) = some l ∧ l.Perm (h ++ s) ∧ l.Pairwise (fun a b => R b a) := by
  intro n
  induction n with
  | zero =>
    intro h s hl _ _ hs
    have : h = [] := List.length_eq_zero_iff.1 hl
    subst this
    exact ⟨s, rfl, .refl s, hs⟩
  | succ n ih =>
    intro h s hl hh hcross hs
    cases n with
    | zero =>
      obtain ⟨x, rfl⟩ := List.length_eq_one_iff.1 hl
      refine ⟨[x] ++ s, rfl, .refl _, ?_⟩
      rw [List.singleton_append, List.pairwise_cons]
      exact ⟨fun y hy => hcross x (by simp) y hy, hs⟩
    | succ n =>
      have hne : h ≠ [] := by intro e; rw [e] at hl; simp at hl
      obtain ⟨l1, l2, e1, hlast, e2, len2, perm, heap2⟩ := pop_spec g h hne (by rw [hl]; exact hh)
      rw [hl] at e1 hlast e2 len2 heap2
      simp only [Nat.add_sub_cancel] at e1 hlast e2 len2 heap2
      have hsw : swapAt (h ++ s) 0 (n + 1) = some (l1 ++ s) := by
        have a1 : 0 < h.length := by omega
        have a2 : n + 1 < h.length := by omega
        have b1 : 0 < (h ++ s).length := by simp; omega
        have b2 : n + 1 < (h ++ s).length := by simp; omega
        unfold swapAt at e1 ⊢
        have g1 : (h ++ s)[0]? = some h[0] := by rw [List.getElem?_append_left a1, List.getElem?_eq_getElem a1]
        have g2 : (h ++ s)[n + 1]? = some h[n + 1] := by rw [List.getElem?_append_left a2, List.getElem?_eq_getElem a2]
        rw [g1, g2]
        rw [List.getElem?_eq_getElem a1, List.getElem?_eq_getElem a2] at e1
        simp only [Option.bind_eq_bind, Option.bind_some] at e1 ⊢
        rw [wr_eq _ _ _ a1, Option.bind_some, wr_eq _ _ _ (by simpa using a2)] at e1
        rw [wr_eq _ _ _ b1, Option.bind_some, wr_eq _ _ _ (by simpa using b2), List.set_append_left _ _ a1,
          List.set_append_left _ _ (by simpa using a2), Option.some.inj e1]
      have hh2 : heapify up (n + 1) 1 (l1 ++ s) = some (l2 ++ (at' h 1 :: s)) := by
        have len1 : (l1.take (n + 1)).length = n + 1 := by
          have := congrArg List.length hlast
          rw [List.length_append, List.length_singleton] at this
          have h3 : (l1.take (n + 1)).length ≤ n + 1 := by rw [List.length_take]; omega
          have h4 : l1.length = h.length := by
            obtain ⟨_, e, len, _⟩ := swapAt_spec h 1 (n + 2) (by omega) (by omega) (by omega) (by omega)
            have e' : swapAt h 0 (n + 1) = some _ := e
            rw [e1] at e'
            rw [Option.some.inj e', len]
          omega
        have hl1 : l1 ++ s = l1.take (n + 1) ++ (at' h 1 :: s) := by
          rw [← List.singleton_append, ← List.append_assoc, ← hlast]
        rw [hl1, heapify_append up (at' h 1 :: s) (n + 1 - 1) 1 (l1.take (n + 1)) (n + 1) len1.symm (Nat.le_refl _) (Nat.le_refl _), e2]
        rfl
      have hmem : ∀ x, x ∈ l2 → x ∈ h := fun x hx => (perm.mem_iff).1 (List.mem_cons_of_mem _ hx)
      have htop : ∀ x ∈ h, R (at' h 1) x := fun x hx => heap_top g h (by rw [hl]; exact hh) x hx
      have hm1 : at' h 1 ∈ h := (perm.mem_iff).1 (List.mem_cons_self)
      obtain ⟨l, el, pl, sl⟩ := ih l2 (at' h 1 :: s) len2 heap2 (by
        intro x hx y hy
        rcases List.mem_cons.1 hy with rfl | hy
        · exact htop x (hmem x hx)
        · exact hcross x (hmem x hx) y hy) (by
        rw [List.pairwise_cons]
        exact ⟨fun y hy => hcross _ hm1 y hy, hs⟩)
      refine ⟨l, ?_, pl.trans ?_, sl⟩
      · unfold sortLoop
        simp only [hsw, hh2, Option.bind_eq_bind, Option.bind_some]
        exact el
      · have q1 : (l2 ++ (at' h 1 :: s)).Perm ((at' h 1 :: l2) ++ s) := List.perm_middle
        exact q1.trans (perm.append_right s)

/-- Sifting any list is a permutation and does not touch nodes below `id`. -/
theorem heapify_any (up : α → α → Bool) (n : Nat) : ∀ (k id : Nat) (l : List α), n - id ≤ k → n ≤ l.length → 1 ≤ id →
    ∃ l', heapify up n id l = some l' ∧ l'.length = l.length ∧ l'.Perm l ∧ ∀ i, i + 1 < id → l'[i]? = l[i]? := by
  intro k
  induction k with
  | zero =>
    intro id l hk hl hid
    exact ⟨l, by unfold heapify; rw [if_pos (by omega)], rfl, .refl l, fun _ _ => rfl⟩
  | succ k ih =>
    intro id l hk hl hid
    unfold heapify
    by_cases hleaf : id > n / 2
    · rw [if_pos hleaf]
      exact ⟨l, rfl, rfl, .refl l, fun _ _ => rfl⟩
    · rw [if_neg hleaf]
      have gg : Good up (fun _ _ => True) := ⟨fun _ _ _ => trivial, fun _ _ _ => trivial, fun _ _ _ _ _ => trivial, fun _ => trivial⟩
      obtain ⟨m, em, hm, hmn, _⟩ := pickChild_spec gg n id l hl (by omega) (by omega)
      simp only [em]
      rw [dif_pos (by omega)]
      simp only [at_some l id (by omega) (by omega), at_some l m (by omega) (by omega)]
      cases hu : up (at' l id) (at' l m)
      · simp only [Bool.false_eq_true, if_false]
        exact ⟨l, rfl, rfl, .refl l, fun _ _ => rfl⟩
      · simp only [if_true]
        obtain ⟨l1, e1, len1, perm1, at1, out1⟩ := swapAt_spec l id m (by omega) (by omega) (by omega) (by omega)
        simp only [e1]
        obtain ⟨l2, e2, len2, perm2, out2⟩ := ih m l1 (by omega) (by omega) (by omega)
        refine ⟨l2, e2, by omega, perm2.trans perm1, ?_⟩
        intro i hi
        rw [out2 i (by omega), out1 i (by omega) (by omega)]

theorem push_top {up : α → α → Bool} {R : α → α → Prop} (g : Good up R) (h : List α) (v : α) (hm : ∀ x ∈ h, R (at' h 1) x) :
    ∃ l, heapify up (h.length + 1) 1 (v :: h) = some l ∧ l.Perm (v :: h) ∧ ∀ x ∈ l, R (at' l 1) x := by
  obtain ⟨l, e, len, perm, _⟩ := heapify_any up (h.length + 1) (h.length + 1 - 1) 1 (v :: h) (Nat.le_refl _) (by simp) (Nat.le_refl _)
  refine ⟨l, e, perm, ?_⟩
  cases h with
  | nil =>
    intro x hx
    have : l = [v] := List.perm_singleton.1 perm
    subst this
    rcases List.mem_singleton.1 hx with rfl
    exact g.refl _
  | cons a t =>
    have hm' : ∀ x ∈ a :: t, R a x := hm
    have hfront : at' l 1 = v ∧ R v a ∨ R (at' l 1) a ∧ R (at' l 1) v := by
      unfold heapify at e
      simp only [List.length_cons] at e
      rw [if_neg (by omega)] at e
      obtain ⟨m, em, hmm, hmn, hmR⟩ := pickChild_spec g (t.length + 1 + 1) 1 (v :: a :: t) (by simp) (Nat.le_refl _) (by omega)
      simp only [em] at e
      rw [dif_pos (by omega)] at e
      have a1 := at_some (v :: a :: t) 1 (by omega) (by simp)
      have a2 := at_some (v :: a :: t) m (by omega) (by simp only [List.length_cons]; omega)
      simp only [a1, a2] at e
      have hv : at' (v :: a :: t) 1 = v := rfl
      have h2 : R (at' (v :: a :: t) m) a := hmR 2 (Or.inl rfl) (by omega)
      cases hu : up (at' (v :: a :: t) 1) (at' (v :: a :: t) m)
      · simp only [hu, Bool.false_eq_true, if_false] at e
        left
        rw [← Option.some.inj e]
        refine ⟨rfl, ?_⟩
        have := g.no _ _ hu
        rw [hv] at this
        exact g.trans _ _ _ this h2
      · simp only [hu, if_true] at e
        obtain ⟨l1, e1, len1, perm1, at1, out1⟩ := swapAt_spec (v :: a :: t) 1 m (by omega) (by omega) (by simp)
          (by simp only [List.length_cons]; omega)
        simp only [e1] at e
        obtain ⟨l2, e2, len2, perm2, out2⟩ := heapify_any up (t.length + 1 + 1) (t.length + 1 + 1 - m) m l1 (Nat.le_refl _)
          (by rw [len1]; simp) (by omega)
        rw [e2] at e
        have : at' l 1 = at' (v :: a :: t) m := by
          rw [← Option.some.inj e]
          have : at' l2 1 = at' l1 1 := by unfold at'; rw [out2 _ (by omega)]
          rw [this, at1 1 (by omega), if_pos rfl]
        right
        rw [this]
        refine ⟨h2, ?_⟩
        have h3 := g.yes _ _ hu
        rwa [hv] at h3
    intro x hx
    rcases List.mem_cons.1 (perm.mem_iff.1 hx) with rfl | hx
    · rcases hfront with ⟨h1, _⟩ | ⟨_, h1⟩
      · rw [h1]; exact g.refl _
      · exact h1
    · rcases hfront with ⟨h1, h2⟩ | ⟨h1, _⟩
      · rw [h1]; exact g.trans _ _ _ h2 (hm' x hx)
      · exact g.trans _ _ _ h1 (hm' x hx)

end Verif.Heap
