/-
Property theorems C41: heaps of at most seven elements.
-/
import Verif.Heap.Props
import Mathlib.Data.List.Sort

namespace Verif.Heap

/-- A call on a heap. -/
inductive HOp where
  | push (v : Nat)
  | pop

/-- A history of calls: the values at the front before each `pop`, and the heap in the end. -/
def history (asc : Bool) : List Nat → List HOp → Option (List Nat × List Nat)
  | h, [] => some ([], h)
  | h, .push v :: ops => (Heap.push asc h v).bind (fun h => history asc h ops)
  | h, .pop :: ops => (front h).bind (fun x => (Heap.pop asc h).bind (fun h => (history asc h ops).map (fun r => (x :: r.1, r.2))))

instance (asc : Bool) : DecidableRel (Ord asc) := fun a b => by unfold Ord; infer_instance

/-- The same history for a sorted list: `pop` takes its first value. -/
def sortedQueue (asc : Bool) : List Nat → List HOp → List Nat × List Nat
  | s, [] => ([], s)
  | s, .push v :: ops => sortedQueue asc (s.orderedInsert (Ord asc) v) ops
  | [], .pop :: ops => sortedQueue asc [] ops
  | x :: s, .pop :: ops => (x :: (sortedQueue asc s ops).1, (sortedQueue asc s ops).2)

/-- The history keeps the number of elements, at first `n`, from 0 to `m`. -/
def within (m : Nat) : Nat → List HOp → Prop
  | _, [] => True
  | n, .push _ :: ops => n < m ∧ within m (n + 1) ops
  | n, .pop :: ops => 0 < n ∧ within m (n - 1) ops

/-- A heap of at most six elements; a seventh is only above the first. -/
def Small (asc : Bool) (l : List Nat) : Prop :=
  l.length ≤ 7 ∧ (∀ x ∈ l, Ord asc (at' l 1) x) ∧ ∀ j, 2 ≤ j → Edge (Ord asc) (min l.length 6) l j

theorem push7 (asc : Bool) (v a b c d e f : Nat) (h1 : Ord asc a b) (h2 : Ord asc a c) (h3 : Ord asc b d) (h4 : Ord asc b e) (h5 : Ord asc c f) :
    ∃ p q r s t u w, heapify (heapUp asc) 7 1 [v, a, b, c, d, e, f] = some [p, q, r, s, t, u, w] ∧ Ord asc q s ∧ Ord asc q t ∧ Ord asc r u := by
  cases asc <;> simp only [Ord, Bool.false_eq_true, if_false, if_true] at * <;>
  · have key : ∀ x y : Nat, ∀ b : Bool, heapUp b x y = (if b then decide (y ≤ x) else decide (x ≤ y)) := by
      intro x y b
      cases b <;> (rw [Bool.eq_iff_iff]; simp [heapUp, compare])
    unfold heapify
    simp [pickChild, swapAt, wr, key]
    split <;> try simp
    all_goals
      split <;> try simp
      all_goals first
        | omega
        | (unfold heapify
           simp [pickChild, swapAt, wr, key]
           split <;> try simp
           all_goals
             split <;> try simp
             all_goals first
               | omega
               | (unfold heapify
                  simp
                  omega))

theorem at_cons (v : Nat) (h : List Nat) {i : Nat} (hi : 2 ≤ i) : at' (v :: h) i = at' h (i - 1) := by
  unfold at'
  rw [show (v :: h)[i - 1]? = h[i - 1 - 1]? by rw [show i - 1 = (i - 1 - 1) + 1 by omega, List.getElem?_cons_succ, Nat.add_sub_cancel]]

theorem small_edge {asc : Bool} {h : List Nat} (S : Small asc h) {j c : Nat} (hj : 1 ≤ j) (hc : c = 2 * j ∨ c = 2 * j + 1) (h6 : c ≤ 6) (hl : c ≤ h.length) : Ord asc (at' h j) (at' h c) := by
  by_cases h1 : j = 1
  · subst h1
    refine S.2.1 _ (List.mem_of_getElem? (i := c - 1) (at_some h c (by omega) hl))
  · exact S.2.2 j (by omega) c hc (by omega)

theorem push_small {asc : Bool} {h : List Nat} (S : Small asc h) (hl : h.length < 7) (v : Nat) : ∃ h', Heap.push asc h v = some h' ∧ h'.Perm (v :: h) ∧ Small asc h' := by
  obtain ⟨l, e, p, hm⟩ := push_top (good_heap asc) h v S.2.1
  refine ⟨l, e, p, by rw [p.length_eq, List.length_cons]; omega, hm, ?_⟩
  by_cases h6 : h.length = 6
  · match h, h6, S, e with
    | [a, b, c, d, e', f], _, S, e =>
      obtain ⟨p1, q, r, s, t, u, w, e1, g1, g2, g3⟩ := push7 asc v a b c d e' f (small_edge S (j := 1) (c := 2) (by omega) (by omega) (by omega) (by simp))
        (small_edge S (j := 1) (c := 3) (by omega) (by omega) (by omega) (by simp)) (small_edge S (j := 2) (c := 4) (by omega) (by omega) (by omega) (by simp))
        (small_edge S (j := 2) (c := 5) (by omega) (by omega) (by omega) (by simp)) (small_edge S (j := 3) (c := 6) (by omega) (by omega) (by omega) (by simp))
      have e2 : some l = some [p1, q, r, s, t, u, w] := e.symm.trans e1
      rw [Option.some.inj e2]
      intro j hj c hc hcn
      simp only [List.length_cons, List.length_nil] at hcn
      have : (j = 2 ∧ c = 4) ∨ (j = 2 ∧ c = 5) ∨ (j = 3 ∧ c = 6) := by omega
      rcases this with ⟨rfl, rfl⟩ | ⟨rfl, rfl⟩ | ⟨rfl, rfl⟩
      · exact g1
      · exact g2
      · exact g3
  · obtain ⟨l2, e2, _, _, E2, _⟩ := heapify_spec (good_heap asc) (h.length + 1) 1 (Nat.le_refl _) (h.length + 1 - 1) 1 (v :: h) (Nat.le_refl _) (by simp) (Nat.le_refl _) (by
      intro j hj hj1 c hc hcn
      rw [at_cons v h (by omega), at_cons v h (by omega)]
      have : (j = 2 ∧ c = 4) ∨ (j = 2 ∧ c = 5) ∨ (j = 3 ∧ c = 6) := by omega
      rcases this with ⟨rfl, rfl⟩ | ⟨rfl, rfl⟩ | ⟨rfl, rfl⟩
      · exact small_edge S (by omega) (.inr rfl) (by omega) (by omega)
      · exact S.2.1 _ (List.mem_of_getElem? (i := 3) (at_some h 4 (by omega) (by omega)))
      · exact small_edge S (by omega) (.inr rfl) (by omega) (by omega)) (fun hh => by omega)
    rw [show l = l2 from Option.some.inj (e.symm.trans e2)]
    intro j hj c hc hcn
    have := (heapify_any (heapUp asc) (h.length + 1) (h.length + 1 - 1) 1 (v :: h) (Nat.le_refl _) (by simp) (Nat.le_refl _))
    exact E2 j (by omega) c hc (by
      have hp := p.length_eq
      rw [Option.some.inj (e.symm.trans e2)] at hp
      simp only [List.length_cons] at hp
      omega)

theorem pop_small {asc : Bool} {h : List Nat} (S : Small asc h) (hne : h ≠ []) :
    ∃ x h', front h = some x ∧ Heap.pop asc h = some h' ∧ (x :: h').Perm h ∧ (∀ y ∈ h, Ord asc x y) ∧ Small asc h' := by
  obtain ⟨x, h', e1, e2, p⟩ := C41_pop_contents asc h hne
  have hpos := List.length_pos_iff.2 hne
  have hl7 := S.1
  refine ⟨x, h', e1, e2, p, ?_, ?_⟩
  · have : x = at' h 1 := Option.some.inj (e1.symm.trans (front_at h hne))
    rw [this]
    exact S.2.1
  · obtain ⟨l1, k1, len1, p1, at1, _⟩ := swapAt_spec h 1 h.length (Nat.le_refl _) hpos hpos (Nat.le_refl _)
    have hat : ∀ i, 1 ≤ i → i ≤ h.length - 1 → at' (l1.take (h.length - 1)) i = at' l1 i := by
      intro i h1 h2
      unfold at'
      rw [List.getElem?_take, if_pos (by omega)]
    obtain ⟨l2, k2, len2, _, E2, _⟩ := heapify_spec (good_heap asc) (h.length - 1) 1 (Nat.le_refl _) (h.length - 1 - 1) 1 (l1.take (h.length - 1))
      (Nat.le_refl _) (by rw [List.length_take]; omega) (Nat.le_refl _) (by
        intro j hj hj1 c hc hcn
        rw [hat j hj (by omega), hat c (by omega) hcn, at1 j hj, at1 c (by omega), if_neg hj1, if_neg (by omega), if_neg (by omega),
          if_neg (by omega)]
        exact small_edge S hj hc (by omega) (by omega)) (fun hh => by omega)
    have e3 : Heap.pop asc h = some l2 := by
      unfold Heap.pop
      rw [show swapAt h 0 (h.length - 1) = some l1 from k1]
      exact k2
    rw [Option.some.inj (e2.symm.trans e3)]
    have hlen : l2.length = h.length - 1 := by rw [len2, List.length_take]; omega
    have hh : IsHeap (Ord asc) l2.length l2 := by
      rw [hlen]
      exact E2
    refine ⟨by omega, fun y hy => heap_top (good_heap asc) l2 hh y hy, fun j hj c hc hcn => hh j (by omega) c hc (by omega)⟩

theorem ord_total (asc : Bool) (a b : Nat) : Ord asc a b ∨ Ord asc b a := by
  unfold Ord
  split <;> omega

theorem ord_anti (asc : Bool) {a b : Nat} (h1 : Ord asc a b) (h2 : Ord asc b a) : a = b := by
  unfold Ord at *
  split at h1 <;> simp_all <;> omega

instance (asc : Bool) : Std.Total (Ord asc) := ⟨ord_total asc⟩
instance (asc : Bool) : IsTrans Nat (Ord asc) := ⟨(good_heap asc).trans⟩

theorem history_small (asc : Bool) : ∀ (ops : List HOp) (h s : List Nat), Small asc h → h.Perm s → s.Pairwise (Ord asc) → within 7 h.length ops →
    ∃ xs h', history asc h ops = some (xs, h') ∧ xs = (sortedQueue asc s ops).1 ∧ h'.Perm (sortedQueue asc s ops).2 ∧ (sortedQueue asc s ops).2.Pairwise (Ord asc) ∧ Small asc h'
  | [], h, s, S, p, hs, _ => ⟨[], h, rfl, rfl, p, hs, S⟩
  | .push v :: ops, h, s, S, p, hs, hw => by
    obtain ⟨h1, e1, p1, S1⟩ := push_small S hw.1 v
    obtain ⟨xs, h', e2, q⟩ := history_small asc ops h1 (s.orderedInsert (Ord asc) v) S1 (p1.trans ((p.cons v).trans (List.perm_orderedInsert _ _ _).symm))
      (hs.orderedInsert v s) (by rw [p1.length_eq]; exact hw.2)
    exact ⟨xs, h', by simp only [history, e1, Option.bind_some, e2], q⟩
  | .pop :: ops, h, s, S, p, hs, hw => by
    obtain ⟨x, h1, e1, e2, p1, hm, S1⟩ := pop_small S (List.length_pos_iff.1 hw.1)
    cases s with
    | nil =>
      have h1 := p.length_eq
      have h2 := hw.1
      rw [List.length_nil] at h1
      omega
    | cons y s =>
      have hxy : x = y := by
        refine ord_anti asc (hm y (p.mem_iff.2 (by simp))) ?_
        have : x ∈ y :: s := p.mem_iff.1 (p1.mem_iff.1 (by simp))
        rcases List.mem_cons.1 this with rfl | h
        · exact (good_heap asc).refl _
        · exact List.rel_of_pairwise_cons hs h
      subst hxy
      have hl := p1.length_eq
      obtain ⟨xs, h', e3, q1, q2⟩ := history_small asc ops h1 s S1 ((p1.trans p).cons_inv) (List.pairwise_cons.1 hs).2 (by
        rw [List.length_cons] at hl
        rw [show h1.length = h.length - 1 by omega]
        exact hw.2)
      exact ⟨x :: xs, h', by simp only [history, e1, e2, Option.bind_some, e3, Option.map_some], by rw [q1]; rfl, q2⟩

/-- C41, in part: build a heap of at most seven values, then push and pop in any order, never more than seven values at a time: all values popped are those a sorted list gives.
The full statement has no bound on the size; with eight values it is false (`C41_eight_refuted`). -/
theorem C41_seven_partial (asc : Bool) (l : List Nat) (ops : List HOp) (hl : l.length ≤ 7) (hw : within 7 l.length ops) :
    ∃ h xs h', build asc l = some h ∧ history asc h ops = some (xs, h') ∧ xs = (sortedQueue asc (l.insertionSort (Ord asc)) ops).1 ∧
      h'.Perm (sortedQueue asc (l.insertionSort (Ord asc)) ops).2 ∧ front h' = (sortedQueue asc (l.insertionSort (Ord asc)) ops).2.head? := by
  obtain ⟨h, e, len, p, hh⟩ := build_heap (good_heap asc) l
  rw [← len] at hh
  obtain ⟨xs, h', e', q1, q2, q3, S⟩ := history_small asc ops h (l.insertionSort (Ord asc))
    ⟨by omega, fun x hx => heap_top (good_heap asc) h hh x hx, fun j hj c hc hcn => hh j (by omega) c hc (by omega)⟩
    (p.trans (List.perm_insertionSort _ _).symm) (List.pairwise_insertionSort _ _) (by rw [len]; exact hw)
  refine ⟨h, xs, h', e, e', q1, q2, ?_⟩
  revert q2 q3
  generalize (sortedQueue asc (l.insertionSort (Ord asc)) ops).2 = s
  intro q2 q3
  cases s with
  | nil =>
    rw [List.perm_nil.1 q2]
    rfl
  | cons y s =>
    have hne : h' ≠ [] := fun h0 => by
      have := q2.length_eq
      rw [h0] at this
      simp at this
    rw [front_at h' hne, List.head?_cons]
    congr 1
    have hx : at' h' 1 ∈ y :: s := q2.mem_iff.1 (List.mem_of_getElem? (i := 0) (at_some h' 1 (by omega) (List.length_pos_iff.2 hne)))
    refine ord_anti asc (S.2.1 y (q2.mem_iff.2 (by simp))) ?_
    rcases List.mem_cons.1 hx with h1 | h1
    · rw [h1]
      exact (good_heap asc).refl _
    · exact List.rel_of_pairwise_cons q3 h1

/-- The history of `C41_eight_refuted`. -/
def eight : List HOp := [.push 8, .push 3, .push 2, .push 1, .push 0, .push 7, .push 4, .pop, .push 6, .push 5, .pop, .pop, .pop]

/-- C41: with eight values the order is lost: this history pops 4 although 3 is still there. -/
theorem C41_eight_refuted : within 8 0 eight ∧ (sortedQueue true [] eight).1 = [0, 1, 2, 3] ∧ ∃ h, history true [] eight = some ([0, 1, 2, 4], h) := by
  refine ⟨by simp [eight, within], by decide +kernel, ?_⟩
  have h : ((history true [] eight).map (·.1)) = some [0, 1, 2, 4] := by decide +kernel
  obtain ⟨⟨xs, h'⟩, e, h⟩ := Option.map_eq_some_iff.1 h
  exact ⟨h', by rw [e, ← h]⟩

/-- A history for `C41_seven_partial`, with equal values. -/
example : ∃ h xs h', build true [5, 3, 5] = some h ∧
    history true h [.push 4, .push 8, .push 3, .push 9, .pop, .pop, .push 3, .pop, .pop, .pop] = some (xs, h') ∧ xs = [3, 3, 3, 4, 5] ∧ h'.Perm [5, 8, 9] ∧ front h' = some 5 := by
  have e : ([5, 3, 5] : List Nat).insertionSort (Ord true) = [3, 5, 5] := by decide +kernel
  have := C41_seven_partial true [5, 3, 5] [.push 4, .push 8, .push 3, .push 9, .pop, .pop, .push 3, .pop, .pop, .pop] (by decide) (by simp [within])
  rw [e] at this
  have e2 : sortedQueue true [3, 5, 5] [.push 4, .push 8, .push 3, .push 9, .pop, .pop, .push 3, .pop, .pop, .pop] = ([3, 3, 3, 4, 5], [5, 8, 9]) := by decide +kernel
  rw [e2] at this
  exact this

end Verif.Heap
