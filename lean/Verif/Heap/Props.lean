/-
C40-C42: Heap and HeapSort.
-/
import Verif.Heap.Lemmas

namespace Verif.Heap

/-- A client program: take `front`, `pop`, and so on `k` times. -/
def drain (asc : Bool) : (k : Nat) → List Nat → Option (List Nat × List Nat)
  | 0, h => some ([], h)
  | k + 1, h => do
    let x ← front h
    let h ← pop asc h
    let (xs, h) ← drain asc k h
    pure (x :: xs, h)

/-- A client program: push all values. -/
def pushAll (asc : Bool) : List Nat → List Nat → Option (List Nat)
  | [], h => some h
  | v :: vs, h => do
    let h ← push asc h v
    pushAll asc vs h

/-- The order of the elements as they leave the heap. -/
def Ord (asc : Bool) (a b : Nat) : Prop := if asc then a ≤ b else b ≤ a

theorem good_heap (asc : Bool) : Good (heapUp asc) (Ord asc) := by
  cases asc <;> refine ⟨?_, ?_, ?_, ?_⟩ <;> intros <;> simp_all [heapUp, compare, Ord] <;> omega

theorem front_at (h : List Nat) (hne : h ≠ []) : front h = some (at' h 1) := at_some h 1 (by omega) (List.length_pos_iff.2 hne)

theorem drain_spec (asc : Bool) : ∀ (k : Nat) (h : List Nat), k ≤ h.length → IsHeap (Ord asc) h.length h →
    ∃ xs h', drain asc k h = some (xs, h') ∧ xs.length = k ∧ (xs ++ h').Perm h ∧ xs.Pairwise (Ord asc) ∧
      (∀ x ∈ xs, ∀ y ∈ h', Ord asc x y) ∧ h'.length = h.length - k ∧ IsHeap (Ord asc) h'.length h' := by
  intro k
  induction k with
  | zero => intro h _ hh; exact ⟨[], h, rfl, rfl, .refl h, .nil, by simp, by simp, hh⟩
  | succ k ih =>
    intro h hk hh
    have hne : h ≠ [] := by intro e; rw [e] at hk; simp at hk
    obtain ⟨l1, l2, e1, _, e2, len2, perm, heap2⟩ := pop_spec (good_heap asc) h hne hh
    have htop := heap_top (good_heap asc) h hh
    rw [← len2] at heap2
    obtain ⟨xs, h', ed, hxl, hp, hs, hc, hl, hh'⟩ := ih l2 (by omega) heap2
    have hin : ∀ y, y ∈ xs ∨ y ∈ h' → Ord asc (at' h 1) y := by
      intro y hy
      apply htop
      refine perm.mem_iff.1 (List.mem_cons_of_mem _ (hp.mem_iff.1 ?_))
      simpa using hy
    refine ⟨at' h 1 :: xs, h', ?_, by simp [hxl], ?_, ?_, ?_, by omega, hh'⟩
    · simp [drain, front_at h hne, pop, e1, e2, ed]
    · exact ((List.Perm.cons _ hp).trans perm)
    · rw [List.pairwise_cons]
      exact ⟨fun y hy => hin y (Or.inl hy), hs⟩
    · intro x hx y hy
      rcases List.mem_cons.1 hx with rfl | hx
      · exact hin y (Or.inr hy)
      · exact hc x hx y hy

/-- C40: a heap built from any list gives, by `front` and `pop` until it is empty, all its elements in order. -/
theorem C40_drain (asc : Bool) (l : List Nat) :
    ∃ h xs, build asc l = some h ∧ drain asc l.length h = some (xs, []) ∧ xs.Perm l ∧
      xs.Pairwise (fun a b => if asc then a ≤ b else b ≤ a) := by
  obtain ⟨h, e, len, p, hh⟩ := build_heap (good_heap asc) l
  rw [← len] at hh
  obtain ⟨xs, h', ed, hxl, hp, hs, _, hl, _⟩ := drain_spec asc h.length h (Nat.le_refl _) hh
  have : h' = [] := List.length_eq_zero_iff.1 (by omega)
  subst this
  rw [List.append_nil] at hp
  exact ⟨h, xs, e, len ▸ ed, hp.trans p, hs⟩

/-- C40: also in the middle: after `k` pops the first `k` elements in order have been seen, and `front` is the extremum of the
rest. -/
theorem C40_front (asc : Bool) (l : List Nat) (k : Nat) (hk : k < l.length) :
    ∃ h xs h' x, build asc l = some h ∧ drain asc k h = some (xs, h') ∧ front h' = some x ∧ xs.length = k ∧ (xs ++ h').Perm l ∧
      x ∈ h' ∧ (∀ y ∈ h', if asc then x ≤ y else y ≤ x) ∧ (∀ z ∈ xs, if asc then z ≤ x else x ≤ z) := by
  obtain ⟨h, e, len, p, hh⟩ := build_heap (good_heap asc) l
  rw [← len] at hh
  obtain ⟨xs, h', ed, hxl, hp, hs, hc, hl, hh'⟩ := drain_spec asc k h (by omega) hh
  have hne : h' ≠ [] := by intro e; rw [e] at hl; simp at hl; omega
  have hf := front_at h' hne
  have hmem : at' h' 1 ∈ h' := List.mem_of_getElem? hf
  exact ⟨h, xs, h', _, e, ed, hf, hxl, hp.trans p, hmem, fun y hy => heap_top (good_heap asc) h' hh' y hy,
    fun z hz => hc z hz _ hmem⟩

example : (build true [5, 3, 9, 3, 1]).bind (fun h => drain true 5 h) = some ([1, 3, 3, 5, 9], []) := by decide +kernel
example : (build false [5, 3, 9, 3, 1]).bind (fun h => drain false 5 h) = some ([9, 5, 3, 3, 1], []) := by decide +kernel
example : (build true [5, 3, 9, 3, 1]).bind (fun h => drain true 2 h) = some ([1, 3], [3, 5, 9]) := by decide +kernel
example : 2 < [5, 3, 9, 3, 1].length := by decide

/-- C41: whatever the state, `push` adds one element. -/
theorem C41_push_contents (asc : Bool) (h : List Nat) (v : Nat) : ∃ h', push asc h v = some h' ∧ h'.Perm (v :: h) := by
  obtain ⟨l, e, len, perm, _⟩ := heapify_any (heapUp asc) (h.length + 1) (h.length + 1 - 1) 1 (v :: h) (Nat.le_refl _) (by simp)
    (Nat.le_refl _)
  exact ⟨l, e, perm⟩

example := C41_push_contents true [2, 5, 3, 9] 1

/-- C41: whatever the state, `pop` takes the front element away. -/
theorem C41_pop_contents (asc : Bool) (h : List Nat) (hne : h ≠ []) :
    ∃ x h', front h = some x ∧ pop asc h = some h' ∧ (x :: h').Perm h := by
  have gg : Good (heapUp asc) (fun _ _ => True) := ⟨fun _ _ _ => trivial, fun _ _ _ => trivial, fun _ _ _ _ _ => trivial, fun _ => trivial⟩
  obtain ⟨l1, l2, e1, _, e2, len2, perm, _⟩ := pop_spec gg h hne (fun _ _ _ _ _ => trivial)
  exact ⟨at' h 1, l2, front_at h hne, by simp [pop, e1, e2], perm⟩

example := C41_pop_contents true [2, 5, 3, 9] (by decide)

/-- C41: popping an empty heap is undefined. -/
theorem C41_pop_empty_ub (asc : Bool) : pop asc [] = none := by cases asc <;> decide +kernel

theorem pushAll_spec (asc : Bool) : ∀ (vs h : List Nat), (∀ x ∈ h, Ord asc (at' h 1) x) →
    ∃ h', pushAll asc vs h = some h' ∧ h'.Perm (vs ++ h) ∧ ∀ x ∈ h', Ord asc (at' h' 1) x := by
  intro vs
  induction vs with
  | nil => intro h hm; exact ⟨h, rfl, .refl h, hm⟩
  | cons v vs ih =>
    intro h hm
    obtain ⟨l, e, p, hm'⟩ := push_top (good_heap asc) h v hm
    obtain ⟨h', e', p', hm''⟩ := ih l hm'
    refine ⟨h', ?_, ?_, hm''⟩
    · have e2 : push asc h v = some l := e
      simp [pushAll, e2, e']
    · exact p'.trans ((p.append_left vs).trans List.perm_middle)

/-- C41, in part: build a heap of any list, pop any number of times, then push any values: `front` is the extremum of what the
heap holds. The full statement allows pops after pushes; `C41_interleaved_refuted` shows that it is false. -/
theorem C41_front_partial (asc : Bool) (l : List Nat) (k : Nat) (hk : k ≤ l.length) (vs : List Nat) (hne : k < l.length ∨ vs ≠ []) :
    ∃ h xs h1 h2 x, build asc l = some h ∧ drain asc k h = some (xs, h1) ∧ pushAll asc vs h1 = some h2 ∧ front h2 = some x ∧
      (xs ++ h2).Perm (vs ++ l) ∧ x ∈ h2 ∧ ∀ y ∈ h2, if asc then x ≤ y else y ≤ x := by
  obtain ⟨h, e, len, p, hh⟩ := build_heap (good_heap asc) l
  rw [← len] at hh
  obtain ⟨xs, h', ed, hxl, hp, hs, hc, hl, hh'⟩ := drain_spec asc k h (by omega) hh
  obtain ⟨h2, e2, p2, hm2⟩ := pushAll_spec asc vs h' (fun x hx => heap_top (good_heap asc) h' hh' x hx)
  have hne2 : h2 ≠ [] := by
    intro e0
    have := p2.length_eq
    rw [e0, List.length_append] at this
    simp only [List.length_nil] at this
    rcases hne with h3 | h3
    · omega
    · have := List.length_pos_iff.2 h3
      omega
  have hf := front_at h2 hne2
  refine ⟨h, xs, h', h2, _, e, ed, e2, hf, ?_, List.mem_of_getElem? hf, hm2⟩
  have q1 : (xs ++ h2).Perm (xs ++ (vs ++ h')) := p2.append_left xs
  have q2 : (xs ++ (vs ++ h')).Perm (vs ++ (xs ++ h')) := by
    rw [← List.append_assoc, ← List.append_assoc]
    exact List.perm_append_comm.append_right h'
  exact (q1.trans q2).trans ((hp.trans p).append_left vs)

example := C41_front_partial true [5, 2, 9, 3] 2 (by decide) [7, 1] (.inl (by decide))

/-- C41: the full statement is false: after twelve pushes on an empty min-heap, five pops leave a heap whose front 6 is not its
least element 5. -/
theorem C41_interleaved_refuted : ∃ h xs h' x, pushAll true [4, 11, 1, 10, 2, 0, 9, 8, 3, 5, 6, 7] [] = some h ∧
    drain true 5 h = some (xs, h') ∧ front h' = some x ∧ ∃ y ∈ h', y < x := by
  have key : ((pushAll true [4, 11, 1, 10, 2, 0, 9, 8, 3, 5, 6, 7] []).bind (fun h => (drain true 5 h).bind (fun r => (front r.2).map
      (fun x => (x, r.2.any (fun y => decide (y < x))))))) = some (6, true) := by decide +kernel
  obtain ⟨h, eh, k1⟩ := Option.bind_eq_some_iff.1 key
  obtain ⟨⟨xs, h'⟩, ed, k2⟩ := Option.bind_eq_some_iff.1 k1
  obtain ⟨x, ef, k3⟩ := Option.map_eq_some_iff.1 k2
  simp only [Prod.mk.injEq, List.any_eq_true, decide_eq_true_eq] at k3
  obtain ⟨_, y, hy, hlt⟩ := k3
  exact ⟨h, xs, h', x, eh, ed, ef, y, hy, hlt⟩

example : ((build true [5, 3, 9]).bind (fun h => drain true 1 h)).bind (fun r => pushAll true [4, 1] r.2) = some [1, 4, 5, 9] := by
  decide +kernel
example : 1 ≤ [5, 3, 9].length ∧ (1 < [5, 3, 9].length ∨ [4, 1] ≠ []) := by decide

/-- C42: for a comparison whose negation is transitive and which is irreflexive and asymmetric (a strict weak order), HeapSort gives a
permutation in non-descending order: no later element is less than an earlier one. -/
theorem C42_sort {α : Type} (comp : α → α → Bool) (irrefl : ∀ a, comp a a = false) (asymm : ∀ a b, comp a b = true → comp b a = false)
    (negtrans : ∀ a b c, comp a b = false → comp b c = false → comp a c = false) (l : List α) :
    ∃ l', heapSort comp l = some l' ∧ l'.Perm l ∧ l'.Pairwise (fun a b => comp b a = false) := by
  cases l with
  | nil => exact ⟨[], by simp [heapSort, buildLoop, sortLoop], .refl _, .nil⟩
  | cons a t =>
    haveI : Inhabited α := ⟨a⟩
    have g : Good comp (fun a b => comp a b = false) := ⟨fun a b h => asymm a b h, fun a b h => h, negtrans, irrefl⟩
    obtain ⟨h, e, len, p, hh⟩ := build_heap g (a :: t)
    obtain ⟨l', e', p', s'⟩ := sortLoop_spec g (a :: t).length h [] len hh (by simp) .nil
    rw [List.append_nil] at e' p'
    exact ⟨l', by simp only [heapSort, e, Option.bind_eq_bind, Option.bind_some, len]; exact e', p'.trans p, s'⟩

/-- C42: with the default comparison the result is in non-descending order. -/
theorem C42_sort_default (l : List Nat) : ∃ l', heapSortLt l = some l' ∧ l'.Perm l ∧ l'.Pairwise (· ≤ ·) := by
  obtain ⟨l', e, p, s⟩ := C42_sort (fun a b => decide (a < b)) (by simp) (by intro a b; simp; omega) (by intro a b c; simp; omega) l
  exact ⟨l', e, p, s.imp (by intro a b h; simpa using h)⟩

example : heapSort (fun (a b : Nat × Nat) => decide (a.1 > b.1)) [(1, 0), (5, 1), (1, 2), (9, 3)] = some [(9, 3), (5, 1), (1, 0), (1, 2)] ∨
    heapSort (fun (a b : Nat × Nat) => decide (a.1 > b.1)) [(1, 0), (5, 1), (1, 2), (9, 3)] = some [(9, 3), (5, 1), (1, 2), (1, 0)] := by
  decide +kernel
example : (∀ a : Nat × Nat, decide (a.1 > a.1) = false) ∧
    (∀ a b : Nat × Nat, decide (a.1 > b.1) = true → decide (b.1 > a.1) = false) ∧
    (∀ a b c : Nat × Nat, decide (a.1 > b.1) = false → decide (b.1 > c.1) = false → decide (a.1 > c.1) = false) := by
  refine ⟨by simp, ?_, ?_⟩ <;> intros <;> simp_all <;> omega
example : heapSortLt [3, 1, 2, 1] = some [1, 1, 2, 3] := by decide +kernel

end Verif.Heap
