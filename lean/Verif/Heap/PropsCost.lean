/-
Property theorem C79: the number of comparisons of `Heap` and `HeapSort`.
-/
import Verif.Heap.Props
import Verif.Heap.Cost

namespace Verif.Heap

variable {α : Type}

theorem log2_child {n id m : Nat} (h1 : 1 ≤ id) (hm : 2 * id ≤ m) (hn : m ≤ n) : (n / m).log2 + 1 ≤ (n / id).log2 := by
  have hpos : 1 ≤ n / m := (Nat.one_le_div_iff (by omega)).2 hn
  have h2 : n / m ≤ n / id / 2 := by
    rw [Nat.div_div_eq_div_mul]
    exact Nat.div_le_div_left (by omega) (by omega)
  have h3 : 2 ≤ n / id := by omega
  rw [Nat.log2_def (n / id), if_pos h3]
  have : (n / m).log2 ≤ (n / id / 2).log2 := by
    rw [Nat.le_log2 (by omega)]
    exact Nat.le_trans (Nat.log2_self_le (by omega)) h2
  omega

theorem heapifyC_spec (up : α → α → Bool) (n : Nat) : ∀ (k id : Nat) (l l' : List α) (cnt : Nat), n - id ≤ k → 1 ≤ id →
    heapify up n id l = some l' → ∃ c, heapifyC up n id l cnt = some (l', c) ∧ c ≤ cnt + 2 * (n / id).log2 := by
  intro k
  induction k with
  | zero =>
    intro id l l' cnt hk h1 h
    unfold heapify at h
    unfold heapifyC
    rw [if_pos (by omega)] at h ⊢
    cases h
    exact ⟨cnt, rfl, by omega⟩
  | succ k ih =>
    intro id l l' cnt hk h1 h
    unfold heapify at h
    unfold heapifyC
    by_cases hid : id > n / 2
    · rw [if_pos hid] at h ⊢
      cases h
      exact ⟨cnt, rfl, by omega⟩
    · rw [if_neg hid] at h ⊢
      have hb : 2 * id ≤ n := by omega
      have hlog : 1 ≤ (n / id).log2 := by
        have := log2_child h1 (Nat.le_refl _) hb
        omega
      cases hp : pickChild up n id l with
      | none => rw [hp] at h; cases h
      | some m =>
        have hm2 : 2 * id ≤ m := by
          unfold pickChild at hp
          simp only [Option.bind_eq_bind, Option.bind_eq_some_iff] at hp
          obtain ⟨a, _, hp⟩ := hp
          split at hp
          · simp only [Option.bind_eq_some_iff, Option.pure_def, Option.some.injEq] at hp
            obtain ⟨b, _, hp⟩ := hp
            split at hp <;> omega
          · simp only [Option.pure_def, Option.some.injEq] at hp
            omega
        rw [hp] at h
        simp only at h ⊢
        by_cases hm : id < m ∧ m ≤ n
        · rw [dif_pos hm] at h ⊢
          have hstep := log2_child h1 hm2 hm.2
          cases hx : l[id - 1]? with
          | none => rw [hx] at h; cases h
          | some x =>
            cases hy : l[m - 1]? with
            | none => rw [hx, hy] at h; cases h
            | some y =>
              rw [hx, hy] at h
              simp only at h ⊢
              by_cases hu : up x y = true
              · rw [if_pos hu] at h ⊢
                cases hs : swapAt l (id - 1) (m - 1) with
                | none => rw [hs] at h; cases h
                | some l1 =>
                  rw [hs] at h
                  simp only at h ⊢
                  obtain ⟨c, e, hc⟩ := ih m l1 l' (cnt + (if 2 * id + 1 ≤ n then 1 else 0) + 1) (by omega) (by omega) h
                  refine ⟨c, e, ?_⟩
                  split at hc <;> omega
              · rw [if_neg hu] at h ⊢
                cases h
                refine ⟨_, rfl, ?_⟩
                split <;> omega
        · rw [dif_neg hm] at h; cases h

/-- The sum of the heights of the nodes. -/
def heights (n : Nat) : Nat → Nat
  | 0 => 0
  | i + 1 => heights n i + (n / (i + 1)).log2

theorem heights_half (n : Nat) : ∀ i, i ≤ n / 2 → heights n i = heights (n / 2) i + i := by
  intro i
  induction i with
  | zero => intro _; rfl
  | succ i ih =>
    intro hi
    have h2 : 2 ≤ n / (i + 1) := (Nat.le_div_iff_mul_le (by omega)).2 (by omega)
    rw [heights, heights, ih (by omega), Nat.log2_def (n / (i + 1)), if_pos h2, Nat.div_div_eq_div_mul, Nat.div_div_eq_div_mul, Nat.mul_comm (i + 1) 2]
    omega

theorem heights_rest (n : Nat) : ∀ i, n / 2 ≤ i → heights n i = heights n (n / 2) := by
  intro i hi
  induction hi with
  | refl => rfl
  | step hi ih =>
    rename_i i
    have hi : n / 2 ≤ i := hi
    rw [heights, ih]
    have : n / (i + 1) < 2 := (Nat.div_lt_iff_lt_mul (by omega)).2 (by omega)
    rw [Nat.log2_def, if_neg (by omega)]
    omega

/-- The heights of the nodes of a heap of `n` elements sum up to at most `n`. -/
theorem heights_le (n : Nat) : heights n (n / 2) ≤ n := by
  induction n using Nat.strongRecOn with
  | _ n ih =>
    by_cases h : n = 0
    · subst h; simp [heights]
    · rw [heights_half n _ (Nat.le_refl _), heights_rest (n / 2) (n / 2) (by omega)]
      have := ih (n / 2) (by omega)
      omega

theorem buildLoopC_spec (up : α → α → Bool) (n : Nat) : ∀ (i : Nat) (l l' : List α) (cnt : Nat), buildLoop up n i l = some l' →
    ∃ c, buildLoopC up n i l cnt = some (l', c) ∧ c ≤ cnt + 2 * heights n i := by
  intro i
  induction i with
  | zero =>
    intro l l' cnt h
    cases h
    exact ⟨cnt, rfl, by simp [heights]⟩
  | succ i ih =>
    intro l l' cnt h
    unfold buildLoop at h
    unfold buildLoopC
    simp only [Option.bind_eq_bind, Option.bind_eq_some_iff] at h
    obtain ⟨l1, h1, h⟩ := h
    obtain ⟨c1, e1, hc1⟩ := heapifyC_spec up n n (i + 1) l l1 cnt (by omega) (by omega) h1
    obtain ⟨c, e, hc⟩ := ih l1 l' c1 h
    refine ⟨c, by simp only [e1, Option.bind_eq_bind, Option.bind_some, e], ?_⟩
    rw [heights]
    omega

theorem log2_mono {a b : Nat} (h : a ≤ b) : a.log2 ≤ b.log2 := by
  by_cases h0 : a = 0
  · subst h0; simp
  · rw [Nat.le_log2 (by omega)]
    exact Nat.le_trans (Nat.log2_self_le h0) h

theorem sortLoopC_spec (up : α → α → Bool) (N : Nat) : ∀ (n : Nat) (l l' : List α) (cnt : Nat), n ≤ N → sortLoop up n l = some l' →
    ∃ c, sortLoopC up n l cnt = some (l', c) ∧ c ≤ cnt + 2 * N.log2 * n := by
  intro n
  induction n with
  | zero => intro l l' cnt _ h; cases h; exact ⟨cnt, rfl, by omega⟩
  | succ n ih =>
    intro l l' cnt hn h
    cases n with
    | zero => cases h; exact ⟨cnt, rfl, by omega⟩
    | succ n =>
      unfold sortLoop at h
      unfold sortLoopC
      simp only [Option.bind_eq_bind, Option.bind_eq_some_iff] at h
      obtain ⟨l1, h1, l2, h2, h⟩ := h
      obtain ⟨c1, e1, hc1⟩ := heapifyC_spec up (n + 1) (n + 1) 1 l1 l2 cnt (by omega) (by omega) h2
      obtain ⟨c, e, hc⟩ := ih l2 l' c1 (by omega) h
      refine ⟨c, by simp only [h1, e1, Option.bind_eq_bind, Option.bind_some, e], ?_⟩
      have hm := log2_mono (show (n + 1) / 1 ≤ N by rw [Nat.div_one]; omega)
      rw [Nat.mul_succ (2 * N.log2) (n + 1)]
      omega

/-- C79: `HeapSort` of `n` elements calls the comparison at most `2 n log2 n + 2 n` times, whatever the comparison. -/
theorem C79_sort (comp : α → α → Bool) (l : List α) :
    ∃ l' c, heapSortC comp l = some (l', c) ∧ heapSort comp l = some l' ∧ c ≤ 2 * l.length * l.length.log2 + 2 * l.length := by
  cases l with
  | nil => exact ⟨[], 0, by simp [heapSortC, buildLoopC, sortLoopC], by simp [heapSort, buildLoop, sortLoop], by omega⟩
  | cons x0 xs =>
  haveI : Inhabited α := ⟨x0⟩
  generalize x0 :: xs = l
  have gg : Good comp (fun _ _ => True) := ⟨fun _ _ _ => trivial, fun _ _ _ => trivial, fun _ _ _ _ _ => trivial, fun _ => trivial⟩
  obtain ⟨l1, e1, len, _, hh⟩ := build_heap gg l
  obtain ⟨l2, e2, _, _⟩ := sortLoop_spec gg l.length l1 [] len hh (fun _ _ _ h => by cases h) .nil
  rw [List.append_nil] at e2
  obtain ⟨c1, f1, hc1⟩ := buildLoopC_spec comp l.length _ l l1 0 e1
  obtain ⟨c2, f2, hc2⟩ := sortLoopC_spec comp l.length l.length l1 l2 c1 (Nat.le_refl _) e2
  refine ⟨l2, c2, by simp only [heapSortC, f1, Option.bind_eq_bind, Option.bind_some, len, f2],
    by simp only [heapSort, e1, Option.bind_eq_bind, Option.bind_some, len, e2], ?_⟩
  have := heights_le l.length
  have h3 : 2 * l.length.log2 * l.length = 2 * l.length * l.length.log2 := by rw [Nat.mul_assoc, Nat.mul_comm l.length.log2, ← Nat.mul_assoc]
  omega

/-- C79: building a heap of `n` elements takes at most `2 n` comparisons. -/
theorem C79_build (asc : Bool) (l : List Nat) : ∃ h c, buildC asc l = some (h, c) ∧ build asc l = some h ∧ c ≤ 2 * l.length := by
  obtain ⟨l1, e1, _⟩ := build_heap (good_heap asc) l
  obtain ⟨c1, f1, hc1⟩ := buildLoopC_spec (heapUp asc) l.length _ l l1 0 e1
  have := heights_le l.length
  exact ⟨l1, c1, f1, e1, by omega⟩

/-- C79: `push` and `pop` take at most two comparisons per level of the tree. -/
theorem C79_push_pop (asc : Bool) (h : List Nat) :
    (∀ v, ∃ h' c, pushC asc h v = some (h', c) ∧ push asc h v = some h' ∧ c ≤ 2 * (h.length + 1).log2) ∧
    (h ≠ [] → ∃ h' c, popC asc h = some (h', c) ∧ pop asc h = some h' ∧ c ≤ 2 * (h.length - 1).log2) := by
  constructor
  · intro v
    obtain ⟨h', e, _⟩ := C41_push_contents asc h v
    obtain ⟨c, f, hc⟩ := heapifyC_spec (heapUp asc) (h.length + 1) (h.length + 1) 1 (v :: h) h' 0 (by omega) (by omega) e
    exact ⟨h', c, f, e, by rw [Nat.div_one] at hc; omega⟩
  · intro hne
    obtain ⟨_, h', _, e, _⟩ := C41_pop_contents asc h hne
    have e' := e
    unfold pop at e'
    simp only [Option.bind_eq_bind, Option.bind_eq_some_iff] at e'
    obtain ⟨l1, s1, e'⟩ := e'
    obtain ⟨c, f, hc⟩ := heapifyC_spec (heapUp asc) (h.length - 1) (h.length - 1) 1 _ h' 0 (by omega) (by omega) e'
    exact ⟨h', c, by simp only [popC, s1, Option.bind_eq_bind, Option.bind_some, f], e, by rw [Nat.div_one] at hc; omega⟩

/-- The numbers for a small case: 15 comparisons for 6 elements (the bound is 36). -/
example : heapSortC (fun a b => decide (a < b)) [5, 2, 9, 1, 7, 3] = some ([1, 2, 3, 5, 7, 9], 15) := by decide +kernel

end Verif.Heap
