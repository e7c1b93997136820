/-
Heap.hpp and sort.hpp again, with the number of calls of the comparison.
-/
import Verif.Heap.Model

namespace Verif.Heap

variable {α : Type}

/-- `Heapify` with the number of comparisons, Heap.hpp:42-57 and sort.hpp:44-61: one between the children if there are two, one with the parent. -/
def heapifyC (up : α → α → Bool) (n id : Nat) (l : List α) (cnt : Nat) : Option (List α × Nat) :=
  if id > n / 2 then some (l, cnt)
  else
    match pickChild up n id l with
    | none => none
    | some m =>
      if _h : id < m ∧ m ≤ n then
        match l[id - 1]?, l[m - 1]? with
        | some x, some y =>
          if up x y then
            match swapAt l (id - 1) (m - 1) with
            | some l' => heapifyC up n m l' (cnt + (if 2 * id + 1 ≤ n then 1 else 0) + 1)
            | none => none
          else some (l, cnt + (if 2 * id + 1 ≤ n then 1 else 0) + 1)
        | _, _ => none
      else none
termination_by n - id

/-- The loop of `Build`, Heap.hpp:59-63, and of the sorter's constructor, sort.hpp:24-25, with the number of comparisons. -/
def buildLoopC (up : α → α → Bool) (n : Nat) : (i : Nat) → List α → Nat → Option (List α × Nat)
  | 0, l, cnt => some (l, cnt)
  | i + 1, l, cnt => do
    let (l, cnt) ← heapifyC up n (i + 1) l cnt
    buildLoopC up n i l cnt

/-- `Heap(array)`, Heap.hpp:23-40. -/
def buildC (asc : Bool) (l : List Nat) : Option (List Nat × Nat) := buildLoopC (heapUp asc) l.length (l.length / 2) l 0

/-- `push`, Heap.hpp:65-68. -/
def pushC (asc : Bool) (h : List Nat) (v : Nat) : Option (List Nat × Nat) := heapifyC (heapUp asc) (h.length + 1) 1 (v :: h) 0

/-- `pop`, Heap.hpp:70-74. -/
def popC (asc : Bool) (h : List Nat) : Option (List Nat × Nat) := do
  let l ← swapAt h 0 (h.length - 1)
  heapifyC (heapUp asc) (h.length - 1) 1 (l.take (h.length - 1)) 0

/-- The loop of the sorter's constructor, sort.hpp:26-30. -/
def sortLoopC (up : α → α → Bool) : (n : Nat) → List α → Nat → Option (List α × Nat)
  | 0, l, cnt => some (l, cnt)
  | 1, l, cnt => some (l, cnt)
  | n + 2, l, cnt => do
    let l ← swapAt l 0 (n + 1)
    let (l, cnt) ← heapifyC up (n + 1) 1 l cnt
    sortLoopC up (n + 1) l cnt

/-- `HeapSort(begin, end, compare)`, sort.hpp:23-32, 65-68. -/
def heapSortC (comp : α → α → Bool) (l : List α) : Option (List α × Nat) := do
  let (l, cnt) ← buildLoopC comp l.length (l.length / 2) l 0
  sortLoopC comp l.length l cnt

end Verif.Heap
