/-
Model of /repo/include/sim_ds/Heap.hpp and /repo/include/sim_ds/sort.hpp.

Values are natural numbers for `Heap` (`id_type`) and any type for `HeapSort`. Identifiers of nodes start at 1 as in the code.
-/
import Verif.Common

namespace Verif.Heap

variable {α : Type}

/-- `std::swap` of two elements. -/
def swapAt (l : List α) (i j : Nat) : Option (List α) := do
  let x ← l[i]?
  let y ← l[j]?
  let l ← wr l i y
  wr l j x

/-- The child picked in `Heapify`, Heap.hpp:45-52 and sort.hpp:47-54. `n` is `size()`; `up a b` says that `b` should be
above `a`: `!Compare(a, b)` in Heap.hpp, `compare_(a, b)` in sort.hpp. -/
def pickChild (up : α → α → Bool) (n id : Nat) (l : List α) : Option Nat := do
  let a ← l[2 * id - 1]?
  if 2 * id + 1 ≤ n then do
    let b ← l[2 * id + 1 - 1]?
    pure (if up a b then 2 * id + 1 else 2 * id)
  else pure (2 * id)

/-- `Heapify`, Heap.hpp:42-57 and sort.hpp:44-61 (the two differ in the comparison only, see `pickChild`; in sort.hpp
the heap is the first `n` elements of the range). The test `id < m` always holds for `id ≥ 1`; for `id = 0` the code would
recurse forever. -/
def heapify (up : α → α → Bool) (n id : Nat) (l : List α) : Option (List α) :=
  if id > n / 2 then some l
  else
    match pickChild up n id l with
    | none => none
    | some m =>
      if _h : id < m ∧ m ≤ n then
        match l[id - 1]?, l[m - 1]? with
        | some x, some y =>
          if up x y then
            match swapAt l (id - 1) (m - 1) with
            | some l' => heapify up n m l'
            | none => none
          else some l
        | _, _ => none
      else none
termination_by n - id

/-- `Compare`, Heap.hpp:117-119. -/
def compare (asc : Bool) (a b : Nat) : Bool := if asc then decide (a < b) else decide (b < a)

/-- `!Compare(a, b)`, Heap.hpp:49 and 53. -/
def heapUp (asc : Bool) (a b : Nat) : Bool := !compare asc a b

/-- The loop of `Build`, Heap.hpp:59-63, and of the sorter's constructor, sort.hpp:24-25: `i` is the next node. -/
def buildLoop (up : α → α → Bool) (n : Nat) : (i : Nat) → List α → Option (List α)
  | 0, l => some l
  | i + 1, l => do
    let l ← heapify up n (i + 1) l
    buildLoop up n i l

/-- `Heap(array)` and `Heap(begin, end)`, Heap.hpp:23-40. -/
def build (asc : Bool) (l : List Nat) : Option (List Nat) := buildLoop (heapUp asc) l.length (l.length / 2) l

/-- `front`, Heap.hpp:86-88. -/
def front (h : List Nat) : Option Nat := h[0]?

/-- `push`, Heap.hpp:65-68. -/
def push (asc : Bool) (h : List Nat) (v : Nat) : Option (List Nat) := heapify (heapUp asc) (h.length + 1) 1 (v :: h)

/-- `pop`, Heap.hpp:70-74; undefined for an empty heap. -/
def pop (asc : Bool) (h : List Nat) : Option (List Nat) := do
  let l ← swapAt h 0 (h.length - 1)
  heapify (heapUp asc) (h.length - 1) 1 (l.take (h.length - 1))

/-- The loop of the sorter's constructor, sort.hpp:26-30: `n` is `end_ - begin_`. -/
def sortLoop (up : α → α → Bool) : (n : Nat) → List α → Option (List α)
  | 0, l => some l
  | 1, l => some l
  | n + 2, l => do
    let l ← swapAt l 0 (n + 1)
    let l ← heapify up (n + 1) 1 l
    sortLoop up (n + 1) l

/-- `HeapSort(begin, end, compare)`, sort.hpp:23-32, 65-68. For an empty range `end_ - 1` is formed, one before the
beginning; the comparison is taken to be false. -/
def heapSort (comp : α → α → Bool) (l : List α) : Option (List α) := do
  let l ← buildLoop comp l.length (l.length / 2) l
  sortLoop comp l.length l

/-- `HeapSort(begin, end)`, sort.hpp:70-73. -/
def heapSortLt (l : List Nat) : Option (List Nat) := heapSort (fun a b => decide (a < b)) l

end Verif.Heap
