/-
Memory helpers shared by the models: an out-of-range access is the outcome `none`.
-/
namespace Verif

/-- Write element `i` of an array; `none` if `i` is out of range. -/
def wr {α : Type} (m : List α) (i : Nat) (v : α) : Option (List α) :=
  if i < m.length then some (m.set i v) else none

theorem wr_eq {α : Type} (m : List α) (i : Nat) (v : α) (h : i < m.length) : wr m i v = some (m.set i v) := by
  simp [wr, h]

/-- `std::vector::resize(n)` with value-initialised new elements. -/
def vresize {α : Type} (m : List α) (n : Nat) (d : α) : List α := m.take n ++ List.replicate (n - m.length) d

theorem vresize_length {α : Type} (m : List α) (n : Nat) (d : α) : (vresize m n d).length = n := by
  simp [vresize]; omega

theorem vresize_getElem? {α : Type} (m : List α) (n : Nat) (d : α) (i : Nat) :
    (vresize m n d)[i]? = if i < n then some (if h : i < m.length then m[i] else d) else none := by
  unfold vresize
  rw [List.getElem?_append]
  simp only [List.length_take, List.getElem?_take, List.getElem?_replicate]
  by_cases h1 : i < n <;> by_cases h2 : i < m.length
  · have a : i < min n m.length := by omega
    simp [h1, h2, a]
  · have a : ¬ i < min n m.length := by omega
    have b : i - min n m.length < n - m.length := by omega
    simp [h1, h2, a, b]
  · have a : ¬ i < min n m.length := by omega
    have b : ¬ i - min n m.length < n - m.length := by omega
    simp [h1, a, b]
  · have a : ¬ i < min n m.length := by omega
    have b : ¬ i - min n m.length < n - m.length := by omega
    simp [h1, a, b]

end Verif
