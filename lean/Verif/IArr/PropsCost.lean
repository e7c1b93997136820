/-
Property C91: the operations of the initialisable arrays take constant time.
-/
import Verif.IArr.Cost
import Verif.IArr.Props

namespace Verif.IArr

/-- The number of cell accesses of a computation, none when it faults. -/
def accesses {β : Type} (m : M β) : Option Nat := (m 0).map Prod.snd

/-- The value of a computation. -/
def value {β : Type} (m : M β) : Option β := (m 0).map Prod.fst

/-- A history on the folklore array with its accesses counted. -/
def runFolkC {α : Type} : List (Op α) → Folk α → M (Folk α)
  | [], a => pure a
  | .fill v :: ops, a => do
    let a ← a.fillC v
    runFolkC ops a
  | .set i v :: ops, a => do
    let a ← a.setC i v
    runFolkC ops a

/-- A history on the in-place array with its accesses counted. -/
def runArrC (w n : Nat) : List (Op Nat) → Arr → M Arr
  | [], s => pure s
  | .fill v :: ops, s => do
    let s ← s.fillC v
    runArrC w n ops s
  | .set i v :: ops, s => do
    let s ← s.setC w n i v
    runArrC w n ops s

/-- The number of element writes in a history. -/
def sets {α : Type} : List (Op α) → Nat
  | [] => 0
  | .fill _ :: ops => sets ops
  | .set _ _ :: ops => sets ops + 1

theorem Costs.to {β : Type} {m : M β} {p : Option β} {K : Nat} (h : Costs m p K) :
    value m = p ∧ ∀ k, accesses m = some k → k ≤ K := by
  refine ⟨(h 0).1, fun k hk => ?_⟩
  unfold accesses at hk
  obtain ⟨r, hr, rfl⟩ := Option.map_eq_some_iff.1 hk
  have := (h 0).2 r hr
  omega

theorem runFolk_costs {α : Type} : ∀ (ops : List (Op α)) (a : Folk α), Costs (runFolkC ops a) (runFolk ops a) (5 * sets ops)
  | [], a => (Costs.pure a).mono (by omega)
  | .fill v :: ops, a => by
    have := Costs.bind (Costs.pure (a.fill v)) fun a => runFolk_costs ops a
    rw [Nat.zero_add] at this
    exact this
  | .set i v :: ops, a => by
    have := Costs.bind (folk_set_costs a i v) fun a => runFolk_costs ops a
    exact this.mono (by simp only [sets]; omega)

theorem runArr_costs (w n : Nat) : ∀ (ops : List (Op Nat)) (s : Arr), Costs (runArrC w n ops s) (runArr w n ops s) (26 * sets ops)
  | [], a => (Costs.pure a).mono (by omega)
  | .fill v :: ops, s => by
    have := Costs.bind (Costs.pure (s.fill v)) fun a => runArr_costs w n ops a
    rw [Nat.zero_add] at this
    exact this
  | .set i v :: ops, s => by
    have := Costs.bind (set_costs w n s i v) fun a => runArr_costs w n ops a
    exact this.mono (by simp only [sets]; omega)

/-- Folklore array: the counted functions do what `get`, `set` and `fill` do; whatever the size of the array and its
state, `get` accesses at most 3 cells, `set` at most 5, `fill` none, and a history at most 5 per element write. -/
theorem C91_folklore {α : Type} (a : Folk α) (i : Nat) (v : α) (ops : List (Op α)) :
    (value (a.getC i) = a.get i ∧ ∀ k, accesses (a.getC i) = some k → k ≤ 3) ∧
    (value (a.setC i v) = a.set i v ∧ ∀ k, accesses (a.setC i v) = some k → k ≤ 5) ∧
    (value (a.fillC v) = some (a.fill v) ∧ accesses (a.fillC v) = some 0) ∧
    (value (runFolkC ops a) = runFolk ops a ∧ ∀ k, accesses (runFolkC ops a) = some k → k ≤ 5 * sets ops) :=
  ⟨(folk_get_costs a i).to, (folk_set_costs a i v).to, ⟨rfl, rfl⟩, (runFolk_costs ops a).to⟩

/-- In-place array: the counted functions do what `get`, `set` and `fill` do; whatever the size of the array and its
state, `get` accesses at most 4 cells, `set` at most 26, `fill` none, and a history at most 26 per element write. -/
theorem C91_inplace (w n : Nat) (s : Arr) (i v : Nat) (ops : List (Op Nat)) :
    (value (s.getC n i) = s.get n i ∧ ∀ k, accesses (s.getC n i) = some k → k ≤ 4) ∧
    (value (s.setC w n i v) = s.set w n i v ∧ ∀ k, accesses (s.setC w n i v) = some k → k ≤ 26) ∧
    (value (s.fillC v) = some (s.fill v) ∧ accesses (s.fillC v) = some 0) ∧
    (value (runArrC w n ops s) = runArr w n ops s ∧ ∀ k, accesses (runArrC w n ops s) = some k → k ≤ 26 * sets ops) :=
  ⟨(get_costs n s i).to, (set_costs w n s i v).to, ⟨rfl, rfl⟩, (runArr_costs w n ops s).to⟩

/-- Together with the results of C39: a history from the constructor on returns, what it leaves reads as the history
says, and the number of accesses does not depend on the size of the array. -/
theorem C91_histories (w size val : Nat) (hw : size + size % 2 ≤ 2 ^ w) (garbage : List Nat)
    (hg : garbage.length = size + size % 2) (ops : List (Op Nat)) (h : InRange size ops) :
    ∃ s k, value (runArrC w (blocks size) ops (new garbage val)) = some s ∧
      accesses (runArrC w (blocks size) ops (new garbage val)) = some k ∧ k ≤ 26 * sets ops ∧
      ∀ j, j < size → s.get (blocks size) j = (spec ops (List.replicate size val))[j]? := by
  obtain ⟨s, e, g⟩ := C39_histories w size val hw garbage hg ops h
  obtain ⟨h1, h2⟩ := (runArr_costs w (blocks size) ops (new garbage val)).to
  rw [e] at h1
  have h3 := h1
  unfold value at h3
  obtain ⟨r, hr, _⟩ := Option.map_eq_some_iff.1 h3
  have h4 : accesses (runArrC w (blocks size) ops (new garbage val)) = some r.2 := by
    unfold accesses
    rw [hr]
    rfl
  exact ⟨s, r.2, h1, h4, h2 _ h4, g⟩

/-- An array of 6 cells with garbage: a chain from the garbage, a `fill` and three writes, 42 accesses. -/
example : ∃ s k, value (runArrC 8 (blocks 5) [.set 3 7, .fill 6, .set 4 200, .set 0 2] (new [2, 0, 0, 2, 4, 4] 1)) = some s ∧
    accesses (runArrC 8 (blocks 5) [.set 3 7, .fill 6, .set 4 200, .set 0 2] (new [2, 0, 0, 2, 4, 4] 1)) = some k ∧ k ≤ 78 ∧
    ∀ j, j < 5 → s.get (blocks 5) j = [2, 6, 6, 6, 200][j]? :=
  C91_histories 8 5 1 (by decide) [2, 0, 0, 2, 4, 4] (by decide) [.set 3 7, .fill 6, .set 4 200, .set 0 2]
    (by intro i v h; simp at h; omega)



end Verif.IArr
