/-
Properties C38 and C39: initialisable arrays.
-/
import Verif.IArr.Lemmas

namespace Verif.IArr

/-- The operations that change an initialisable array. -/
inductive Op (α : Type) where
  | fill (v : α)
  | set (i : Nat) (v : α)

/-- What they mean for the list of all elements. -/
def spec {α : Type} : List (Op α) → List α → List α
  | [], l => l
  | .fill v :: ops, l => spec ops (List.replicate l.length v)
  | .set i v :: ops, l => spec ops (l.set i v)

/-- All written indices are inside of an array of `n` elements. -/
def InRange {α : Type} (n : Nat) (ops : List (Op α)) : Prop := ∀ i v, Op.set i v ∈ ops → i < n

theorem spec_length {α : Type} : ∀ (ops : List (Op α)) (l : List α), (spec ops l).length = l.length
  | [], _ => rfl
  | .fill _ :: ops, l => by rw [spec, spec_length ops, List.length_replicate]
  | .set _ _ :: ops, l => by rw [spec, spec_length ops, List.length_set]

/-! ### C38 -/

/-- Running a history on the folklore array. -/
def runFolk {α : Type} : List (Op α) → Folk α → Option (Folk α)
  | [], a => some a
  | .fill v :: ops, a => runFolk ops (a.fill v)
  | .set i v :: ops, a => do
    let a ← a.set i v
    runFolk ops a

theorem runFolk_spec {α : Type} : ∀ (ops : List (Op α)) (a : Folk α) (l : List α), InRange l.length ops → a.fv.length = l.length →
    (∀ j, j < l.length → a.get j = l[j]?) →
    ∃ a', runFolk ops a = some a' ∧ a'.fv.length = l.length ∧ ∀ j, j < l.length → a'.get j = (spec ops l)[j]? := by
  intro ops
  induction ops with
  | nil => intro a l _ hl h; exact ⟨a, rfl, hl, h⟩
  | cons op ops ih =>
    intro a l hr hl h
    have hr' : InRange l.length ops := fun i v hm => hr i v (List.mem_cons_of_mem _ hm)
    cases op with
    | fill v =>
      obtain ⟨a', e, l', g⟩ := ih (a.fill v) (List.replicate l.length v) (by rw [List.length_replicate]; exact hr')
        (by rw [List.length_replicate]; exact hl) (by
          intro j hj
          rw [List.length_replicate] at hj
          rw [folk_get (a.fill v) j _ (List.getElem?_eq_getElem (by show j < a.fv.length; omega))]
          rw [List.getElem?_replicate, if_pos hj]
          simp [Folk.fill])
      rw [List.length_replicate] at l' g
      exact ⟨a', e, l', g⟩
    | set i v =>
      have hi : i < l.length := hr i v (List.mem_cons_self)
      obtain ⟨a1, e1, l1, _, g1⟩ := folk_set a i v (by omega)
      obtain ⟨a', e, l', g⟩ := ih a1 (l.set i v) (by rw [List.length_set]; exact hr') (by rw [List.length_set]; omega) (by
          intro j hj
          rw [List.length_set] at hj
          rw [g1, List.getElem?_set]
          by_cases hji : j = i
          · subst hji; simp [hj]
          · rw [if_neg hji, if_neg (Ne.symm hji), h j hj])
      rw [List.length_set] at l' g
      exact ⟨a', by simp [runFolk, e1, e], l', g⟩

/-- Folklore array: after construction with a size and a value (`d` is `T()`) and any history of `fill` and element
writes inside of the array, every element reads as the history says, and `size()` is unchanged. -/
theorem C38_histories {α : Type} (d : α) (size : Nat) (val : α) (ops : List (Op α)) (h : InRange size ops) :
    ∃ a, runFolk ops (folkNew d size val) = some a ∧ a.fv.length = size ∧
      ∀ j, j < size → a.get j = (spec ops (List.replicate size val))[j]? := by
  have := runFolk_spec ops (folkNew d size val) (List.replicate size val) (by rw [List.length_replicate]; exact h)
    (by simp [folkNew]) (by
      intro j hj
      rw [List.length_replicate] at hj
      rw [folk_get _ j (0, d) (by simp [folkNew, hj]), List.getElem?_replicate, if_pos hj]
      simp [folkNew])
  rwa [List.length_replicate] at this

theorem folkSetAll_eq {α : Type} : ∀ (xs : List α) (i : Nat) (a : Folk α),
    folkSetAll xs i a = runFolk ((List.range' i xs.length).zipWith (fun i x => Op.set i x) xs) a
  | [], _, _ => rfl
  | x :: xs, i, a => by
    simp only [folkSetAll, List.length_cons, List.range'_succ, List.zipWith_cons_cons, runFolk]
    congr 1
    funext a
    exact folkSetAll_eq xs (i + 1) a

theorem spec_setAll {α : Type} : ∀ (xs pre rest : List α), rest.length = xs.length →
    spec ((List.range' pre.length xs.length).zipWith (fun i x => Op.set i x) xs) (pre ++ rest) = pre ++ xs
  | [], pre, rest, h => by
    have : rest = [] := List.length_eq_zero_iff.1 h
    subst this; rfl
  | x :: xs, pre, [], h => by simp at h
  | x :: xs, pre, r :: rest, h => by
    simp only [List.length_cons, List.range'_succ, List.zipWith_cons_cons, spec]
    have := spec_setAll xs (pre ++ [x]) rest (by simpa using h)
    simp only [List.length_append, List.length_singleton, List.append_assoc, List.cons_append, List.nil_append] at this
    rw [← this]
    congr 1
    rw [List.set_append, if_neg (by omega), Nat.sub_self]
    rfl

/-- Folklore array built from a range: it has the size of the range and holds it, also after any further history. -/
theorem C38_range {α : Type} (d : α) (l : List α) (ops : List (Op α)) (h : InRange l.length ops) :
    ∃ a0 a, folkRange d l = some a0 ∧ runFolk ops a0 = some a ∧ a0.fv.length = l.length ∧ a.fv.length = l.length ∧
      ∀ j, j < l.length → a.get j = (spec ops l)[j]? := by
  have hin : InRange l.length ((List.range' 0 l.length).zipWith (fun i x => Op.set i x) l) := by
    intro i v hm
    rw [List.mem_iff_getElem] at hm
    obtain ⟨k, hk, e⟩ := hm
    simp only [List.getElem_zipWith, List.getElem_range', Op.set.injEq] at e
    simp at hk
    omega
  obtain ⟨a0, e0, l0, g0⟩ := C38_histories d l.length d _ hin
  have hs := spec_setAll l [] (List.replicate l.length d) (by simp)
  simp only [List.length_nil, List.nil_append] at hs
  rw [hs] at g0
  obtain ⟨a, e, l1, g⟩ := runFolk_spec ops a0 l h l0 g0
  exact ⟨a0, a, by rw [folkRange, folkSetAll_eq]; exact e0, e, l0, l1, g⟩

example : ∃ a, runFolk [Op.set 2 7, .set 0 1, .fill 5, .set 1 9] (folkNew 0 3 4) = some a ∧ a.fv.length = 3 ∧
    ∀ j, j < 3 → a.get j = [5, 9, 5][j]? :=
  C38_histories 0 3 4 [Op.set 2 7, .set 0 1, .fill 5, .set 1 9] (by intro i v h; simp at h; omega)

/-- An access outside of the array is a fault, for reads and writes. -/
theorem C38_out_of_range {α : Type} (a : Folk α) (i : Nat) (v : α) (h : a.fv.length ≤ i) : a.get i = none ∧ a.set i v = none := by
  have : a.fv[i]? = none := List.getElem?_eq_none h
  constructor <;> simp [Folk.get, Folk.set, Folk.isChained, this]

example := C38_out_of_range (⟨9, [(0, 1), (0, 2)], []⟩ : Folk Nat) 2 7 (by decide)

/-! ### C39 -/

/-- Running a history on the in-place array of `n` blocks over a type of `w` bits. -/
def runArr (w n : Nat) : List (Op Nat) → Arr → Option Arr
  | [], s => some s
  | .fill v :: ops, s => runArr w n ops (s.fill v)
  | .set i v :: ops, s => do
    let s ← s.set w n i v
    runArr w n ops s

theorem runArr_spec {w n : Nat} (hw : 2 * n ≤ 2 ^ w) : ∀ (ops : List (Op Nat)) (s : Arr) (l : List Nat), l.length ≤ 2 * n →
    InRange l.length ops → s.a.length = 2 * n → s.b ≤ n →
    (∀ j, j < l.length → s.get n j = l[j]?) →
    ∃ s', runArr w n ops s = some s' ∧ ∀ j, j < l.length → s'.get n j = (spec ops l)[j]? := by
  intro ops
  induction ops with
  | nil => intro s l _ _ _ _ h; exact ⟨s, rfl, h⟩
  | cons op ops ih =>
    intro s l hn hr hl hb h
    have hr' : InRange l.length ops := fun i v hm => hr i v (List.mem_cons_of_mem _ hm)
    cases op with
    | fill v =>
      obtain ⟨a', e, g⟩ := ih (s.fill v) (List.replicate l.length v) (by rw [List.length_replicate]; exact hn)
        (by rw [List.length_replicate]; exact hr') hl (Nat.zero_le _) (by
          intro j hj
          rw [List.length_replicate] at hj
          rw [get_fill s hl v j (by omega), List.getElem?_replicate, if_pos hj])
      rw [List.length_replicate] at g
      exact ⟨a', e, g⟩
    | set i v =>
      have hi : i < l.length := hr i v (List.mem_cons_self)
      obtain ⟨s1, e1, l1, b1, _, g1⟩ := set_spec hw s hl hb i v (by omega)
      obtain ⟨a', e, g⟩ := ih s1 (l.set i v) (by rw [List.length_set]; exact hn) (by rw [List.length_set]; exact hr') l1 b1 (by
          intro j hj
          rw [List.length_set] at hj
          rw [g1 j (by omega), List.getElem?_set]
          by_cases hji : j = i
          · subst hji; simp [hj]
          · rw [if_neg hji, if_neg (Ne.symm hji), h j hj])
      rw [List.length_set] at g
      exact ⟨a', by simp [runArr, e1, e], g⟩

/-- In-place array of any size over a type wide enough for the block numbers (the condition of the template): from
arbitrary memory garbage and after any history of `fill` and element writes, every element reads as the history says
and no access leaves the array. -/
theorem C39_histories (w size val : Nat) (hw : size + size % 2 ≤ 2 ^ w) (garbage : List Nat)
    (hg : garbage.length = size + size % 2) (ops : List (Op Nat)) (h : InRange size ops) :
    ∃ s, runArr w (blocks size) ops (new garbage val) = some s ∧
      ∀ j, j < size → s.get (blocks size) j = (spec ops (List.replicate size val))[j]? := by
  have hb : 2 * blocks size = size + size % 2 := by unfold blocks; omega
  have hfill : new garbage val = (new garbage val).fill val := rfl
  have := runArr_spec (w := w) (n := blocks size) (by omega) ops (new garbage val) (List.replicate size val)
    (by rw [List.length_replicate]; omega) (by rw [List.length_replicate]; exact h) (by rw [hb]; exact hg) (Nat.zero_le _) (by
      intro j hj
      rw [List.length_replicate] at hj
      rw [hfill, get_fill (new garbage val) (by rw [hb]; exact hg) val j (by omega), List.getElem?_replicate, if_pos hj])
  rwa [List.length_replicate] at this

/-- Without that condition a block number does not fit into an element and elements get lost: 18 elements of 4 bits. -/
theorem C39_too_narrow : ∃ s, runArr 4 (blocks 18) [.set 16 1, .set 0 2] (new (List.replicate 18 0) 7) = some s ∧
    s.get (blocks 18) 16 ≠ (spec [.set 16 1, .set 0 2] (List.replicate 18 7))[16]? :=
  ⟨_, rfl, by decide +kernel⟩

example : ∃ s, runArr 8 (blocks 5) [.set 3 7, .fill 6, .set 4 200, .set 0 2] (new [2, 0, 0, 2, 4, 4] 1) = some s ∧
    ∀ j, j < 5 → s.get (blocks 5) j = [2, 6, 6, 6, 200][j]? :=
  C39_histories 8 5 1 (by decide) [2, 0, 0, 2, 4, 4] (by decide) [.set 3 7, .fill 6, .set 4 200, .set 0 2]
    (by intro i v h; simp at h; omega)

end Verif.IArr
