/-
Which suffixes the construction of SuffixArray.hpp puts in the wrong order, described without the construction: definitions for the property C62. They are
about texts of numbers that end with 0, the only 0.
-/
import Mathlib.Logic.Basic

namespace Verif.SA

/-- A position whose suffix is smaller than the one before and the one behind. The end of the text counts as one. -/
def Valley (T : List Nat) (i : Nat) : Prop :=
  0 < i ∧ i < T.length ∧ T.drop i < T.drop (i - 1) ∧ (i + 1 = T.length ∨ T.drop i < T.drop (i + 1))

instance (T : List Nat) (i : Nat) : Decidable (Valley T i) := by unfold Valley; infer_instance

/-- The next valley behind `i` is at distance `e`, as is the one behind `j`, and the letters up to there are the same. -/
def Run (T : List Nat) (i j e : Nat) : Prop :=
  0 < e ∧ Valley T (i + e) ∧ Valley T (j + e) ∧ (∀ t, 0 < t → t < e → ¬ Valley T (i + t) ∧ ¬ Valley T (j + t)) ∧
    ∀ t, t ≤ e → T[i + t]? = T[j + t]?

/-- No two valleys are followed by the same letters up to the next valley. -/
def Distinct (T : List Nat) : Prop := ∀ i j e, Valley T i → Valley T j → i ≠ j → ¬ Run T i j e

/-- The number of valleys before a position. -/
def num (T : List Nat) (p : Nat) : Nat := ((List.range p).filter (fun q => decide (Valley T q))).length

/-- `sub` has a letter for each valley: the same letter if the same letters follow up to the next valley, and otherwise in the order of the suffixes. -/
def Names (T sub : List Nat) : Prop :=
  sub.length = num T T.length ∧ ∀ i j, Valley T i → Valley T j →
    (sub[num T i]? = sub[num T j]? ↔ i = j ∨ ∃ e, Run T i j e) ∧
    ∀ x y, sub[num T i]? = some x → sub[num T j]? = some y → x < y → T.drop i < T.drop j

/-- The suffix at `i` is put before the one at `j` although it is greater. If no two valleys are followed by the same letters, this happens to
suffixes with the same letters up to the next valleys, if these come in the wrong order in the text; otherwise to suffixes with the same letters up to the
next valleys if these are put in the wrong order in the text of names. -/
inductive Swapped : List Nat → Nat → Nat → Prop
  | flat {T : List Nat} {i j e : Nat} : Distinct T → Run T i j e → i < j → T.drop j < T.drop i → Swapped T i j
  | deep {T sub : List Nat} {i j e : Nat} : ¬ Distinct T → Run T i j e → Names T sub → Swapped sub (num T (i + e)) (num T (j + e)) → Swapped T i j

end Verif.SA
