/-
C114: what a search and an insert cost in a trie.
-/
import Verif.Trie.Cost
import Verif.Trie.PropsNarrow

namespace Verif.Trie
open Verif.IArr (M acc Runs Counts)

variable {α : Type}

theorem deep_prefix {w : Nat} {ops : List (List Byte × α)} {t : Trie α}
    (hw : ∀ vs, (walk t 0 vs).isSome = true ↔ ((walk (Trie.empty w : Trie α) 0 vs).isSome = true ∨ ∃ o ∈ ops, vs <+: o.1 ++ [0#8])) {ws : List Byte} {m : Nat}
    (h : Deep t 0 ws m) : m ≤ ws.length ∧ ∀ j, j ≤ ws.length → (IsPrefix ops (ws.take j) ↔ j ≤ m) := by
  refine ⟨h.1, fun j hj => ?_⟩
  rw [← h.2 j hj, hw, walk_empty]
  rfl

/-- C114. A search looks at one node more than the number `m` of characters of the longest beginning of the query (with its terminator) that is a beginning of
a key. -/
theorem C114_traverse (w : Nat) (ops : List (List Byte × α)) (L : List (List Byte)) (hL : L.Nodup) (hm : ∀ ws, ws ∈ L ↔ IsPrefix ops ws)
    (hsz : L.length ≤ 2 ^ w) :
    ∃ t, (Trie.empty w : Trie α).run w ops = some t ∧ ∀ key, ∃ m i, m ≤ key.length + 1 ∧
      (∀ j, j ≤ key.length + 1 → (IsPrefix ops ((key ++ [0#8]).take j) ↔ j ≤ m)) ∧
      t.traverse' key = some i ∧ t.traverseC key 0 = some (i, m + 1) := by
  obtain ⟨t, e, h, _⟩ := empty_or w ops L hL hm
  obtain ⟨hI, _, _, _, hws⟩ := h hsz
  refine ⟨t, e, fun key => ?_⟩
  obtain ⟨m, i, hd, ht, hr⟩ := traverse_runs hI key
  have := deep_prefix hws hd
  rw [List.length_append, List.length_cons, List.length_nil] at this
  exact ⟨m, i, this.1, this.2, ht, by rw [hr 0, Nat.zero_add]⟩

example := C114_traverse 2 [([98#8, 99#8], 5), ([98#8, 99#8], 7)] [[], [98#8], [98#8, 99#8], [98#8, 99#8, 0#8]] (by decide) (by
    intro ws
    simp [IsPrefix, List.prefix_cons_iff]
    grind) (by decide)

/-- "bc" among the keys "bc" and "bd": four nodes; "bx": two; "x": one. -/
example : ((Trie.empty 64 : Trie Nat).run 64 [([98#8, 99#8], 5), ([98#8, 100#8], 7)]).bind (fun t => do
    pure [(← t.traverseC [98#8, 99#8] 0).2, (← t.traverseC [98#8, 120#8] 0).2, (← t.traverseC [120#8] 0).2]) = some [4, 2, 1] := by decide +kernel

/-- C114. An insert looks at one node for every character of the key, the terminator and the end, adds a node for every character beyond the longest stored
beginning, and stores one item. Only the keys inserted before have to fit. -/
theorem C114_insert (w : Nat) (ops : List (List Byte × α)) (L : List (List Byte)) (hL : L.Nodup) (hm : ∀ ws, ws ∈ L ↔ IsPrefix ops ws)
    (hsz : L.length ≤ 2 ^ w) (key : List Byte) (item : α) :
    ∃ t t' m i, (Trie.empty w : Trie α).run w ops = some t ∧ t.insert w key item = some (t', i) ∧ m ≤ key.length + 1 ∧
      (∀ j, j ≤ key.length + 1 → (IsPrefix ops ((key ++ [0#8]).take j) ↔ j ≤ m)) ∧
      t.insertC w key item 0 = some ((t', i), key.length + 2 + (key.length + 1 - m) + 1) ∧
      t'.container.length = t.container.length + (key.length + 1 - m) := by
  obtain ⟨t, e, h, _⟩ := empty_or w ops L hL hm
  obtain ⟨hI, _, _, _, hws⟩ := h hsz
  obtain ⟨m, t', i, hd, hi, hr, hl'⟩ := insert_runs hI key item
  have := deep_prefix hws hd
  rw [List.length_append, List.length_cons, List.length_nil] at this
  refine ⟨t, t', m, i, e, hi, this.1, this.2, ?_, hl'⟩
  rw [hr 0, Nat.zero_add]
  congr 2
  omega

example := C114_insert 2 [([98#8, 99#8], 5), ([98#8, 99#8], 7)] [[], [98#8], [98#8, 99#8], [98#8, 99#8, 0#8]] (by decide) (by
    intro ws
    simp [IsPrefix, List.prefix_cons_iff]
    grind) (by decide) [98#8, 99#8, 100#8] 9

end Verif.Trie
