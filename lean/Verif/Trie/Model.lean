/-
Model of /repo/include/sim_ds/string_util/graph_util.hpp.

`w` is the number of bits of `SizeType` (64 by default). A `std::map<uint8_t, size_type>` is the list of its pairs by increasing key. An item
pointer is given as the index into `storage_`. Access out of range has the outcome `none`.
-/
import Verif.Common

namespace Verif.Trie

abbrev Byte := BitVec 8

/-- `kItemEmpty`, graph_util.hpp:25 and 72. -/
def itemEmpty (w : Nat) : Nat := 2 ^ w - 1

/-- `_Node`, graph_util.hpp:20-29. -/
structure Node where
  item : Nat
  edges : List (Byte × Nat)
deriving DecidableEq

/-- `try_emplace` on the map: an entry that exists is kept. -/
def emplace (c : Byte) (v : Nat) : List (Byte × Nat) → List (Byte × Nat)
  | [] => [(c, v)]
  | e :: es => if c < e.1 then (c, v) :: e :: es else if c = e.1 then e :: es else e :: emplace c v es

/-- `add`, graph_util.hpp:35-37; the value is converted to `size_type`. -/
def Node.add (w : Nat) (n : Node) (c : Byte) (v : Nat) : Node := { n with edges := emplace c (v % 2 ^ w) n.edges }

/-- `target`, graph_util.hpp:39-44: `kRootIndex` if there is no such edge. -/
def Node.target (n : Node) (c : Byte) : Nat := ((n.edges.find? (fun e => e.1 == c)).map Prod.snd).getD 0

/-- `Trie`, graph_util.hpp:65-76. -/
structure Trie (α : Type) where
  container : List Node
  storage : List α

/-- `Trie()`, graph_util.hpp:79-81. -/
def Trie.empty (w : Nat) {α : Type} : Trie α := ⟨[⟨itemEmpty w, []⟩], []⟩

/-- The body of the loop of `insert`, graph_util.hpp:90-98, and the same for the leaf label, graph_util.hpp:101-109. -/
def Trie.step (w : Nat) {α : Type} (t : Trie α) (node : Nat) (c : Byte) : Option (Trie α × Nat) := do
  let n ← t.container[node]?
  if n.target c ≠ 0 then pure (t, n.target c)
  else do
    let con ← wr t.container node (n.add w c t.container.length)
    pure ({ t with container := con ++ [⟨itemEmpty w, []⟩] }, t.container.length)

/-- The loop of `insert`, graph_util.hpp:88-99. -/
def Trie.path (w : Nat) {α : Type} : List Byte → Trie α → Nat → Option (Trie α × Nat)
  | [], t, node => some (t, node)
  | c :: key, t, node => do
    let (t, node) ← t.step w node c
    path w key t node

/-- The store of the item, graph_util.hpp:111-120. -/
def Trie.store (w : Nat) {α : Type} (t : Trie α) (node : Nat) (item : α) : Option (Trie α × Nat) := do
  let n ← t.container[node]?
  if n.item = itemEmpty w then do
    let con ← wr t.container node { n with item := t.storage.length % 2 ^ w }
    pure (⟨con, t.storage ++ [item]⟩, t.storage.length % 2 ^ w)
  else do
    let st ← wr t.storage n.item item
    pure ({ t with storage := st }, n.item)

/-- `insert`, graph_util.hpp:87-121. -/
def Trie.insert (w : Nat) {α : Type} (t : Trie α) (key : List Byte) (item : α) : Option (Trie α × Nat) := do
  let (t, node) ← t.path w key 0
  let (t, node) ← t.step w node 0#8
  t.store w node item

/-- The walk of `_traverse`, graph_util.hpp:170-177: the node, or `none` inside for -1. -/
def Trie.down {α : Type} (t : Trie α) : List Byte → Nat → Option (Option Nat)
  | [], node => some (some node)
  | c :: key, node => do
    let n ← t.container[node]?
    if n.target c = 0 then pure none else down t key (n.target c)

/-- `_traverse`, graph_util.hpp:169-186. The result is a `size_t`; -1 is `2 ^ 64 - 1`. -/
def Trie.traverse' {α : Type} (t : Trie α) (key : List Byte) : Option Nat := do
  match ← t.down key 0 with
  | none => pure (2 ^ 64 - 1)
  | some node => do
    let n ← t.container[node]?
    if n.target 0#8 = 0 then pure (2 ^ 64 - 1)
    else do
      let n ← t.container[n.target 0#8]?
      pure n.item

/-- `traverse`, graph_util.hpp:123-126, and the item the pointer refers to; `none` inside is the null pointer. -/
def Trie.traverse {α : Type} (t : Trie α) (key : List Byte) : Option (Option α) := do
  let i ← t.traverse' key
  if i ≠ 2 ^ 64 - 1 then do
    let x ← t.storage[i]?
    pure (some x)
  else pure none

/-- `dfs`, graph_util.hpp:133-140: the nodes and depths in the order of the calls of the action. `n` bounds the depth of the recursion. -/
def Trie.dfs {α : Type} (t : Trie α) : (n : Nat) → (node depth : Nat) → Option (List (Nat × Nat))
  | 0, _, _ => none
  | n + 1, node, depth => do
    let nd ← t.container[node]?
    let r ← nd.edges.foldlM (fun acc e => do
      let l ← dfs t n e.2 (depth + 1)
      pure (acc ++ l)) []
    pure ((node, depth) :: r)

/-- `bfs`, graph_util.hpp:143-158: the nodes and depths in the order of the calls of the action, and the queue; `n` bounds the number of
rounds. -/
def Trie.bfs {α : Type} (t : Trie α) : (n : Nat) → (queue acc : List (Nat × Nat)) → Option (List (Nat × Nat))
  | _, [], acc => some acc
  | 0, _ :: _, _ => none
  | n + 1, p :: queue, acc => do
    let nd ← t.container[p.1]?
    bfs t n (queue ++ nd.edges.map (fun e => (e.2, p.2 + 1))) (acc ++ [p])

/-- A history of calls of `insert` on a new trie. -/
def Trie.run (w : Nat) {α : Type} : List (List Byte × α) → Trie α → Option (Trie α)
  | [], t => some t
  | o :: os, t => do
    let (t, _) ← t.insert w o.1 o.2
    run w os t

end Verif.Trie
