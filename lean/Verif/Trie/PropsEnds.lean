/-
Property C94: what the nodes of a trie tell about the keys.
-/
import Verif.Trie.Ends
import Verif.Trie.PropsNarrow
import Mathlib.Data.List.Induction

namespace Verif.Trie

variable {α : Type}

/-- Node `v` is reached from the root by following edges with the letters `ws`. -/
inductive Reach (t : Trie α) : List Byte → Nat → Prop
  | root : Reach t [] 0
  | edge {ws : List Byte} {v : Nat} {n : Node} {c : Byte} {u : Nat} : Reach t ws v → t.node v = some n → (c, u) ∈ n.forEachEdge → Reach t (ws ++ [c]) u

/-- `ws` is an inserted key with its terminator. -/
def IsKey (ops : List (List Byte × α)) (ws : List Byte) : Prop := ∃ o ∈ ops, ws = o.1 ++ [0#8]

theorem run_look (w : Nat) : ∀ (ops : List (List Byte × α)) (t t' : Trie α), Inv w t → t.container.length + need ops ≤ 2 ^ w →
    t.storage.length + ops.length < 2 ^ w → t.run w ops = some t' → ∀ ws, look w t' ws = (lastWord ops ws).or (look w t ws) := by
  intro ops
  induction ops with
  | nil => intro t t' _ _ _ e ws; cases e; simp [lastWord]
  | cons o ops ih =>
    intro t t' hI hsz hst e ws
    have hn : need (o :: ops) = o.1.length + 1 + need ops := by simp [need]
    simp only [List.length_cons] at hst
    obtain ⟨t1, i, e1, i1, l1, s1, _, w1, k1⟩ := insert_spec w t hI o.1 o.2 (by omega) (by omega)
    simp only [Trie.run, e1, Option.bind_eq_bind, Option.bind_some] at e
    rw [ih t1 t' i1 (by omega) (by omega) e, k1, lastWord_cons]
    cases lastWord ops ws with
    | some x => rfl
    | none =>
      by_cases hk : o.1 ++ [0#8] = ws
      · rw [if_pos hk.symm, if_pos hk]; rfl
      · rw [if_neg (fun e => hk e.symm), if_neg hk]; rfl

theorem isKey_iff (ops : List (List Byte × α)) (ws : List Byte) : IsKey ops ws ↔ ∃ x, lastWord ops ws = some x := by
  unfold IsKey lastWord
  constructor
  · rintro ⟨o, ho, rfl⟩
    cases hf : ops.reverse.find? (fun o' => o'.1 ++ [0#8] == o.1 ++ [0#8]) with
    | some x => exact ⟨x.2, rfl⟩
    | none =>
      rw [List.find?_eq_none] at hf
      exact absurd (beq_self_eq_true _) (hf o (by simpa using ho))
  · rintro ⟨x, hx⟩
    obtain ⟨o, ho, _⟩ := Option.map_eq_some_iff.1 hx
    have h1 := List.find?_some ho
    have h2 := List.mem_of_find?_eq_some ho
    exact ⟨o, by simpa using h2, (by simpa using h1 : o.1 ++ [0#8] = ws).symm⟩

theorem reach_iff {w : Nat} {t : Trie α} (hI : Inv w t) (ws : List Byte) (v : Nat) : Reach t ws v ↔ walk t 0 ws = some v := by
  constructor
  · intro h
    induction h with
    | root => rfl
    | edge _ hn hc ih => exact (walk_child hI _ _ ih _ hn _ _).1 hc
  · induction ws using List.reverseRecOn generalizing v with
    | nil => intro h; cases h; exact .root
    | append_singleton ws c ih =>
      intro h
      have h' := h
      rw [walk_append] at h'
      cases hu : walk t 0 ws with
      | none => rw [hu] at h'; cases h'
      | some u =>
        have hlt := walk_lt hI ws 0 u hI.pos hu
        exact .edge (ih u hu) (List.getElem?_eq_getElem hlt) ((walk_child hI ws u hu _ (List.getElem?_eq_getElem hlt) c v).2 h)

theorem nodes_of {w : Nat} {ops : List (List Byte × α)} {t : Trie α} (hI : Inv w t)
    (hws : ∀ vs, (walk t 0 vs).isSome = true ↔ ((walk (Trie.empty w : Trie α) 0 vs).isSome = true ∨ ∃ o ∈ ops, vs <+: o.1 ++ [0#8]))
    (hlook : ∀ ws, look w t ws = (lastWord ops ws).or (look w (Trie.empty w) ws)) :
    (∀ ws, IsPrefix ops ws ↔ ∃ v, Reach t ws v) ∧
      (∀ ws v ws' v', Reach t ws v → Reach t ws' v' → (v = v' ↔ ws = ws')) ∧
      (∀ v, v < t.container.length → ∃ ws, Reach t ws v) ∧
      ∀ ws v, Reach t ws v → ∃ n, t.node v = some n ∧ n.forEachEdge.Pairwise (fun a b => a.1 < b.1) ∧
        (∀ c, (∃ u, (c, u) ∈ n.forEachEdge) ↔ IsPrefix ops (ws ++ [c])) ∧
        (∀ c u, (c, u) ∈ n.forEachEdge ↔ n.target c = u ∧ u ≠ 0) ∧
        (n.terminal true w = true ↔ IsKey ops ws) ∧
        ∀ x, lastWord ops ws = some x → t.storage[n.item]? = some x := by
  have hpre : ∀ ws, IsPrefix ops ws ↔ ∃ v, walk t 0 ws = some v := by
    intro ws
    rw [← Option.isSome_iff_exists, hws, walk_empty]
    rfl
  refine ⟨?_, ?_, ?_, ?_⟩
  · intro ws
    rw [hpre]
    exact exists_congr fun v => (reach_iff hI ws v).symm
  · intro ws v ws' v' h h'
    rw [reach_iff hI] at h h'
    constructor
    · intro hv
      exact walk_inj hI _ ws ws' v (Nat.le_refl _) h (hv ▸ h')
    · rintro rfl
      rw [h] at h'
      exact Option.some.inj h'
  · intro v hv
    obtain ⟨ws, hw⟩ := hI.reach v hv
    exact ⟨ws, (reach_iff hI ws v).2 hw⟩
  · intro ws v h
    rw [reach_iff hI] at h
    have hlt := walk_lt hI ws 0 v hI.pos h
    have hn := List.getElem?_eq_getElem hlt
    have hlk := hlook ws
    rw [look_empty, Option.or_none] at hlk
    unfold look at hlk
    rw [h] at hlk
    simp only [Option.bind_some, hn] at hlk
    refine ⟨_, hn, hI.sorted v _ hn, ?_, ?_, ?_, ?_⟩
    · intro c
      rw [hpre]
      exact exists_congr fun u => walk_child hI ws v h _ hn c u
    · intro c u
      have := edge_iff hI v _ hn c u
      rwa [tg_some t v c _ hn] at this
    · rw [isKey_iff, ← hlk]
      unfold Node.terminal itemEmpty
      simp only [if_true, bne_iff_ne, ne_eq]
      constructor
      · intro hne
        rw [if_neg hne]
        have := hI.items v _ hn hne
        exact ⟨_, List.getElem?_eq_getElem this⟩
      · rintro ⟨x, hx⟩ he
        rw [if_pos he] at hx
        cases hx
    · intro x hx
      rw [hx] at hlk
      split at hlk
      · cases hlk
      · exact hlk

/-- C94: after every history of inserts, of any keys, every prefix of the keys (with terminator) has exactly one node and every node one prefix;
`for_each_edge` calls its action for exactly the letters that continue the prefix, in increasing order; `target` agrees with it;
and for an unsigned `SizeType` not shorter than `int`, `terminal` is true exactly for the ends of keys, where `item_index` tells the item. -/
theorem C94_nodes (w : Nat) (ops : List (List Byte × α)) (hsz : 1 + need ops ≤ 2 ^ w) :
    ∃ t, (Trie.empty w : Trie α).run w ops = some t ∧ (∀ ws, IsPrefix ops ws ↔ ∃ v, Reach t ws v) ∧
      (∀ ws v ws' v', Reach t ws v → Reach t ws' v' → (v = v' ↔ ws = ws')) ∧
      (∀ v, v < t.container.length → ∃ ws, Reach t ws v) ∧
      ∀ ws v, Reach t ws v → ∃ n, t.node v = some n ∧ n.forEachEdge.Pairwise (fun a b => a.1 < b.1) ∧
        (∀ c, (∃ u, (c, u) ∈ n.forEachEdge) ↔ IsPrefix ops (ws ++ [c])) ∧
        (∀ c u, (c, u) ∈ n.forEachEdge ↔ n.target c = u ∧ u ≠ 0) ∧
        (n.terminal true w = true ↔ IsKey ops ws) ∧
        ∀ x, lastWord ops ws = some x → t.storage[n.item]? = some x := by
  have hl := len_le_need ops
  have hst : (Trie.empty w : Trie α).storage.length + ops.length < 2 ^ w := by simp only [Trie.empty, List.length_nil]; omega
  obtain ⟨t, e, hI, _, _, hws⟩ := run_spec w ops (Trie.empty w) (inv_empty w) hsz hst
  exact ⟨t, e, nodes_of hI hws (run_look w ops (Trie.empty w) t (inv_empty w) hsz hst e)⟩

example := C94_nodes 32 [([97#8, 0#8, 98#8], 5), ([], 7), ([97#8], 1), ([97#8, 0#8, 98#8], 6)] (by decide +kernel)

/-- C94: the same under the exact condition: as long as there are at most `2 ^ w` different prefixes (`L` lists them), however many inserts there are. -/
theorem C94_nodes_fits (w : Nat) (ops : List (List Byte × α)) (L : List (List Byte)) (hL : L.Nodup) (hm : ∀ ws, ws ∈ L ↔ IsPrefix ops ws)
    (hsz : L.length ≤ 2 ^ w) :
    ∃ t, (Trie.empty w : Trie α).run w ops = some t ∧ (∀ ws, IsPrefix ops ws ↔ ∃ v, Reach t ws v) ∧
      (∀ ws v ws' v', Reach t ws v → Reach t ws' v' → (v = v' ↔ ws = ws')) ∧
      (∀ v, v < t.container.length → ∃ ws, Reach t ws v) ∧
      ∀ ws v, Reach t ws v → ∃ n, t.node v = some n ∧ n.forEachEdge.Pairwise (fun a b => a.1 < b.1) ∧
        (∀ c, (∃ u, (c, u) ∈ n.forEachEdge) ↔ IsPrefix ops (ws ++ [c])) ∧
        (∀ c u, (c, u) ∈ n.forEachEdge ↔ n.target c = u ∧ u ≠ 0) ∧
        (n.terminal true w = true ↔ IsKey ops ws) ∧
        ∀ x, lastWord ops ws = some x → t.storage[n.item]? = some x := by
  obtain ⟨t, e, h, _⟩ := empty_or w ops L hL hm
  obtain ⟨hI, _, _, hlook, hws⟩ := h hsz
  exact ⟨t, e, nodes_of hI hws hlook⟩

example := C94_nodes_fits 2 [([98#8, 99#8], 5), ([98#8, 99#8], 7)] [[], [98#8], [98#8, 99#8], [98#8, 99#8, 0#8]] (by decide) (by
    intro ws
    simp [IsPrefix, List.prefix_cons_iff]
    grind) (by decide)

/-- C94: with the other types of index, `terminal` is true for every node. -/
theorem C94_other_domain (w : Nat) (n : Node) : n.terminal false w = true := rfl

/-- C94: so with `int`, the type of the tests of the repository, it does not tell the ends of the keys: already the root is no key but terminal. -/
theorem C94_int_domain : ∃ t n, (Trie.empty 31 : Trie Nat).run 31 [([97#8, 98#8], 1)] = some t ∧ Reach t [] 0 ∧ t.node 0 = some n ∧ n.terminal false 31 = true ∧
    ¬ IsKey [([97#8, 98#8], 1)] [] := by
  refine ⟨⟨[⟨2 ^ 31 - 1, [(97#8, 1)]⟩, ⟨2 ^ 31 - 1, [(98#8, 2)]⟩, ⟨2 ^ 31 - 1, [(0#8, 3)]⟩, ⟨0, []⟩], [1]⟩, _, ?_, .root, rfl, rfl, ?_⟩
  · have h : ((Trie.empty 31 : Trie Nat).run 31 [([97#8, 98#8], 1)]).map (fun t => (t.container, t.storage)) =
        some ([⟨2 ^ 31 - 1, [(97#8, 1)]⟩, ⟨2 ^ 31 - 1, [(98#8, 2)]⟩, ⟨2 ^ 31 - 1, [(0#8, 3)]⟩, ⟨0, []⟩], [1]) := by decide +kernel
    obtain ⟨t, ht, h⟩ := Option.map_eq_some_iff.1 h
    rw [ht]
    cases t
    simp only [Prod.mk.injEq] at h
    rw [h.1, h.2]
  · rintro ⟨o, _, h⟩
    simp at h

/-- Keys with a common prefix, a NUL inside, and twice the same. -/
example : 1 + need [([97#8, 0#8, 98#8], 5), ([], 7), ([97#8], 1), ([97#8, 0#8, 98#8], 6)] ≤ 2 ^ 32 := by decide +kernel

/-- With two bits: one key of two letters, inserted five times. -/
example : ([[], [98#8], [98#8, 99#8], [98#8, 99#8, 0#8]] : List (List Byte)).length ≤ 2 ^ 2 ∧
    ∀ ws, ws ∈ [[], [98#8], [98#8, 99#8], [98#8, 99#8, 0#8]] ↔ IsPrefix [([98#8, 99#8], 5), ([98#8, 99#8], 7), ([98#8, 99#8], 1), ([98#8, 99#8], 2),
      ([98#8, 99#8], 3)] ws := by
  refine ⟨by decide, fun ws => ?_⟩
  unfold IsPrefix
  simp only [List.mem_cons, List.not_mem_nil, or_false, exists_eq_or_imp, exists_eq_left, List.cons_append, List.nil_append, List.prefix_cons_iff,
    List.prefix_nil, or_self]
  constructor
  · rintro (h | h | h | h) <;> simp [h]
  · rintro (h | h | ⟨t, rfl, h | ⟨t, rfl, h | ⟨t, rfl, h⟩⟩⟩) <;> simp_all

end Verif.Trie
