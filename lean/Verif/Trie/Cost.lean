/-
The accesses of `traverse` and `insert` of the trie: nodes looked at or added, and items stored.
-/
import Verif.Trie.Narrow
import Verif.IArr.Count

namespace Verif.Trie
open Verif.IArr (M acc Runs Counts)

variable {α : Type}

/-- The walk of `_traverse`, graph_util.hpp:170-177; the node of line 172 is counted. -/
def Trie.downC (t : Trie α) : List Byte → Nat → M (Option Nat)
  | [], node => pure (some node)
  | c :: key, node => do
    let n ← acc t.container[node]?
    if n.target c = 0 then pure none else downC t key (n.target c)

/-- `_traverse`, graph_util.hpp:169-186; the nodes of lines 172, 178 and 184 are counted. -/
def Trie.traverseC (t : Trie α) (key : List Byte) : M Nat := do
  match ← t.downC key 0 with
  | none => pure (2 ^ 64 - 1)
  | some node => do
    let n ← acc t.container[node]?
    if n.target 0#8 = 0 then pure (2 ^ 64 - 1)
    else do
      let n ← acc t.container[n.target 0#8]?
      pure n.item

/-- The body of the loop of `insert`, graph_util.hpp:90-98, and the same for the leaf label, graph_util.hpp:101-109; the node of lines 90 and 102 and the node
added in lines 97 and 108 are counted, the edge is added through the reference. -/
def Trie.stepC (w : Nat) (t : Trie α) (node : Nat) (c : Byte) : M (Trie α × Nat) := do
  let n ← acc t.container[node]?
  if n.target c ≠ 0 then pure (t, n.target c)
  else do
    let con ← acc (wr t.container node (n.add w c t.container.length))
    pure ({ t with container := con ++ [⟨itemEmpty w, []⟩] }, t.container.length)

/-- The loop of `insert`, graph_util.hpp:88-99. -/
def Trie.pathC (w : Nat) : List Byte → Trie α → Nat → M (Trie α × Nat)
  | [], t, node => pure (t, node)
  | c :: key, t, node => do
    let x ← t.stepC w node c
    pathC w key x.1 x.2

/-- The store of the item, graph_util.hpp:111-120; the node of line 111 and the item of line 114 or 118 are counted. -/
def Trie.storeC (w : Nat) (t : Trie α) (node : Nat) (item : α) : M (Trie α × Nat) := do
  let n ← acc t.container[node]?
  if n.item = itemEmpty w then do
    let con ← acc (wr t.container node { n with item := t.storage.length % 2 ^ w })
    pure (⟨con, t.storage ++ [item]⟩, t.storage.length % 2 ^ w)
  else do
    let st ← acc (wr t.storage n.item item)
    pure ({ t with storage := st }, n.item)

/-- `insert`, graph_util.hpp:87-121. -/
def Trie.insertC (w : Nat) (t : Trie α) (key : List Byte) (item : α) : M (Trie α × Nat) := do
  let x ← t.pathC w key 0
  let x ← x.1.stepC w x.2 0#8
  x.1.storeC w x.2 item

theorem down_counts (t : Trie α) : ∀ (key : List Byte) (u : Nat), Counts (t.downC key u) (t.down key u)
  | [], u => Counts.pure _
  | c :: key, u => by
    rw [Trie.downC, Trie.down]
    refine (Counts.acc _).bind fun n => ?_
    split
    · exact Counts.pure _
    · exact down_counts t key _

theorem traverse_counts (t : Trie α) (key : List Byte) : Counts (t.traverseC key) (t.traverse' key) := by
  rw [Trie.traverseC, Trie.traverse']
  refine (down_counts t key 0).bind fun x => ?_
  cases x with
  | none => exact Counts.pure _
  | some u =>
    refine (Counts.acc _).bind fun n => ?_
    split
    · exact Counts.pure _
    · exact (Counts.acc _).bind fun n => Counts.pure _

theorem step_counts (w : Nat) (t : Trie α) (u : Nat) (c : Byte) : Counts (t.stepC w u c) (t.step w u c) := by
  rw [Trie.stepC, Trie.step]
  refine (Counts.acc _).bind fun n => ?_
  split
  · exact Counts.pure _
  · exact (Counts.acc _).bind fun n => Counts.pure _

theorem path_counts (w : Nat) : ∀ (key : List Byte) (t : Trie α) (u : Nat), Counts (t.pathC w key u) (t.path w key u)
  | [], t, u => Counts.pure _
  | c :: key, t, u => by
    rw [Trie.pathC, Trie.path]
    exact (step_counts w t u c).bind fun x => path_counts w key x.1 x.2

theorem store_counts (w : Nat) (t : Trie α) (u : Nat) (item : α) : Counts (t.storeC w u item) (t.store w u item) := by
  rw [Trie.storeC, Trie.store]
  refine (Counts.acc _).bind fun n => ?_
  split
  · exact (Counts.acc _).bind fun n => Counts.pure _
  · exact (Counts.acc _).bind fun n => Counts.pure _

theorem insert_counts (w : Nat) (t : Trie α) (key : List Byte) (item : α) : Counts (t.insertC w key item) (t.insert w key item) := by
  rw [Trie.insertC, Trie.insert]
  exact (path_counts w key t 0).bind fun x => (step_counts w x.1 x.2 0#8).bind fun x => store_counts w x.1 x.2 item

theorem downC_append (t : Trie α) : ∀ (a b : List Byte) (u : Nat),
    t.downC (a ++ b) u = t.downC a u >>= fun x => match x with | none => pure none | some v => t.downC b v
  | [], b, u => by rw [List.nil_append, Trie.downC, pure_bind]
  | c :: a, b, u => by
    rw [List.cons_append, Trie.downC, Trie.downC, bind_assoc]
    refine bind_congr fun n => ?_
    split
    · rw [pure_bind]
    · exact downC_append t a b _

theorem pathC_append (w : Nat) : ∀ (a b : List Byte) (t : Trie α) (u : Nat), t.pathC w (a ++ b) u = t.pathC w a u >>= fun x => x.1.pathC w b x.2
  | [], b, t, u => by rw [List.nil_append, Trie.pathC, pure_bind]
  | c :: a, b, t, u => by
    rw [List.cons_append, Trie.pathC, Trie.pathC, bind_assoc]
    exact bind_congr fun x => pathC_append w a b x.1 x.2

/-- Prefixes of `ws` up to the length `m` lead somewhere from `u`, longer ones do not. -/
def Deep (t : Trie α) (u : Nat) (ws : List Byte) (m : Nat) : Prop := m ≤ ws.length ∧ ∀ j, j ≤ ws.length → ((walk t u (ws.take j)).isSome = true ↔ j ≤ m)

theorem Deep.nil (t : Trie α) (u : Nat) : Deep t u [] 0 := ⟨Nat.le_refl _, fun j hj => by
  obtain rfl : j = 0 := by simpa using hj
  simp [walk]⟩

theorem Deep.stop {t : Trie α} {u : Nat} {c : Byte} (h : tg t u c = 0) (ws : List Byte) : Deep t u (c :: ws) 0 := ⟨Nat.zero_le _, fun j hj => by
  cases j with
  | zero => simp [walk]
  | succ j => simp [walk, h]⟩

theorem Deep.cons {t : Trie α} {u : Nat} {c : Byte} {ws : List Byte} {m : Nat} (h : tg t u c ≠ 0) (d : Deep t (tg t u c) ws m) : Deep t u (c :: ws) (m + 1) :=
  ⟨Nat.succ_le_succ d.1, fun j hj => by
    cases j with
    | zero => simp [walk]
    | succ j =>
      rw [List.take_succ_cons, walk, if_neg h, d.2 j (Nat.le_of_succ_le_succ hj)]
      omega⟩

theorem Deep.unique {t : Trie α} {u : Nat} {ws : List Byte} {m m' : Nat} (h : Deep t u ws m) (h' : Deep t u ws m') : m = m' := by
  have h1 := (h'.2 m h.1).1 ((h.2 m h.1).2 (Nat.le_refl _))
  have h2 := (h.2 m' h'.1).1 ((h'.2 m' h'.1).2 (Nat.le_refl _))
  omega

theorem down_runs {w : Nat} {t : Trie α} (hI : Inv w t) : ∀ (ws : List Byte) (u : Nat), u < t.container.length → ∃ m, Deep t u ws m ∧
    ((m = ws.length ∧ ∃ v, v < t.container.length ∧ Runs (t.downC ws u) (some v) m) ∨ (m < ws.length ∧ Runs (t.downC ws u) none (m + 1)))
  | [], u, hu => ⟨0, Deep.nil t u, .inl ⟨rfl, u, hu, Runs.pure _⟩⟩
  | c :: ws, u, hu => by
    have hn := List.getElem?_eq_getElem hu
    have htg := tg_some t u c _ hn
    by_cases h : tg t u c = 0
    · refine ⟨0, Deep.stop h ws, .inr ⟨by simp, ?_⟩⟩
      rw [Trie.downC, hn]
      refine Runs.bind (Runs.acc _) (n' := 0) ?_
      rw [if_pos (by rw [← htg]; exact h)]
      exact Runs.pure _
    · obtain ⟨m, hd, hr⟩ := down_runs hI ws (tg t u c) (hI.up u c h).2
      refine ⟨m + 1, hd.cons h, ?_⟩
      have key : ∀ x n, Runs (t.downC ws (tg t u c)) x n → Runs (t.downC (c :: ws) u) x (n + 1) := by
        intro x n hx
        rw [Trie.downC, hn]
        refine (Runs.bind (Runs.acc _) (n' := n) ?_).cast (Nat.add_comm _ _)
        rw [if_neg (by rw [← htg]; exact h), ← htg]
        exact hx
      rcases hr with ⟨e, v, hv, hr⟩ | ⟨hlt, hr⟩
      · exact .inl ⟨by simp [e], v, hv, key _ _ hr⟩
      · exact .inr ⟨by simpa using hlt, key _ _ hr⟩

theorem traverse_runs {w : Nat} {t : Trie α} (hI : Inv w t) (key : List Byte) :
    ∃ m i, Deep t 0 (key ++ [0#8]) m ∧ t.traverse' key = some i ∧ Runs (t.traverseC key) i (m + 1) := by
  have hT : t.traverseC key = t.downC (key ++ [0#8]) 0 >>= fun x => match x with
      | none => pure (2 ^ 64 - 1)
      | some v => acc t.container[v]? >>= fun n => pure n.item := by
    rw [downC_append, bind_assoc, Trie.traverseC]
    refine bind_congr fun x => ?_
    cases x with
    | none => simp only [pure_bind]
    | some u =>
      simp only [Trie.downC, bind_assoc]
      refine bind_congr fun n => ?_
      split
      · simp only [pure_bind]
      · simp only [pure_bind]
  obtain ⟨m, hd, hr⟩ := down_runs hI (key ++ [0#8]) 0 hI.pos
  have hx : ∃ i, Runs (t.traverseC key) i (m + 1) := by
    rw [hT]
    rcases hr with ⟨e, v, hv, hr⟩ | ⟨hlt, hr⟩
    · refine ⟨t.container[v].item, hr.bind (n' := 1) ?_⟩
      show Runs (acc t.container[v]? >>= fun n => pure n.item) _ 1
      rw [List.getElem?_eq_getElem hv]
      exact Runs.bind (Runs.acc _) (Runs.pure _)
    · exact ⟨_, hr.bind (n' := 0) (Runs.pure _)⟩
  obtain ⟨i, hi⟩ := hx
  exact ⟨m, i, hd, (traverse_counts t key).value hi, hi⟩

theorem tg_push (t : Trie α) (l : List Node) (hl : l.length = t.container.length) (w : Nat) (d : Byte) :
    tg { t with container := l ++ [⟨itemEmpty w, []⟩] } t.container.length d = 0 := by
  simp [tg, ← hl, Node.target]

theorem step_new (w : Nat) (t : Trie α) (u : Nat) (hu : u < t.container.length) (c : Byte) (h : tg t u c = 0) :
    ∃ t', Runs (t.stepC w u c) (t', t.container.length) 2 ∧ t'.container.length = t.container.length + 1 ∧ t'.storage = t.storage ∧
      ∀ d, tg t' t.container.length d = 0 := by
  have hn := List.getElem?_eq_getElem hu
  refine ⟨{ t with container := t.container.set u (t.container[u].add w c t.container.length) ++ [⟨itemEmpty w, []⟩] }, ?_, ?_, rfl,
    fun d => tg_push t _ (by simp) w d⟩
  · rw [Trie.stepC, hn]
    refine Runs.bind (Runs.acc _) (n' := 1) ?_
    rw [if_neg (by rw [← tg_some t u c _ hn, h]; simp), wr_eq _ _ _ hu]
    exact Runs.bind (Runs.acc _) (Runs.pure _)
  · simp

theorem path_new (w : Nat) : ∀ (ws : List Byte) (t : Trie α) (u : Nat), u < t.container.length → (∀ d, tg t u d = 0) →
    ∃ t' v, Runs (t.pathC w ws u) (t', v) (ws.length + ws.length) ∧ t'.container.length = t.container.length + ws.length ∧ t'.storage = t.storage
  | [], t, u, _, _ => ⟨t, u, Runs.pure _, rfl, rfl⟩
  | c :: ws, t, u, hu, h => by
    obtain ⟨t1, hr, hl, hs, h1⟩ := step_new w t u hu c (h c)
    obtain ⟨t2, v, hr2, hl2, hs2⟩ := path_new w ws t1 t.container.length (by omega) h1
    refine ⟨t2, v, ?_, by rw [hl2, hl, List.length_cons]; omega, hs2.trans hs⟩
    rw [Trie.pathC]
    exact (hr.bind hr2).cast (by rw [List.length_cons]; omega)

theorem path_runs {w : Nat} {t : Trie α} (hI : Inv w t) : ∀ (ws : List Byte) (u : Nat), u < t.container.length → ∃ m t' v, Deep t u ws m ∧
    Runs (t.pathC w ws u) (t', v) (ws.length + (ws.length - m)) ∧ t'.container.length = t.container.length + (ws.length - m) ∧ t'.storage = t.storage
  | [], u, _ => ⟨0, t, u, Deep.nil t u, Runs.pure _, rfl, rfl⟩
  | c :: ws, u, hu => by
    by_cases h : tg t u c = 0
    · obtain ⟨t1, hr, hl, hs, h1⟩ := step_new w t u hu c h
      obtain ⟨t2, v, hr2, hl2, hs2⟩ := path_new w ws t1 t.container.length (by omega) h1
      refine ⟨0, t2, v, Deep.stop h ws, ?_, by rw [hl2, hl, List.length_cons]; omega, hs2.trans hs⟩
      rw [Trie.pathC]
      exact (hr.bind hr2).cast (by rw [List.length_cons]; omega)
    · obtain ⟨m, t', v, hd, hr, hl, hs⟩ := path_runs hI ws (tg t u c) (hI.up u c h).2
      refine ⟨m + 1, t', v, hd.cons h, ?_, by rw [hl, List.length_cons]; omega, hs⟩
      have hn := List.getElem?_eq_getElem hu
      have htg := tg_some t u c _ hn
      have h1 : Runs (t.stepC w u c) (t, tg t u c) 1 := by
        rw [Trie.stepC, hn]
        refine Runs.bind (Runs.acc _) (n' := 0) ?_
        rw [if_pos (by rw [← htg]; exact h), ← htg]
        exact Runs.pure _
      rw [Trie.pathC]
      exact (h1.bind hr).cast (by rw [List.length_cons]; omega)

theorem insert_runs {w : Nat} {t : Trie α} (hI : Inv w t) (key : List Byte) (item : α) :
    ∃ m t' i, Deep t 0 (key ++ [0#8]) m ∧ t.insert w key item = some (t', i) ∧
      Runs (t.insertC w key item) (t', i) (key.length + 3 + (key.length + 1 - m)) ∧ t'.container.length = t.container.length + (key.length + 1 - m) := by
  obtain ⟨m, t1, v, hd, hr, hl, hs⟩ := path_runs hI (key ++ [0#8]) 0 hI.pos
  obtain ⟨t1', v', e, p, _, hv⟩ := weak_path w (key ++ [0#8]) t 0 hI.weak hI.pos
  have e' := (path_counts w (key ++ [0#8]) t 0).value hr
  rw [e] at e'
  obtain ⟨rfl, rfl⟩ := Prod.mk.inj (Option.some.inj e')
  have hT : t.insertC w key item = t.pathC w (key ++ [0#8]) 0 >>= fun x => x.1.storeC w x.2 item := by
    rw [pathC_append, bind_assoc, Trie.insertC]
    refine bind_congr fun x => ?_
    rw [Trie.pathC, bind_assoc]
    refine bind_congr fun x => ?_
    rw [Trie.pathC, pure_bind]
  have hn := List.getElem?_eq_getElem hv
  have hstore : ∃ t' i, Runs (t1'.storeC w v' item) (t', i) 2 ∧ t'.container.length = t1'.container.length := by
    by_cases h : t1'.container[v'].item = itemEmpty w
    · refine ⟨⟨t1'.container.set v' { t1'.container[v'] with item := t1'.storage.length % 2 ^ w }, t1'.storage ++ [item]⟩, t1'.storage.length % 2 ^ w, ?_, ?_⟩
      · rw [Trie.storeC, hn]
        refine Runs.bind (Runs.acc _) (n' := 1) ?_
        rw [if_pos h, wr_eq _ _ _ hv]
        exact Runs.bind (Runs.acc _) (Runs.pure _)
      · simp
    · refine ⟨{ t1' with storage := t1'.storage.set t1'.container[v'].item item }, t1'.container[v'].item, ?_, ?_⟩
      · rw [Trie.storeC, hn]
        refine Runs.bind (Runs.acc _) (n' := 1) ?_
        rw [if_neg h, wr_eq _ _ _ ((p.items v' _ hn).resolve_left h)]
        exact Runs.bind (Runs.acc _) (Runs.pure _)
      · rfl
  obtain ⟨t', i, hr', hl'⟩ := hstore
  have hR : Runs (t.insertC w key item) (t', i) (key.length + 3 + (key.length + 1 - m)) := by
    rw [hT]
    refine (hr.bind hr').cast ?_
    simp only [List.length_append, List.length_cons, List.length_nil]
    omega
  refine ⟨m, t', i, hd, (insert_counts w t key item).value hR, hR, ?_⟩
  rw [hl', hl]
  simp

end Verif.Trie
