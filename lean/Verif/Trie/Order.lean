/-
Lemmas for C124: the index of an item tells the order of the first inserts.
-/
import Verif.Trie.PropsEnds

namespace Verif.Trie

variable {α β : Type}

/-- The different keys in the order of their first occurrence, behind those of `acc`. -/
def firstsFrom (acc ks : List (List Byte)) : List (List Byte) := ks.foldl (fun acc k => if k ∈ acc then acc else acc ++ [k]) acc

/-- The different keys in the order of their first occurrence. -/
def firsts (ks : List (List Byte)) : List (List Byte) := firstsFrom [] ks

theorem firstsFrom_append (ks ls : List (List Byte)) (acc : List (List Byte)) : firstsFrom acc (ks ++ ls) = firstsFrom (firstsFrom acc ks) ls := by
  unfold firstsFrom
  rw [List.foldl_append]

theorem mem_firstsFrom (k : List Byte) : ∀ (ks acc : List (List Byte)), k ∈ firstsFrom acc ks ↔ k ∈ acc ∨ k ∈ ks := by
  intro ks
  induction ks with
  | nil => intro acc; simp [firstsFrom]
  | cons x ks ih =>
    intro acc
    rw [show firstsFrom acc (x :: ks) = firstsFrom (if x ∈ acc then acc else acc ++ [x]) ks from rfl, ih]
    by_cases h : x ∈ acc
    · rw [if_pos h, List.mem_cons]
      constructor
      · rintro (h | h) <;> simp [h]
      · rintro (h1 | rfl | h1)
        · exact .inl h1
        · exact .inl h
        · exact .inr h1
    · rw [if_neg h, List.mem_append, List.mem_singleton, List.mem_cons, or_assoc]

theorem nodup_firstsFrom : ∀ (ks acc : List (List Byte)), acc.Nodup → (firstsFrom acc ks).Nodup := by
  intro ks
  induction ks with
  | nil => intro acc h; exact h
  | cons x ks ih =>
    intro acc h
    rw [show firstsFrom acc (x :: ks) = firstsFrom (if x ∈ acc then acc else acc ++ [x]) ks from rfl]
    apply ih
    by_cases hx : x ∈ acc
    · rw [if_pos hx]; exact h
    · rw [if_neg hx, List.nodup_append]
      refine ⟨h, by simp, ?_⟩
      intro a ha b hb e
      rw [List.mem_singleton] at hb
      exact hx (hb ▸ e ▸ ha)

theorem prefix_firstsFrom : ∀ (ks acc : List (List Byte)), acc <+: firstsFrom acc ks := by
  intro ks
  induction ks with
  | nil => intro acc; exact List.prefix_rfl
  | cons x ks ih =>
    intro acc
    rw [show firstsFrom acc (x :: ks) = firstsFrom (if x ∈ acc then acc else acc ++ [x]) ks from rfl]
    refine List.IsPrefix.trans ?_ (ih _)
    split
    · exact List.prefix_rfl
    · exact List.prefix_append _ _

/-- The trie with other items. -/
def mapT (f : α → β) (t : Trie α) : Trie β := ⟨t.container, t.storage.map f⟩

theorem step_map (w : Nat) (f : α → β) (t : Trie α) (u : Nat) (c : Byte) :
    (mapT f t).step w u c = (t.step w u c).map (fun x => (mapT f x.1, x.2)) := by
  unfold Trie.step mapT
  cases hn : t.container[u]? with
  | none => simp
  | some n =>
    simp only [Option.bind_eq_bind, Option.bind_some]
    split
    · rfl
    · cases wr t.container u (n.add w c t.container.length) <;> rfl

theorem path_map (w : Nat) (f : α → β) : ∀ (key : List Byte) (t : Trie α) (u : Nat),
    (mapT f t).path w key u = (t.path w key u).map (fun x => (mapT f x.1, x.2)) := by
  intro key
  induction key with
  | nil => intro t u; rfl
  | cons c key ih =>
    intro t u
    simp only [Trie.path, step_map, Option.bind_eq_bind]
    cases t.step w u c with
    | none => rfl
    | some x => simp only [Option.map_some, Option.bind_some, ih]

theorem wr_map {γ δ : Type} (f : γ → δ) (l : List γ) (i : Nat) (x : γ) : wr (l.map f) i (f x) = (wr l i x).map (List.map f) := by
  by_cases h : i < l.length
  · rw [wr_eq _ _ _ h, wr_eq _ _ _ (by rw [List.length_map]; exact h), Option.map_some, List.map_set]
  · unfold wr
    simp [h]

theorem store_map (w : Nat) (f : α → β) (t : Trie α) (u : Nat) (x : α) :
    (mapT f t).store w u (f x) = (t.store w u x).map (fun y => (mapT f y.1, y.2)) := by
  unfold Trie.store mapT
  cases hn : t.container[u]? with
  | none => simp
  | some n =>
    simp only [Option.bind_eq_bind, Option.bind_some, List.length_map]
    split
    · cases wr t.container u _ with
      | none => rfl
      | some c => simp
    · rw [wr_map]
      cases wr t.storage n.item x <;> rfl

theorem insert_map (w : Nat) (f : α → β) (t : Trie α) (key : List Byte) (x : α) :
    (mapT f t).insert w key (f x) = (t.insert w key x).map (fun y => (mapT f y.1, y.2)) := by
  rw [insert_eq, insert_eq, path_map]
  cases t.path w (key ++ [0#8]) 0 with
  | none => rfl
  | some y => simp only [Option.map_some, Option.bind_some, store_map]

theorem run_map (w : Nat) (f : α → β) : ∀ (ops : List (List Byte × α)) (t : Trie α),
    (mapT f t).run w (ops.map (fun o => (o.1, f o.2))) = (t.run w ops).map (mapT f) := by
  intro ops
  induction ops with
  | nil => intro t; rfl
  | cons o ops ih =>
    intro t
    simp only [List.map_cons, Trie.run, insert_map, Option.bind_eq_bind]
    cases t.insert w o.1 o.2 with
    | none => rfl
    | some y => simp only [Option.map_some, Option.bind_some, ih]

/-- Where `insert` puts the item. -/
theorem store_look {w : Nat} {t : Trie α} (hI : Inv w t) {ws : List Byte} {v : Nat} (hv : walk t 0 ws = some v) {item : α} {t' : Trie α} {i : Nat}
    (e : t.store w v item = some (t', i)) :
    (look w t ws = none → t'.storage = t.storage ++ [item] ∧ i = t.storage.length % 2 ^ w) ∧
      ∀ x, look w t ws = some x → t.storage[i]? = some x ∧ t'.storage = t.storage.set i item := by
  have hlt := walk_lt hI ws 0 v hI.pos hv
  have hn := List.getElem?_eq_getElem hlt
  unfold look
  rw [hv]
  unfold Trie.store at e
  rw [hn] at e
  simp only [Option.bind_eq_bind, Option.bind_some, hn] at e ⊢
  by_cases he : t.container[v].item = itemEmpty w
  · rw [if_pos he, wr_eq _ _ _ hlt] at e
    cases e
    rw [if_pos he]
    exact ⟨fun _ => ⟨rfl, rfl⟩, fun x hx => by cases hx⟩
  · have hl := hI.items v _ hn he
    rw [if_neg he, wr_eq _ _ _ hl] at e
    cases e
    rw [if_neg he, List.getElem?_eq_getElem hl]
    exact ⟨fun h => (by cases h), fun x hx => ⟨hx, rfl⟩⟩

theorem insert_fits (w : Nat) (t : Trie α) (hI : Inv w t) (hH : Has w t) (hsz : t.container.length ≤ 2 ^ w) (key : List Byte) (item : α)
    (hm : ¬ Many w t (fun vs => vs <+: key ++ [0#8])) :
    ∃ t' i, t.insert w key item = some (t', i) ∧ Inv w t' ∧ Has w t' ∧ t'.container.length ≤ 2 ^ w ∧
      (∀ vs, (walk t' 0 vs).isSome = true ↔ ((walk t 0 vs).isSome = true ∨ vs <+: key ++ [0#8])) ∧
      (∀ vs, look w t' vs = if vs = key ++ [0#8] then some item else look w t vs) ∧
      (look w t (key ++ [0#8]) = none → t'.storage = t.storage ++ [item] ∧ i = t.storage.length) ∧
      ∀ x, look w t (key ++ [0#8]) = some x → t.storage[i]? = some x ∧ t'.storage = t.storage.set i item := by
  obtain ⟨t', i, e, h⟩ := insert_or w t hI hH hsz key item
  rcases h with ⟨i1, H1, l1, _, w1, k1⟩ | ⟨_, _, m1⟩
  · refine ⟨t', i, e, i1, H1, l1, w1, k1, ?_⟩
    rw [insert_eq] at e
    obtain ⟨t1, v, e1, _, h1⟩ := path_or w (key ++ [0#8]) t 0 [] hI hH rfl hsz
    rcases h1 with ⟨p1, _, _, _⟩ | ⟨_, _, m1⟩
    · rw [e1] at e
      simp only [Option.bind_some] at e
      have h := store_look p1.inv p1.walk e
      rw [p1.look, p1.sto, Nat.mod_eq_of_lt hH.lt] at h
      exact h
    · exact absurd m1 hm
  · exact absurd m1 hm

/-- A trie whose items are the keys. -/
def Self (w : Nat) (t : Trie (List Byte)) : Prop := t.storage.Nodup ∧ ∀ ws, look w t ws = if ws ∈ t.storage.map (· ++ [0#8]) then some ws.dropLast else none

theorem self_insert {w : Nat} {t t' : Trie (List Byte)} (hS : Self w t) {key : List Byte} {i : Nat}
    (hk : ∀ vs, look w t' vs = if vs = key ++ [0#8] then some key else look w t vs)
    (h0 : look w t (key ++ [0#8]) = none → t'.storage = t.storage ++ [key] ∧ i = t.storage.length)
    (h1 : ∀ x, look w t (key ++ [0#8]) = some x → t.storage[i]? = some x ∧ t'.storage = t.storage.set i key) :
    Self w t' ∧ t'.storage = firstsFrom t.storage [key] ∧ t'.storage[i]? = some key := by
  have hlk := hS.2 (key ++ [0#8])
  have hmem : ∀ k (l : List (List Byte)), k ++ [0#8] ∈ l.map (· ++ [0#8]) ↔ k ∈ l := by
    intro k l
    simp
  have hff : firstsFrom t.storage [key] = if key ∈ t.storage then t.storage else t.storage ++ [key] := rfl
  by_cases hin : key ∈ t.storage
  · rw [if_pos ((hmem _ _).2 hin), List.dropLast_concat] at hlk
    obtain ⟨g1, g2⟩ := h1 key hlk
    have hset : t.storage.set i key = t.storage := by
      apply List.ext_getElem?
      intro j
      rw [List.getElem?_set]
      split
      · rename_i h; subst h
        have := (List.getElem?_eq_some_iff.1 g1).1
        rw [if_pos this, g1]
      · rfl
    rw [hset] at g2
    refine ⟨⟨by rw [g2]; exact hS.1, fun ws => ?_⟩, by rw [hff, if_pos hin, g2], by rw [g2]; exact g1⟩
    rw [hk, g2]
    split
    · rename_i h; subst h
      rw [if_pos ((hmem _ _).2 hin), List.dropLast_concat]
    · exact hS.2 ws
  · rw [if_neg (fun h => hin ((hmem _ _).1 h))] at hlk
    obtain ⟨g1, g2⟩ := h0 hlk
    refine ⟨⟨?_, fun ws => ?_⟩, by rw [hff, if_neg hin, g1], by rw [g1, g2]; simp⟩
    · rw [g1, List.nodup_append]
      refine ⟨hS.1, by simp, ?_⟩
      intro a ha b hb e
      rw [List.mem_singleton] at hb
      exact hin (hb ▸ e ▸ ha)
    · rw [hk, g1, List.map_append, List.map_singleton]
      split
      · rename_i h; subst h
        rw [if_pos (by simp), List.dropLast_concat]
      · rename_i h
        rw [hS.2 ws]
        simp [h]

theorem run_self (w : Nat) : ∀ (ks : List (List Byte)) (t : Trie (List Byte)), Inv w t → Has w t → t.container.length ≤ 2 ^ w → Self w t →
    ¬ Many w t (fun vs => ∃ k ∈ ks, vs <+: k ++ [0#8]) →
    ∃ t', t.run w (ks.map (fun k => (k, k))) = some t' ∧ Inv w t' ∧ Has w t' ∧ t'.container.length ≤ 2 ^ w ∧ Self w t' ∧ t'.storage = firstsFrom t.storage ks ∧
      ∀ vs, (walk t' 0 vs).isSome = true → ((walk t 0 vs).isSome = true ∨ ∃ k ∈ ks, vs <+: k ++ [0#8]) := by
  intro ks
  induction ks with
  | nil => intro t hI hH hsz hS _; exact ⟨t, rfl, hI, hH, hsz, hS, rfl, fun vs h => .inl h⟩
  | cons k ks ih =>
    intro t hI hH hsz hS hm
    obtain ⟨t1, i, e1, i1, H1, l1, w1, k1, a1, b1⟩ := insert_fits w t hI hH hsz k k (fun ⟨D, d1, d2, d3⟩ => hm ⟨D, d1, d2, fun vs hvs =>
      (d3 vs hvs).imp id (fun h => ⟨k, List.mem_cons_self, h⟩)⟩)
    obtain ⟨S1, f1, _⟩ := self_insert hS k1 a1 b1
    obtain ⟨t2, e2, i2, H2, l2, S2, f2, w2⟩ := ih t1 i1 H1 l1 S1 (fun ⟨D, d1, d2, d3⟩ => hm ⟨D, d1, d2, fun vs hvs => by
      rcases d3 vs hvs with h | ⟨k', hk', h⟩
      · exact ((w1 vs).1 h).imp id (fun h => ⟨k, List.mem_cons_self, h⟩)
      · exact .inr ⟨k', List.mem_cons_of_mem _ hk', h⟩⟩)
    refine ⟨t2, by simp only [List.map_cons, Trie.run, e1, Option.bind_eq_bind, Option.bind_some, e2], i2, H2, l2, S2, by rw [f2, f1]; rfl, fun vs h => ?_⟩
    rcases w2 vs h with h | ⟨k', hk', h⟩
    · exact ((w1 vs).1 h).imp id (fun h => ⟨k, List.mem_cons_self, h⟩)
    · exact .inr ⟨k', List.mem_cons_of_mem _ hk', h⟩

theorem self_empty (w : Nat) : Self w (Trie.empty w) := ⟨List.nodup_nil, fun ws => by rw [look_empty]; rfl⟩

/-- The index stored for a word. -/
def ix (w : Nat) (t : Trie α) (ws : List Byte) : Option Nat :=
  (walk t 0 ws).bind (fun u => (t.container[u]?).bind (fun n => if n.item = itemEmpty w then none else some n.item))

theorem walk_container {t : Trie α} {s : Trie β} (h : t.container = s.container) : ∀ (ws : List Byte) (u : Nat), walk t u ws = walk s u ws := by
  intro ws
  induction ws with
  | nil => intro u; rfl
  | cons c ws ih =>
    intro u
    have : tg t u c = tg s u c := by unfold tg; rw [h]
    rw [walk, walk, this, ih]

theorem ix_self {w : Nat} {t : Trie (List Byte)} (hI : Inv w t) (hS : Self w t) (ws : List Byte) :
    ix w t ws = if ws ∈ t.storage.map (· ++ [0#8]) then some (t.storage.idxOf ws.dropLast) else none := by
  have h := hS.2 ws
  unfold look at h
  unfold ix
  cases hw : walk t 0 ws with
  | none =>
    rw [hw] at h
    simp only [Option.bind_none] at h ⊢
    split at h
    · cases h
    · rename_i hn; rw [if_neg hn]
  | some u =>
    have hlt := walk_lt hI ws 0 u hI.pos hw
    rw [hw] at h
    simp only [Option.bind_some, List.getElem?_eq_getElem hlt] at h ⊢
    by_cases he : t.container[u].item = itemEmpty w
    · rw [if_pos he] at h ⊢
      split at h
      · cases h
      · rename_i hn; rw [if_neg hn]
    · rw [if_neg he] at h ⊢
      split at h
      · rename_i hn
        rw [if_pos hn]
        obtain ⟨hl, hg⟩ := List.getElem?_eq_some_iff.1 h
        rw [← hg, hS.1.idxOf_getElem]
      · have := hI.items u _ (List.getElem?_eq_getElem hlt) he
        rw [List.getElem?_eq_getElem this] at h
        cases h

end Verif.Trie
