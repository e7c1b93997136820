/-
C57, C58, C66: the trie.
-/
import Verif.Trie.Visit

namespace Verif.Trie

variable {α : Type}

/-- The item inserted last under a key. -/
def lastItem (ops : List (List Byte × α)) (key : List Byte) : Option α := (ops.reverse.find? (fun o => o.1 == key)).map Prod.snd

/-- The number of nodes a history can need. -/
def need (ops : List (List Byte × α)) : Nat := (ops.map (fun o => o.1.length + 1)).sum

theorem lastItem_cons (o : List Byte × α) (ops : List (List Byte × α)) (key : List Byte) :
    lastItem (o :: ops) key = (lastItem ops key).or (if o.1 = key then some o.2 else none) := by
  unfold lastItem
  rw [List.reverse_cons, List.find?_append]
  cases h : ops.reverse.find? (fun o => o.1 == key) with
  | some x => rfl
  | none =>
    by_cases hk : o.1 = key
    · simp [hk]
    · simp [hk]

theorem run_spec (w : Nat) : ∀ (ops : List (List Byte × α)) (t : Trie α), Inv w t → t.container.length + need ops ≤ 2 ^ w →
    t.storage.length + ops.length < 2 ^ w →
    ∃ t', t.run w ops = some t' ∧ Inv w t' ∧ t'.storage.length ≤ t.storage.length + ops.length ∧
      (∀ key, look w t' (key ++ [0#8]) = (lastItem ops key).or (look w t (key ++ [0#8]))) ∧
      ∀ vs, (walk t' 0 vs).isSome = true ↔ ((walk t 0 vs).isSome = true ∨ ∃ o ∈ ops, vs <+: o.1 ++ [0#8]) := by
  intro ops
  induction ops with
  | nil => intro t hI _ _; exact ⟨t, rfl, hI, by simp, fun key => by simp [lastItem], fun vs => by simp⟩
  | cons o ops ih =>
    intro t hI hsz hst
    have hn : need (o :: ops) = o.1.length + 1 + need ops := by simp [need]
    simp only [List.length_cons] at hst
    obtain ⟨t1, i, e1, i1, l1, s1, _, w1, k1⟩ := insert_spec w t hI o.1 o.2 (by omega) (by omega)
    obtain ⟨t2, e2, i2, s2, k2, w2⟩ := ih t1 i1 (by omega) (by omega)
    refine ⟨t2, ?_, i2, by simp only [List.length_cons]; omega, ?_, ?_⟩
    · simp only [Trie.run, e1, Option.bind_eq_bind, Option.bind_some, e2]
    · intro key
      rw [k2, k1, lastItem_cons]
      cases lastItem ops key with
      | some x => rfl
      | none =>
        simp only [Option.none_or, List.append_cancel_right_eq]
        by_cases hk : o.1 = key
        · rw [if_pos hk.symm, if_pos hk]; rfl
        · rw [if_neg (fun e => hk e.symm), if_neg hk]; rfl
    · intro vs
      rw [w2, w1]
      simp only [List.mem_cons, exists_eq_or_imp, or_assoc]

theorem look_empty (w : Nat) (vs : List Byte) : look w (Trie.empty w : Trie α) vs = none := by
  unfold look
  have h0 : ∀ u (c : Byte), tg (Trie.empty w : Trie α) u c = 0 := by
    intro u c
    unfold tg Trie.empty
    cases u with
    | zero => rfl
    | succ u => rfl
  cases vs with
  | nil => simp [walk, Trie.empty]
  | cons c vs => rw [walk, h0]; rfl

theorem walk_empty (w : Nat) (vs : List Byte) : (walk (Trie.empty w : Trie α) 0 vs).isSome = true ↔ vs = [] := by
  have h0 : ∀ u (c : Byte), tg (Trie.empty w : Trie α) u c = 0 := by
    intro u c
    unfold tg Trie.empty
    cases u with
    | zero => rfl
    | succ u => rfl
  cases vs with
  | nil => simp [walk]
  | cons c vs => rw [walk, h0]; simp

theorem len_le_need : ∀ (ops : List (List Byte × α)), ops.length ≤ need ops := by
  intro ops
  induction ops with
  | nil => simp
  | cons o ops ih =>
    have hn : need (o :: ops) = o.1.length + 1 + need ops := by simp [need]
    simp only [List.length_cons]
    omega

/-! ### C57 -/

/-- C57: after every history of inserts, of any keys, the trie holds the item inserted last under each key, and nothing else. The sum of the
lengths of the keys is bounded by the address space. -/
theorem C57_map (ops : List (List Byte × α)) (hsz : 1 + need ops ≤ 2 ^ 64) :
    ∃ t, (Trie.empty 64 : Trie α).run 64 ops = some t ∧ ∀ key, t.traverse key = some (lastItem ops key) := by
  have hl := len_le_need ops
  obtain ⟨t, e, hI, _, hk, _⟩ := run_spec 64 ops (Trie.empty 64) (inv_empty 64) hsz (by simp [Trie.empty]; omega)
  refine ⟨t, e, fun key => ?_⟩
  rw [traverse_spec t hI key, hk, look_empty]
  cases lastItem ops key <;> rfl

example := C57_map [([97#8, 0#8, 98#8], 5), ([], 7), ([97#8], 1), ([97#8, 0#8, 98#8], 6)] (by decide +kernel)

/-- C57: the pointer returned by `insert` refers to the item. -/
theorem C57_pointer (ops : List (List Byte × α)) (key : List Byte) (item : α) (hsz : 1 + need (ops ++ [(key, item)]) ≤ 2 ^ 64) :
    ∃ t t' i, (Trie.empty 64 : Trie α).run 64 ops = some t ∧ t.insert 64 key item = some (t', i) ∧ t'.storage[i]? = some item := by
  have hl := len_le_need ops
  have hn : need (ops ++ [(key, item)]) = need ops + (key.length + 1) := by simp [need]
  have h2 : ∀ (ops : List (List Byte × α)) (t t' : Trie α), Inv 64 t → t.run 64 ops = some t' → t.container.length + need ops ≤ 2 ^ 64 →
      t.storage.length + ops.length < 2 ^ 64 → t'.container.length ≤ t.container.length + need ops := by
    intro ops
    induction ops with
    | nil => intro t t' _ e _ _; cases e; simp [need]
    | cons o ops ih =>
      intro t t' hI e hsz hst
      have hn : need (o :: ops) = o.1.length + 1 + need ops := by simp [need]
      simp only [List.length_cons] at hst
      obtain ⟨t1, i, e1, i1, l1, s1, _⟩ := insert_spec 64 t hI o.1 o.2 (by omega) (by omega)
      simp only [Trie.run, e1, Option.bind_eq_bind, Option.bind_some] at e
      have := ih t1 t' i1 e (by omega) (by omega)
      omega
  obtain ⟨t, e, hI, hs, _⟩ := run_spec 64 ops (Trie.empty 64) (inv_empty 64) (by simp only [Trie.empty, List.length_cons, List.length_nil]; omega)
    (by simp only [Trie.empty, List.length_nil]; omega)
  have hc := h2 ops _ t (inv_empty 64) e (by simp only [Trie.empty, List.length_cons, List.length_nil]; omega)
    (by simp only [Trie.empty, List.length_nil]; omega)
  simp only [Trie.empty, List.length_cons, List.length_nil] at hs hc
  obtain ⟨t', i, e', _, _, _, g, _⟩ := insert_spec 64 t hI key item (by omega) (by omega)
  exact ⟨t, t', i, e, e', g⟩

example := C57_pointer [([97#8, 0#8, 98#8], 5), ([], 7)] [97#8] 1 (by decide +kernel)

/-- The lookup in a trie with a narrow `SizeType`, for keys without NUL. -/
theorem narrow_traverse {w : Nat} (hw : w ≤ 64) {ops : List (List Byte × α)} (hz : ∀ o ∈ ops, 0#8 ∉ o.1) {t : Trie α} (hI : Inv w t)
    (hs : t.storage.length < 2 ^ w) (hk : ∀ key, look w t (key ++ [0#8]) = (lastItem ops key).or (look w (Trie.empty w) (key ++ [0#8])))
    (hws : ∀ vs, (walk t 0 vs).isSome = true ↔ ((walk (Trie.empty w : Trie α) 0 vs).isSome = true ∨ ∃ o ∈ ops, vs <+: o.1 ++ [0#8]))
    (key : List Byte) (hkey : 0#8 ∉ key) : t.traverse key = some (lastItem ops key) := by
  have hlook := hk key
  rw [look_empty, Option.or_none] at hlook
  unfold Trie.traverse
  rw [traverse'_spec hI]
  simp only [Option.bind_eq_bind, Option.bind_some]
  cases hx : walk t 0 (key ++ [0#8]) with
  | none =>
    unfold look at hlook
    rw [hx] at hlook
    rw [← hlook]
    rfl
  | some u =>
    have hu := walk_lt hI _ 0 u hI.pos hx
    -- the key was inserted
    have hin : ∃ o ∈ ops, o.1 = key := by
      rcases (hws (key ++ [0#8])).1 (by rw [hx]; rfl) with h | ⟨o, ho, ⟨r, hr⟩⟩
      · rw [walk_empty] at h; simp at h
      · refine ⟨o, ho, ?_⟩
        rw [List.append_assoc] at hr
        rcases List.append_eq_append_iff.1 hr with ⟨a, h1, h2⟩ | ⟨a, h1, h2⟩
        · cases a with
          | nil => simpa using h1
          | cons x a =>
            exfalso
            simp only [List.cons_append, List.nil_append, List.cons.injEq] at h2
            apply hz o ho
            rw [h1, ← h2.1]
            simp
        · cases a with
          | nil => simpa using h1.symm
          | cons x a =>
            exfalso
            simp only [List.cons_append, List.nil_append, List.cons.injEq] at h2
            apply hkey
            rw [h1, h2.1]
            simp
    have hsome : ∃ x, lastItem ops key = some x := by
      obtain ⟨o, ho, hok⟩ := hin
      unfold lastItem
      cases hf : ops.reverse.find? (fun o => o.1 == key) with
      | some x => exact ⟨x.2, rfl⟩
      | none =>
        rw [List.find?_eq_none] at hf
        exact absurd hok (by simpa using hf o (by simpa using ho))
    obtain ⟨x, hxx⟩ := hsome
    rw [hxx] at hlook ⊢
    unfold look at hlook
    rw [hx] at hlook
    simp only [Option.bind_some] at hlook
    have hg := List.getElem?_eq_getElem hu
    rw [hg] at hlook
    simp only [hg, Option.bind_some, Option.map_some, Option.getD_some] at hlook ⊢
    split at hlook
    · cases hlook
    · rename_i hne
      have h1 := hI.items u _ (List.getElem?_eq_getElem hu) hne
      unfold itemEmpty at hne
      have h2 : 2 ^ w ≤ 2 ^ 64 := Nat.pow_le_pow_right (by omega) hw
      rw [if_pos (by omega), hlook]
      rfl

/-- C57: with a narrower `SizeType` the same holds for keys and queries without NUL. -/
theorem C57_narrow (w : Nat) (hw : w ≤ 64) (ops : List (List Byte × α)) (hsz : 1 + need ops ≤ 2 ^ w) (hz : ∀ o ∈ ops, 0#8 ∉ o.1) :
    ∃ t, (Trie.empty w : Trie α).run w ops = some t ∧ ∀ key, 0#8 ∉ key → t.traverse key = some (lastItem ops key) := by
  have hl := len_le_need ops
  obtain ⟨t, e, hI, hs, hk, hws⟩ := run_spec w ops (Trie.empty w) (inv_empty w) hsz (by simp [Trie.empty]; omega)
  simp only [Trie.empty, List.length_nil] at hs
  exact ⟨t, e, narrow_traverse hw hz hI (by omega) hk hws⟩

example := C57_narrow 8 (by decide) [([97#8, 98#8], 5), ([], 7), ([97#8], 1)] (by decide +kernel) (by decide)

/-- C57: with a 32 bit `SizeType`, a key with NUL makes `traverse` form a pointer far out of range instead of the null pointer. -/
theorem C57_narrow_oob : ((Trie.empty 32 : Trie Nat).run 32 [([97#8, 0#8, 98#8], 5)]).bind (fun t => t.traverse [97#8]) = none ∧
    lastItem [([97#8, 0#8, 98#8], 5)] [97#8] = none := by decide +kernel

example : 1 + need [([97#8, 0#8, 98#8], 5), ([], 7), ([97#8], 1), ([97#8, 0#8, 98#8], 6)] ≤ 2 ^ 64 := by decide +kernel
example : ((Trie.empty 64 : Trie Nat).run 64 [([97#8, 0#8, 98#8], 5), ([], 7), ([97#8], 1), ([97#8, 0#8, 98#8], 6)]).bind
    (fun t => do pure (← t.traverse [97#8], ← t.traverse [], ← t.traverse [97#8, 0#8, 98#8], ← t.traverse [98#8])) =
    some (some 1, some 7, some 6, none) := by decide +kernel

/-! ### C58 -/

/-- A sequence of visits: the nodes of the words `L`, with their lengths as depths. -/
def Visits (t : Trie α) (L : List (List Byte)) (out : List (Nat × Nat)) : Prop :=
  out.length = L.length ∧ ∀ (i : Nat) (ws : List Byte), L[i]? = some ws → ∃ v, t.down ws 0 = some (some v) ∧ out[i]? = some (v, ws.length)

/-- The words that lead to a node: the prefixes of the keys with their terminator. -/
def IsPrefix (ops : List (List Byte × α)) (ws : List Byte) : Prop := ws = [] ∨ ∃ o ∈ ops, ws <+: o.1 ++ [0#8]

theorem visits_of {w : Nat} {t : Trie α} (hI : Inv w t) (L : List (List Byte)) (R : List Byte → List Byte → Prop) (hR : ∀ a, ¬ R a a)
    (hL : L.Pairwise R) (hm : ∀ ws, ws ∈ L ↔ (walk t 0 ws).isSome = true) :
    Visits t L (L.map (fun ws => (nodeOf t 0 ws, ws.length))) ∧
    ((L.map (fun ws => (nodeOf t 0 ws, ws.length))).map Prod.fst).Perm (List.range t.container.length) := by
  refine ⟨⟨by simp, fun i ws h => ?_⟩, ?_⟩
  · obtain ⟨v, hv⟩ := Option.isSome_iff_exists.1 ((hm ws).1 (List.mem_of_getElem? h))
    refine ⟨v, by rw [down_spec hI ws 0 hI.pos, hv], ?_⟩
    rw [List.getElem?_map, h]
    simp [nodeOf, hv]
  · rw [List.map_map]
    apply (List.perm_ext_iff_of_nodup ?_ List.nodup_range).2
    · intro u
      rw [List.mem_range, List.mem_map]
      constructor
      · rintro ⟨ws, hws, rfl⟩
        obtain ⟨v, hv⟩ := Option.isSome_iff_exists.1 ((hm ws).1 hws)
        simp only [Function.comp_apply, nodeOf, hv, Option.getD_some]
        exact walk_lt hI ws 0 v hI.pos hv
      · intro hu
        obtain ⟨ws, hws⟩ := hI.reach u hu
        exact ⟨ws, (hm ws).2 (by rw [hws]; rfl), by simp [nodeOf, hws]⟩
    · rw [List.Nodup, List.pairwise_map]
      refine (List.Pairwise.and_mem.1 hL).imp ?_
      rintro a b ⟨ha, hb, hab⟩ e
      obtain ⟨u, hu⟩ := Option.isSome_iff_exists.1 ((hm a).1 ha)
      obtain ⟨v, hv⟩ := Option.isSome_iff_exists.1 ((hm b).1 hb)
      simp only [Function.comp_apply, nodeOf, hu, hv, Option.getD_some] at e
      subst e
      have := walk_inj hI _ a b u (Nat.le_refl _) hu hv
      subst this
      exact hR a hab

/-- C58: for every trie made by inserts, `dfs` visits every node exactly once, in the order of a dictionary (pre-order by increasing labels),
with the depth of the node; the recursion is not deeper than the number of nodes. -/
theorem C58_dfs (ops : List (List Byte × α)) (hsz : 1 + need ops ≤ 2 ^ 64) :
    ∃ t, (Trie.empty 64 : Trie α).run 64 ops = some t ∧ ∀ n, t.container.length ≤ n → ∃ L out, t.dfs n 0 0 = some out ∧ Visits t L out ∧
      L.Pairwise LexLt ∧ (∀ ws, ws ∈ L ↔ IsPrefix ops ws) ∧ (out.map Prod.fst).Perm (List.range t.container.length) := by
  have hl := len_le_need ops
  obtain ⟨t, e, hI, _, _, hws⟩ := run_spec 64 ops (Trie.empty 64) (inv_empty 64) hsz (by simp [Trie.empty]; omega)
  refine ⟨t, e, fun n hn => ?_⟩
  obtain ⟨L, ⟨h1, h2⟩, eL⟩ := dfs_spec hI n 0 0 hI.pos (by omega)
  simp only [Nat.zero_add] at eL
  obtain ⟨v1, v2⟩ := visits_of hI L LexLt LexLt_irrefl h1 h2
  refine ⟨L, _, eL, v1, h1, fun ws => ?_, v2⟩
  rw [h2, hws, walk_empty]
  rfl

example := C58_dfs [([98#8], 5), ([97#8, 98#8], 7)] (by decide +kernel)

/-- C58: `bfs` visits every node exactly once, shorter words first, words of one length in the order of a dictionary, with the depth of the
node; the number of rounds is the number of nodes. -/
theorem C58_bfs (ops : List (List Byte × α)) (hsz : 1 + need ops ≤ 2 ^ 64) :
    ∃ t, (Trie.empty 64 : Trie α).run 64 ops = some t ∧ ∀ n, t.container.length ≤ n → ∃ L out, t.bfs n [(0, 0)] [] = some out ∧ Visits t L out ∧
      L.Pairwise ShortLt ∧ (∀ ws, ws ∈ L ↔ IsPrefix ops ws) ∧ (out.map Prod.fst).Perm (List.range t.container.length) := by
  have hl := len_le_need ops
  obtain ⟨t, e, hI, _, _, hws⟩ := run_spec 64 ops (Trie.empty 64) (inv_empty 64) hsz (by simp [Trie.empty]; omega)
  refine ⟨t, e, fun n hn => ?_⟩
  obtain ⟨L, eL, h1, h2⟩ := bfs_spec hI n [] [[]] ⟨by simp, by simp [walk], by simp, by simp, by simp⟩ (by simpa using hn)
  obtain ⟨v1, v2⟩ := visits_of hI L ShortLt ShortLt_irrefl h1 h2
  refine ⟨L, _, eL, v1, h1, fun ws => ?_, v2⟩
  rw [h2, hws, walk_empty]
  rfl

example : ((Trie.empty 64 : Trie Nat).run 64 [([98#8], 5), ([97#8, 98#8], 7)]).bind (fun t => do pure (← t.dfs 6 0 0, ← t.bfs 6 [(0, 0)] [])) =
    some ([(0, 0), (3, 1), (4, 2), (5, 3), (1, 1), (2, 2)], [(0, 0), (3, 1), (1, 1), (4, 2), (2, 2), (5, 3)]) := by decide +kernel

/-! ### C66 -/

/-- C66: `size` is the number of distinct prefixes of the keys with their terminator. -/
theorem C66_size (ops : List (List Byte × α)) (hsz : 1 + need ops ≤ 2 ^ 64) :
    ∃ t, (Trie.empty 64 : Trie α).run 64 ops = some t ∧ ∃ L : List (List Byte), L.Nodup ∧ (∀ ws, ws ∈ L ↔ IsPrefix ops ws) ∧
      t.container.length = L.length := by
  obtain ⟨t, e, h⟩ := C58_dfs ops hsz
  obtain ⟨L, out, _, hv, hp, hm, hperm⟩ := h t.container.length (Nat.le_refl _)
  refine ⟨t, e, L, hp.imp (fun {a b} h (e : a = b) => LexLt_irrefl b (by rw [e] at h; exact h)), hm, ?_⟩
  have := hperm.length_eq
  rw [List.length_map, List.length_range] at this
  rw [← this, hv.1]

example : (((Trie.empty 64 : Trie Nat).run 64 [([98#8], 5), ([98#8, 99#8], 7), ([98#8], 5)]).map (fun t => t.container.length)) = some 5 := by
  decide +kernel

end Verif.Trie
