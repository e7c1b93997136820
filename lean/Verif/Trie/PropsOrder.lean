/-
Property C124: the items of a trie are numbered by the first inserts, and `dfs` sorts the keys.
-/
import Verif.Trie.Order

namespace Verif.Trie

variable {α : Type}

theorem lex_nul : ∀ (a b : List Byte), LexLt (a ++ [0#8]) (b ++ [0#8]) ↔ LexLt a b := by
  intro a
  induction a with
  | nil =>
    intro b
    cases b with
    | nil => simp [LexLt]
    | cons y v =>
      simp only [List.nil_append, List.cons_append, LexLt, iff_true]
      by_cases hy : y = 0#8
      · right
        refine ⟨hy.symm, ?_⟩
        cases v <;> simp [LexLt]
      · left
        rw [BitVec.lt_def]
        have : y.toNat ≠ 0 := fun h => hy (BitVec.eq_of_toNat_eq h)
        simp
        omega
  | cons x u ih =>
    intro b
    cases b with
    | nil =>
      simp only [List.nil_append, List.cons_append, LexLt, iff_false]
      rintro (h | ⟨_, h⟩)
      · rw [BitVec.lt_def] at h; simp at h
      · cases u <;> simp [LexLt] at h
    | cons y v => simp only [List.cons_append, LexLt, ih]

theorem order_core (w : Nat) (ops : List (List Byte × α)) (L : List (List Byte)) (hL : L.Nodup) (hm : ∀ ws, ws ∈ L ↔ IsPrefix ops ws) (hsz : L.length ≤ 2 ^ w) :
    ∃ (t : Trie α) (s : Trie (List Byte)), (Trie.empty w : Trie α).run w ops = some t ∧
      (Trie.empty w : Trie (List Byte)).run w ((ops.map Prod.fst).map (fun k => (k, k))) = some s ∧ mapT (fun _ => ()) t = mapT (fun _ => ()) s ∧
      Inv w t ∧ Inv w s ∧ Has w s ∧ s.container.length ≤ 2 ^ w ∧ Self w s ∧ s.storage = firsts (ops.map Prod.fst) ∧
      ∀ vs, (walk s 0 vs).isSome = true → IsPrefix ops vs := by
  obtain ⟨t, e, h, _⟩ := empty_or w ops L hL hm
  obtain ⟨hI, _⟩ := h hsz
  obtain ⟨s, e', i', H', l', S', f', w'⟩ := run_self w (ops.map Prod.fst) (Trie.empty w) (inv_empty w) (has_empty w)
    (by simp only [Trie.empty, List.length_cons, List.length_nil]; exact Nat.pow_pos (by omega)) (self_empty w) (by
      rintro ⟨D, d1, d2, d3⟩
      have := (List.subperm_of_subset d1 (l₂ := L) (fun vs hvs => (hm vs).2 ((d3 vs hvs).imp (fun h => (walk_empty w vs).1 h) (fun ⟨k, hk, h⟩ => by
        obtain ⟨o, ho, rfl⟩ := List.mem_map.1 hk
        exact ⟨o, ho, h⟩)))).length_le
      omega)
  refine ⟨t, s, e, e', ?_, hI, i', H', l', S', f', fun vs h => (w' vs h).imp (fun h => (walk_empty w vs).1 h) (fun ⟨k, hk, h⟩ => by
        obtain ⟨o, ho, rfl⟩ := List.mem_map.1 hk
        exact ⟨o, ho, h⟩)⟩
  have h1 := run_map w (fun _ : α => ()) ops (Trie.empty w)
  have h2 := run_map w (fun _ : List Byte => ()) ((ops.map Prod.fst).map (fun k => (k, k))) (Trie.empty w)
  rw [e] at h1
  rw [e', List.map_map, List.map_map] at h2
  exact Option.some.inj (h1.symm.trans h2)

theorem ix_core {w : Nat} {t : Trie α} {s : Trie (List Byte)} (he : mapT (fun _ => ()) t = mapT (fun _ => ()) s) (hs : Inv w s) (hS : Self w s) (ws : List Byte) :
    ix w t ws = if ws ∈ s.storage.map (· ++ [0#8]) then some (s.storage.idxOf ws.dropLast) else none := by
  rw [← ix_self hs hS]
  have hc : t.container = s.container := congrArg Trie.container he
  unfold ix
  rw [walk_container hc, hc]

theorem len_core {t : Trie α} {s : Trie (List Byte)} (he : mapT (fun _ => ()) t = mapT (fun _ => ()) s) : t.storage.length = s.storage.length := by
  have := congrArg (fun x => x.storage.length) he
  simpa [mapT] using this

theorem traverse_core {w : Nat} {t : Trie α} {s : Trie (List Byte)} (he : mapT (fun _ => ()) t = mapT (fun _ => ()) s) (ht : Inv w t) (hs : Inv w s) (hS : Self w s)
    (key : List Byte) (hk : key ∈ s.storage) : t.traverse' key = some (s.storage.idxOf key) := by
  have h := ix_core he hs hS (key ++ [0#8])
  rw [if_pos (List.mem_map.2 ⟨key, hk, rfl⟩), List.dropLast_concat] at h
  rw [traverse'_spec ht]
  unfold ix at h
  cases hw : walk t 0 (key ++ [0#8]) with
  | none => rw [hw] at h; cases h
  | some u =>
    rw [hw] at h
    have hlt := walk_lt ht _ 0 u ht.pos hw
    simp only [Option.bind_some, List.getElem?_eq_getElem hlt] at h ⊢
    split at h
    · cases h
    · exact h

/-- C124: the pointer that `traverse` returns is the place whose number is the number of different keys inserted before the first insert of the key;
there are as many places as different keys. -/
theorem C124_index (w : Nat) (ops : List (List Byte × α)) (L : List (List Byte)) (hL : L.Nodup) (hm : ∀ ws, ws ∈ L ↔ IsPrefix ops ws) (hsz : L.length ≤ 2 ^ w) :
    ∃ t, (Trie.empty w : Trie α).run w ops = some t ∧ t.storage.length = (firsts (ops.map Prod.fst)).length ∧
      ∀ key ∈ ops.map Prod.fst, t.traverse' key = some ((firsts (ops.map Prod.fst)).idxOf key) := by
  obtain ⟨t, s, e, _, he, ht, hs, _, _, hS, hf, _⟩ := order_core w ops L hL hm hsz
  refine ⟨t, e, by rw [len_core he, hf], fun key hk => ?_⟩
  rw [← hf]
  exact traverse_core he ht hs hS key (by rw [hf]; exact (mem_firstsFrom key _ _).2 (.inr hk))

/-- Three inserts of two keys. -/
example := C124_index 3 [([98#8, 99#8], 5), ([97#8], 7), ([98#8, 99#8], 1)] [[], [98#8], [98#8, 99#8], [98#8, 99#8, 0#8], [97#8], [97#8, 0#8]] (by decide) (by
    intro ws
    simp [IsPrefix, List.prefix_cons_iff]
    grind) (by decide)

/-- C124: `insert` returns the pointer to that place, and only a new key makes a new place. -/
theorem C124_insert (w : Nat) (ops : List (List Byte × α)) (key : List Byte) (item : α) (L : List (List Byte)) (hL : L.Nodup)
    (hm : ∀ ws, ws ∈ L ↔ IsPrefix (ops ++ [(key, item)]) ws) (hsz : L.length ≤ 2 ^ w) :
    ∃ t t', (Trie.empty w : Trie α).run w ops = some t ∧ t.insert w key item = some (t', (firsts (ops.map Prod.fst ++ [key])).idxOf key) ∧
      t'.storage.length = t.storage.length + (if key ∈ ops.map Prod.fst then 0 else 1) := by
  classical
  have hsub : ∀ ws, IsPrefix ops ws → IsPrefix (ops ++ [(key, item)]) ws := fun ws h => h.imp id (fun ⟨o, ho, h⟩ => ⟨o, List.mem_append_left _ ho, h⟩)
  have hL' : (L.filter (fun ws => decide (IsPrefix ops ws))).Nodup := hL.filter _
  have hlen : (L.filter (fun ws => decide (IsPrefix ops ws))).length ≤ L.length := List.length_filter_le _ _
  obtain ⟨t, s, e, _, he, ht, hs, hH, hl, hS, hf, hw⟩ := order_core w ops _ hL' (fun ws => by
    rw [List.mem_filter, hm, decide_eq_true_eq]
    exact ⟨fun h => h.2, fun h => ⟨hsub ws h, h⟩⟩) (Nat.le_trans hlen hsz)
  obtain ⟨s', i, e1, _, _, _, _, k1, a1, b1⟩ := insert_fits w s hs hH hl key key (by
    rintro ⟨D, d1, d2, d3⟩
    have := (List.subperm_of_subset d1 (l₂ := L) (fun vs hvs => (hm vs).2 (by
      rcases d3 vs hvs with h | h
      · exact hsub vs (hw vs h)
      · exact .inr ⟨(key, item), by simp, h⟩))).length_le
    omega)
  obtain ⟨S1, f1, g1⟩ := self_insert hS k1 a1 b1
  have h1 := insert_map w (fun _ : α => ()) t key item
  have h2 := insert_map w (fun _ : List Byte => ()) s key key
  rw [he, h2, e1] at h1
  cases e2 : t.insert w key item with
  | none => rw [e2] at h1; cases h1
  | some y =>
    obtain ⟨t', j⟩ := y
    rw [e2] at h1
    simp only [Option.map_some, Option.some.injEq, Prod.mk.injEq] at h1
    obtain ⟨h3, rfl⟩ := h1
    have hfs : s'.storage = firsts (ops.map Prod.fst ++ [key]) := by rw [f1, hf]; exact (firstsFrom_append _ _ _).symm
    refine ⟨t, t', e, ?_, ?_⟩
    · rw [← hfs]
      obtain ⟨hlt, hg⟩ := List.getElem?_eq_some_iff.1 g1
      have := S1.1.idxOf_getElem i hlt
      rw [hg] at this
      rw [e2, this]
    · rw [len_core h3.symm, len_core he, f1]
      show (if key ∈ s.storage then s.storage else s.storage ++ [key]).length = _
      have : key ∈ s.storage ↔ key ∈ ops.map Prod.fst := by
        rw [hf]; simp [firsts, mem_firstsFrom]
      by_cases hk : key ∈ s.storage
      · rw [if_pos hk, if_pos (this.1 hk)]; rfl
      · rw [if_neg hk, if_neg (fun h => hk (this.2 h))]; simp

example := C124_insert 3 [([98#8, 99#8], 5), ([97#8], 7)] [98#8, 99#8] 1 [[], [98#8], [98#8, 99#8], [98#8, 99#8, 0#8], [97#8], [97#8, 0#8]] (by decide) (by
    intro ws
    simp [IsPrefix, List.prefix_cons_iff]
    grind) (by decide)

/-- C124: later inserts do not move an item. -/
theorem C124_stable (w : Nat) (ops more : List (List Byte × α)) (L : List (List Byte)) (hL : L.Nodup) (hm : ∀ ws, ws ∈ L ↔ IsPrefix (ops ++ more) ws)
    (hsz : L.length ≤ 2 ^ w) :
    ∃ t t', (Trie.empty w : Trie α).run w ops = some t ∧ (Trie.empty w : Trie α).run w (ops ++ more) = some t' ∧
      ∀ key ∈ ops.map Prod.fst, ∃ i, i < t.storage.length ∧ t.traverse' key = some i ∧ t'.traverse' key = some i := by
  classical
  have hsub : ∀ ws, IsPrefix ops ws → IsPrefix (ops ++ more) ws := fun ws h => h.imp id (fun ⟨o, ho, h⟩ => ⟨o, List.mem_append_left _ ho, h⟩)
  obtain ⟨t, e, hl, h⟩ := C124_index w ops (L.filter (fun ws => decide (IsPrefix ops ws))) (hL.filter _) (fun ws => by
    rw [List.mem_filter, hm, decide_eq_true_eq]
    exact ⟨fun h => h.2, fun h => ⟨hsub ws h, h⟩⟩) (Nat.le_trans (List.length_filter_le _ _) hsz)
  obtain ⟨t', e', _, h'⟩ := C124_index w (ops ++ more) L hL hm hsz
  refine ⟨t, t', e, e', fun key hk => ?_⟩
  have hmem : key ∈ firsts (ops.map Prod.fst) := (mem_firstsFrom key _ _).2 (.inr hk)
  refine ⟨_, by rw [hl]; exact List.idxOf_lt_length_of_mem hmem, h key hk, ?_⟩
  rw [h' key (by rw [List.map_append]; exact List.mem_append_left _ hk), List.map_append]
  obtain ⟨r, hr⟩ := prefix_firstsFrom (more.map Prod.fst) (firsts (ops.map Prod.fst))
  have : firsts (ops.map Prod.fst ++ more.map Prod.fst) = firsts (ops.map Prod.fst) ++ r := by
    rw [hr]; exact firstsFrom_append _ _ _
  rw [this, List.idxOf_append_of_mem hmem]

example := C124_stable 3 [([98#8, 99#8], 5)] [([97#8], 7), ([98#8, 99#8], 1)] [[], [98#8], [98#8, 99#8], [98#8, 99#8, 0#8], [97#8], [97#8, 0#8]] (by decide) (by
    intro ws
    simp [IsPrefix, List.prefix_cons_iff]
    grind) (by decide)

/-- C124: a user who notes `item_index()` of the terminal nodes during `dfs` gets the keys in the order of a dictionary. -/
theorem C124_dfs (w : Nat) (ops : List (List Byte × α)) (L : List (List Byte)) (hL : L.Nodup) (hm : ∀ ws, ws ∈ L ↔ IsPrefix ops ws) (hsz : L.length ≤ 2 ^ w) :
    ∃ t, (Trie.empty w : Trie α).run w ops = some t ∧ ∀ n, t.container.length ≤ n → ∃ (out : List (Nat × Nat)) (K : List (List Byte)), t.dfs n 0 0 = some out ∧
      K.Perm (firsts (ops.map Prod.fst)) ∧ K.Pairwise LexLt ∧
      out.filterMap (fun p => (t.node p.1).bind (fun nd => if nd.terminal true w then some nd.item else none)) =
        K.map (fun key => (firsts (ops.map Prod.fst)).idxOf key) := by
  obtain ⟨t, s, e, _, he, ht, hs, _, _, hS, hf, _⟩ := order_core w ops L hL hm hsz
  obtain ⟨t', e', hd⟩ := C58_dfs_fits w ops L hL hm hsz
  cases e.symm.trans e'
  refine ⟨t, e, fun n hn => ?_⟩
  obtain ⟨P, out, h1, ⟨h2, h3⟩, h4, h5, _⟩ := hd n hn
  have hout : out = P.map (fun ws => ((walk t 0 ws).getD 0, ws.length)) := by
    apply List.ext_getElem?
    intro i
    rw [List.getElem?_map]
    cases hp : P[i]? with
    | none =>
      rw [List.getElem?_eq_none_iff] at hp
      rw [Option.map_none, List.getElem?_eq_none_iff]
      omega
    | some ws =>
      obtain ⟨v, hv, ho⟩ := h3 i ws hp
      rw [down_spec ht ws 0 ht.pos] at hv
      rw [ho, Option.map_some, Option.some.inj hv]; rfl
  have hterm : ∀ ws ∈ P, ((t.node ((walk t 0 ws).getD 0)).bind (fun nd => if nd.terminal true w then some nd.item else none)) = ix w t ws := by
    intro ws hws
    obtain ⟨i, hi⟩ := List.mem_iff_getElem?.1 hws
    obtain ⟨v, hv, _⟩ := h3 i ws hi
    rw [down_spec ht ws 0 ht.pos] at hv
    have hv := Option.some.inj hv
    unfold ix
    rw [hv]
    simp only [Option.getD_some, Option.bind_some, Trie.node]
    cases t.container[v]? with
    | none => rfl
    | some nd =>
      simp only [Option.bind_some, Node.terminal, if_true, bne_iff_ne, ne_eq, itemEmpty]
      by_cases h : nd.item = 2 ^ w - 1
      · simp [h]
      · simp [h]
  have hin : ∀ key, key ∈ s.storage ↔ key ++ [0#8] ∈ P ∧ key ++ [0#8] ∈ s.storage.map (· ++ [0#8]) := by
    intro key
    constructor
    · intro hk
      refine ⟨(h5 _).2 ?_, List.mem_map.2 ⟨key, hk, rfl⟩⟩
      rw [hf, firsts, mem_firstsFrom] at hk
      obtain ⟨o, ho, rfl⟩ := List.mem_map.1 (hk.resolve_left (by simp))
      exact .inr ⟨o, ho, List.prefix_rfl⟩
    · rintro ⟨_, h⟩; simpa using h
  have hpw : ((P.filter (fun ws => decide (ws ∈ s.storage.map (· ++ [0#8])))).map List.dropLast).Pairwise LexLt := by
    rw [List.pairwise_map]
    refine (List.Pairwise.and_mem.1 (h4.filter _)).imp ?_
    rintro a b ⟨ha, hb, hab⟩
    rw [List.mem_filter, decide_eq_true_eq, List.mem_map] at ha hb
    obtain ⟨_, x, _, rfl⟩ := ha
    obtain ⟨_, y, _, rfl⟩ := hb
    rw [List.dropLast_concat, List.dropLast_concat]
    exact (lex_nul x y).1 hab
  refine ⟨out, _, h1, ?_, hpw, ?_⟩
  · rw [← hf]
    have hnd := List.Pairwise.imp (S := fun a b => a ≠ b) (fun {a b} (h : LexLt a b) (e : a = b) => LexLt_irrefl b (e ▸ h)) hpw
    apply (List.perm_ext_iff_of_nodup hnd hS.1).2
    intro key
    rw [hin key, List.mem_map]
    constructor
    · rintro ⟨ws, hws, rfl⟩
      rw [List.mem_filter, decide_eq_true_eq] at hws
      obtain ⟨h6, h7⟩ := hws
      obtain ⟨x, hx, rfl⟩ := List.mem_map.1 h7
      simp only [List.dropLast_concat]
      exact ⟨h6, h7⟩
    · rintro ⟨h6, h7⟩
      exact ⟨_, List.mem_filter.2 ⟨h6, decide_eq_true h7⟩, List.dropLast_concat⟩
  · rw [hout, List.filterMap_map, List.map_map, ← hf]
    have hall : ∀ Q : List (List Byte), (∀ ws ∈ Q, ws ∈ P) →
        Q.filterMap ((fun p : Nat × Nat => (t.node p.1).bind (fun nd => if nd.terminal true w then some nd.item else none)) ∘
          fun ws => ((walk t 0 ws).getD 0, ws.length)) =
        (Q.filter (fun ws => decide (ws ∈ s.storage.map (· ++ [0#8])))).map ((fun key => s.storage.idxOf key) ∘ List.dropLast) := by
      intro Q
      induction Q with
      | nil => intro _; rfl
      | cons ws Q ih =>
        intro hQ
        have ih := ih (fun ws h => hQ ws (List.mem_cons_of_mem _ h))
        have hx := (hterm ws (hQ ws List.mem_cons_self)).trans (ix_core he hs hS ws)
        rw [List.filterMap_cons, List.filter_cons]
        simp only [Function.comp_apply, hx]
        by_cases hk : ws ∈ s.storage.map (· ++ [0#8])
        · rw [if_pos hk, if_pos (decide_eq_true hk), List.map_cons]
          exact congrArg _ ih
        · rw [if_neg hk, if_neg (by simpa using hk)]
          exact ih
    exact hall P (fun _ h => h)

example := C124_dfs 3 [([98#8, 99#8], 5), ([97#8], 7), ([98#8, 99#8], 1)] [[], [98#8], [98#8, 99#8], [98#8, 99#8, 0#8], [97#8], [97#8, 0#8]] (by decide) (by
    intro ws
    simp [IsPrefix, List.prefix_cons_iff]
    grind) (by decide)

end Verif.Trie
