/-
Helper facts for the traversals of the trie.
-/
import Verif.Trie.Lemmas
import Verif.Pigeon

namespace Verif.Trie

variable {α : Type}

/-- The order of words in a dictionary: a proper prefix comes first. -/
def LexLt : List Byte → List Byte → Prop
  | [], [] => False
  | [], _ :: _ => True
  | _ :: _, [] => False
  | a :: u, b :: v => a < b ∨ (a = b ∧ LexLt u v)

theorem LexLt_irrefl : ∀ w, ¬ LexLt w w := by
  intro w
  induction w with
  | nil => exact id
  | cons a w ih =>
    rintro (h | ⟨_, h⟩)
    · exact absurd h (by simp)
    · exact ih h

/-- The edges of a node. -/
theorem edge_iff {w : Nat} {t : Trie α} (hI : Inv w t) (u : Nat) (n : Node) (hn : t.container[u]? = some n) (c : Byte) (v : Nat) :
    (c, v) ∈ n.edges ↔ tg t u c = v ∧ v ≠ 0 := by
  rw [tg_some t u c n hn]
  unfold Node.target
  constructor
  · intro h
    refine ⟨?_, hI.nz u n hn _ h⟩
    have := find_sorted n.edges (hI.sorted u n hn) _ h
    simp only at this
    rw [this]
    rfl
  · rintro ⟨h1, h2⟩
    cases hf : n.edges.find? (fun e => e.1 == c) with
    | none => rw [hf] at h1; exact absurd h1.symm h2
    | some e =>
      rw [hf] at h1
      have h3 := List.find?_some hf
      have h4 : e.1 = c := by simpa using h3
      have h5 : e.2 = v := h1
      have := List.mem_of_find?_eq_some hf
      rw [← h4, ← h5]
      exact this

/-- The words below a node, in order. -/
def Words (t : Trie α) (u : Nat) (L : List (List Byte)) : Prop := L.Pairwise LexLt ∧ ∀ ws, ws ∈ L ↔ (walk t u ws).isSome = true

/-- The node of a word. -/
def nodeOf (t : Trie α) (u : Nat) (ws : List Byte) : Nat := (walk t u ws).getD 0

theorem dfs_edges {w : Nat} {t : Trie α} (hI : Inv w t) (u n d : Nat)
    (ih : ∀ v, u < v → v < t.container.length → ∃ L, Words t v L ∧ t.dfs n v (d + 1) = some (L.map (fun ws => (nodeOf t v ws, d + 1 + ws.length)))) :
    ∀ (es : List (Byte × Nat)), es.Pairwise (fun a b => a.1 < b.1) → (∀ e ∈ es, tg t u e.1 = e.2 ∧ e.2 ≠ 0) → ∀ acc,
    ∃ L : List (List Byte), es.foldlM (fun acc e => (do
        let l ← t.dfs n e.2 (d + 1)
        pure (acc ++ l) : Option (List (Nat × Nat)))) acc = some (acc ++ L.map (fun ws => (nodeOf t u ws, d + ws.length))) ∧
      L.Pairwise LexLt ∧ ∀ ws, ws ∈ L ↔ ∃ e ∈ es, ∃ ws', ws = e.1 :: ws' ∧ (walk t e.2 ws').isSome = true := by
  intro es
  induction es with
  | nil => intro _ _ acc; exact ⟨[], by simp [List.foldlM], .nil, by simp⟩
  | cons e es ihes =>
    intro hs he acc
    have hs' := List.pairwise_cons.1 hs
    obtain ⟨h1, h2⟩ := he e (by simp)
    have hup := hI.up u e.1 (by rw [h1]; exact h2)
    rw [h1] at hup
    obtain ⟨L1, hL1, e1⟩ := ih e.2 hup.1 hup.2
    obtain ⟨L2, e2, hp2, hm2⟩ := ihes hs'.2 (fun e' he' => he e' (by simp [he']))
      (acc ++ L1.map (fun ws => (nodeOf t e.2 ws, d + 1 + ws.length)))
    refine ⟨L1.map (fun ws => e.1 :: ws) ++ L2, ?_, ?_, ?_⟩
    · rw [List.foldlM_cons, e1]
      simp only [Option.bind_eq_bind, Option.bind_some, Option.pure_def]
      simp only [Option.bind_eq_bind, Option.pure_def] at e2
      rw [e2]
      simp only [List.map_append, List.map_map, List.append_assoc]
      congr 3
      apply List.map_congr_left
      intro ws _
      simp only [Function.comp_apply, List.length_cons]
      have : nodeOf t u (e.1 :: ws) = nodeOf t e.2 ws := by
        unfold nodeOf
        rw [walk, h1, if_neg h2]
      rw [this]
      congr 1
      omega
    · rw [List.pairwise_append]
      refine ⟨?_, hp2, ?_⟩
      · rw [List.pairwise_map]
        exact hL1.1.imp (fun h => Or.inr ⟨rfl, h⟩)
      · intro a ha b hb
        obtain ⟨a', _, rfl⟩ := List.mem_map.1 ha
        obtain ⟨e', he', b', rfl, _⟩ := (hm2 b).1 hb
        exact Or.inl (hs'.1 e' he')
    · intro ws
      rw [List.mem_append, hm2]
      constructor
      · rintro (h | ⟨e', he', ws', rfl, h⟩)
        · obtain ⟨a, ha, rfl⟩ := List.mem_map.1 h
          exact ⟨e, by simp, a, rfl, (hL1.2 a).1 ha⟩
        · exact ⟨e', by simp [he'], ws', rfl, h⟩
      · rintro ⟨e', he', ws', rfl, h⟩
        rcases List.mem_cons.1 he' with h3 | h3
        · subst h3
          exact Or.inl (List.mem_map.2 ⟨ws', (hL1.2 ws').2 h, rfl⟩)
        · exact Or.inr ⟨e', h3, ws', rfl, h⟩

theorem dfs_spec {w : Nat} {t : Trie α} (hI : Inv w t) : ∀ (n u d : Nat), u < t.container.length → t.container.length - u ≤ n →
    ∃ L, Words t u L ∧ t.dfs n u d = some (L.map (fun ws => (nodeOf t u ws, d + ws.length))) := by
  intro n
  induction n with
  | zero => intro u d hu hn; omega
  | succ n ih =>
    intro u d hu hn
    have hc : t.container[u]? = some t.container[u] := List.getElem?_eq_getElem hu
    obtain ⟨L, eL, hp, hm⟩ := dfs_edges hI u n d (fun v h1 h2 => ih v (d + 1) h2 (by omega)) t.container[u].edges (hI.sorted u _ hc)
      (fun e he => (edge_iff hI u _ hc e.1 e.2).1 he) []
    refine ⟨[] :: L, ⟨List.pairwise_cons.2 ⟨fun ws hws => ?_, hp⟩, fun ws => ?_⟩, ?_⟩
    · obtain ⟨e, _, ws', rfl, _⟩ := (hm ws).1 hws
      exact True.intro
    · rw [List.mem_cons, hm]
      cases ws with
      | nil => simp [walk]
      | cons c ws =>
        simp only [reduceCtorEq, false_or]
        rw [walk]
        constructor
        · rintro ⟨e, he, ws', h1, h2⟩
          injection h1 with h1 h3
          subst h1 h3
          obtain ⟨h4, h5⟩ := (edge_iff hI u _ hc e.1 e.2).1 he
          rw [h4, if_neg h5]
          exact h2
        · intro h
          split at h
          · cases h
          · rename_i h0
            exact ⟨(c, tg t u c), (edge_iff hI u _ hc c _).2 ⟨rfl, h0⟩, ws, rfl, h⟩
    · rw [Trie.dfs, hc]
      simp only [Option.bind_eq_bind, Option.bind_some, Option.pure_def] at eL ⊢
      rw [eL]
      simp [nodeOf, walk]

/-- Shorter words first, words of one length in the order of a dictionary. -/
def ShortLt (u v : List Byte) : Prop := u.length < v.length ∨ (u.length = v.length ∧ LexLt u v)

theorem ShortLt_irrefl (u : List Byte) : ¬ ShortLt u u := by
  rintro (h | ⟨_, h⟩)
  · omega
  · exact LexLt_irrefl u h

theorem LexLt_append : ∀ (p q a b : List Byte), p.length = q.length → LexLt p q → LexLt (p ++ a) (q ++ b) := by
  intro p
  induction p with
  | nil =>
    intro q a b h hl
    have : q = [] := List.eq_nil_of_length_eq_zero h.symm
    subst this
    exact absurd hl id
  | cons x p ih =>
    intro q a b h hl
    cases q with
    | nil => simp at h
    | cons y q =>
      rcases hl with hl | ⟨rfl, hl⟩
      · exact Or.inl hl
      · exact Or.inr ⟨rfl, ih q a b (by simpa using h) hl⟩

theorem LexLt_prefix : ∀ (p : List Byte) (c d : Byte), c < d → LexLt (p ++ [c]) (p ++ [d]) := by
  intro p
  induction p with
  | nil => intro c d h; exact Or.inl h
  | cons x p ih => intro c d h; exact Or.inr ⟨rfl, ih c d h⟩

theorem words_bound {w : Nat} {t : Trie α} (hI : Inv w t) (D : List (List Byte)) (hp : D.Pairwise ShortLt) (he : ∀ x ∈ D, (walk t 0 x).isSome = true) :
    D.length ≤ t.container.length := by
  rw [← List.length_map (f := nodeOf t 0)]
  apply nodup_bound
  · rw [List.Nodup, List.pairwise_map]
    refine (List.Pairwise.and_mem.1 hp).imp ?_
    rintro a b ⟨ha, hb, hab⟩ e
    obtain ⟨u, hu⟩ := Option.isSome_iff_exists.1 (he a ha)
    obtain ⟨v, hv⟩ := Option.isSome_iff_exists.1 (he b hb)
    unfold nodeOf at e
    rw [hu, hv] at e
    have e : u = v := e
    subst e
    have := walk_inj hI _ a b u (Nat.le_refl _) hu hv
    subst this
    exact ShortLt_irrefl a hab
  · intro x hx
    obtain ⟨a, ha, rfl⟩ := List.mem_map.1 hx
    obtain ⟨u, hu⟩ := Option.isSome_iff_exists.1 (he a ha)
    unfold nodeOf
    rw [hu]
    exact walk_lt hI a 0 u hI.pos hu

/-- The state of the breadth first search: words done and words in the queue. -/
structure Bfs (t : Trie α) (D Q : List (List Byte)) : Prop where
  ord : (D ++ Q).Pairwise ShortLt
  ex : ∀ x ∈ D ++ Q, (walk t 0 x).isSome = true
  root : [] ∈ D ++ Q
  par : ∀ x c, x ++ [c] ∈ D ++ Q → x ∈ D
  child : ∀ x ∈ D, ∀ c, (walk t 0 (x ++ [c])).isSome = true → x ++ [c] ∈ D ++ Q

theorem walk_child {w : Nat} {t : Trie α} (hI : Inv w t) (q : List Byte) (u : Nat) (hu : walk t 0 q = some u) (n : Node) (hn : t.container[u]? = some n) (c : Byte)
    (v : Nat) : (c, v) ∈ n.edges ↔ walk t 0 (q ++ [c]) = some v := by
  rw [edge_iff hI u n hn, walk_append, hu]
  simp only [Option.bind_some, walk]
  constructor
  · rintro ⟨h1, h2⟩
    rw [h1, if_neg h2]
  · intro h
    split at h
    · cases h
    · rename_i h0
      injection h with h
      exact ⟨h, h ▸ h0⟩

theorem bfs_spec {w : Nat} {t : Trie α} (hI : Inv w t) : ∀ (n : Nat) (D Q : List (List Byte)), Bfs t D Q → t.container.length ≤ n + D.length →
    ∃ L : List (List Byte), t.bfs n (Q.map (fun ws => (nodeOf t 0 ws, ws.length))) (D.map (fun ws => (nodeOf t 0 ws, ws.length))) =
      some (L.map (fun ws => (nodeOf t 0 ws, ws.length))) ∧ L.Pairwise ShortLt ∧ ∀ ws, ws ∈ L ↔ (walk t 0 ws).isSome = true := by
  have hnil : ∀ (n : Nat) (D : List (List Byte)), Bfs t D [] → ∃ L : List (List Byte),
      t.bfs n [] (D.map (fun ws => (nodeOf t 0 ws, ws.length))) =
      some (L.map (fun ws => (nodeOf t 0 ws, ws.length))) ∧ L.Pairwise ShortLt ∧ ∀ ws, ws ∈ L ↔ (walk t 0 ws).isSome = true := by
    intro n D h
    have ho := h.ord
    have hr := h.root
    rw [List.append_nil] at ho hr
    refine ⟨D, by cases n <;> rfl, ho, fun ws => ⟨fun hw => h.ex ws (by simpa using hw), ?_⟩⟩
    -- all prefixes are done
    have : ∀ (k : Nat) (ws : List Byte), ws.length ≤ k → (walk t 0 ws).isSome = true → ws ∈ D := by
      intro k
      induction k with
      | zero =>
        intro ws hk _
        rw [List.eq_nil_of_length_eq_zero (show ws.length = 0 by omega)]
        exact hr
      | succ k ih =>
        intro ws hk hs
        rcases List.eq_nil_or_concat ws with e | ⟨ws', c, e⟩
        · rw [e]; exact hr
        · rw [List.concat_eq_append] at e
          subst e
          have h1 : (walk t 0 ws').isSome = true := by
            rw [walk_append] at hs
            cases hw : walk t 0 ws' with
            | none => rw [hw] at hs; exact hs
            | some u => rfl
          have h2 := h.child ws' (ih ws' (by simp at hk; omega) h1) c hs
          rwa [List.append_nil] at h2
    exact this ws.length ws (Nat.le_refl _)
  intro n
  induction n with
  | zero =>
    intro D Q h hn
    cases Q with
    | nil => exact hnil 0 D h
    | cons q Q =>
      exfalso
      have := words_bound hI (D ++ q :: Q) h.ord h.ex
      simp at this
      omega
  | succ n ih =>
    intro D Q h hn
    cases Q with
    | nil => exact hnil (n + 1) D h
    | cons q Q =>
      obtain ⟨u, hu⟩ := Option.isSome_iff_exists.1 (h.ex q (by simp))
      have hul := walk_lt hI q 0 u hI.pos hu
      have hc : t.container[u]? = some t.container[u] := List.getElem?_eq_getElem hul
      have hqn : nodeOf t 0 q = u := by unfold nodeOf; rw [hu]; rfl
      rw [List.map_cons, Trie.bfs]
      simp only [hqn, hc, Option.bind_eq_bind, Option.bind_some]
      let C : List (List Byte) := t.container[u].edges.map (fun e => q ++ [e.1])
      have hC : t.container[u].edges.map (fun e => (e.2, q.length + 1)) = C.map (fun ws => (nodeOf t 0 ws, ws.length)) := by
        simp only [C, List.map_map]
        apply List.map_congr_left
        intro e he
        have h1 := (walk_child hI q u hu _ hc e.1 e.2).1 he
        simp [nodeOf, h1]
      have hmC : ∀ x, x ∈ C ↔ ∃ c, x = q ++ [c] ∧ (walk t 0 (q ++ [c])).isSome = true := by
        intro x
        simp only [C, List.mem_map]
        constructor
        · rintro ⟨e, he, rfl⟩
          exact ⟨e.1, rfl, by rw [(walk_child hI q u hu _ hc e.1 e.2).1 he]; rfl⟩
        · rintro ⟨c, rfl, h2⟩
          obtain ⟨v, hv⟩ := Option.isSome_iff_exists.1 h2
          exact ⟨(c, v), (walk_child hI q u hu _ hc c v).2 hv, rfl⟩
      have hsplit : (D ++ [q]) ++ (Q ++ C) = (D ++ q :: Q) ++ C := by simp
      have hb : Bfs t (D ++ [q]) (Q ++ C) := by
        refine ⟨?_, ?_, ?_, ?_, ?_⟩
        · rw [hsplit, List.pairwise_append]
          refine ⟨h.ord, ?_, ?_⟩
          · simp only [C]
            rw [List.pairwise_map]
            refine (hI.sorted u _ hc).imp ?_
            intro a b hab
            exact Or.inr ⟨by simp, LexLt_prefix q _ _ hab⟩
          · intro x hx y hy
            obtain ⟨c, rfl, _⟩ := (hmC y).1 hy
            rcases List.eq_nil_or_concat x with e | ⟨p, d, e⟩
            · rw [e]; exact Or.inl (by simp)
            · rw [List.concat_eq_append] at e
              subst e
              have hpD := h.par p d hx
              have hpq := (List.pairwise_append.1 h.ord).2.2 p hpD q (by simp)
              rcases hpq with h1 | ⟨h1, h2⟩
              · exact Or.inl (by simp; omega)
              · exact Or.inr ⟨by simp [h1], LexLt_append p q _ _ h1 h2⟩
        · intro x hx
          rw [hsplit] at hx
          rcases List.mem_append.1 hx with h1 | h1
          · exact h.ex x h1
          · obtain ⟨c, rfl, h2⟩ := (hmC x).1 h1
            exact h2
        · rw [hsplit]; exact List.mem_append_left _ h.root
        · intro x c hx
          rw [hsplit] at hx
          rcases List.mem_append.1 hx with h1 | h1
          · exact List.mem_append_left _ (h.par x c h1)
          · obtain ⟨c', h2, _⟩ := (hmC _).1 h1
            have := (List.append_inj' h2 rfl).1
            rw [this]; simp
        · intro x hx c hs
          rw [hsplit]
          rcases List.mem_append.1 hx with h1 | h1
          · exact List.mem_append_left _ (h.child x h1 c hs)
          · rw [List.mem_singleton] at h1
            subst h1
            exact List.mem_append_right _ ((hmC _).2 ⟨c, rfl, hs⟩)
      obtain ⟨L, eL, hL⟩ := ih (D ++ [q]) (Q ++ C) hb (by simp; omega)
      refine ⟨L, ?_, hL⟩
      rw [← eL, hC]
      congr 1
      · simp
      · simp [hqn]

end Verif.Trie
