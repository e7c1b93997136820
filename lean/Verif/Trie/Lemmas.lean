/-
Helper facts for the trie.
-/
import Verif.Trie.Model

namespace Verif.Trie

variable {α : Type}

theorem find_emplace (c : Byte) (v : Nat) : ∀ (es : List (Byte × Nat)), es.find? (fun e => e.1 == c) = none → ∀ c',
    (emplace c v es).find? (fun e => e.1 == c') = if c' = c then some (c, v) else es.find? (fun e => e.1 == c') := by
  intro es
  induction es with
  | nil =>
    intro _ c'
    by_cases h : c' = c
    · subst h; simp [emplace]
    · have h2 : c ≠ c' := fun e => h e.symm
      simp [emplace, h, h2]
  | cons e es ih =>
    intro hn c'
    rw [List.find?_cons] at hn
    split at hn
    · cases hn
    · rename_i hne
      have hne' : e.1 ≠ c := by simpa using hne
      unfold emplace
      by_cases h1 : c < e.1
      · rw [if_pos h1, List.find?_cons]
        by_cases h : c' = c
        · subst h; simp
        · have h2 : (c == c') = false := by simpa using fun e => h e.symm
          simp only [h2, if_neg h]
      · rw [if_neg h1, if_neg (fun e' => hne' e'.symm), List.find?_cons, ih hn c', List.find?_cons]
        by_cases h : e.1 = c'
        · have h2 : c' ≠ c := fun e' => hne' (h.trans e')
          simp [h, h2]
        · have h2 : (e.1 == c') = false := by simpa using h
          simp only [h2]

theorem mem_emplace (c : Byte) (v : Nat) : ∀ (es : List (Byte × Nat)) (e : Byte × Nat), e ∈ emplace c v es → e = (c, v) ∨ e ∈ es := by
  intro es
  induction es with
  | nil => intro e he; left; simpa [emplace] using he
  | cons x es ih =>
    intro e he
    unfold emplace at he
    split at he
    · rcases List.mem_cons.1 he with h | h
      · exact Or.inl h
      · exact Or.inr h
    · split at he
      · exact Or.inr he
      · rcases List.mem_cons.1 he with h | h
        · exact Or.inr (by simp [h])
        · rcases ih e h with h | h
          · exact Or.inl h
          · exact Or.inr (by simp [h])

theorem emplace_sorted (c : Byte) (v : Nat) : ∀ (es : List (Byte × Nat)), es.Pairwise (fun a b => a.1 < b.1) →
    (emplace c v es).Pairwise (fun a b => a.1 < b.1) := by
  intro es
  induction es with
  | nil => intro _; simp [emplace]
  | cons x es ih =>
    intro h
    have hx := List.pairwise_cons.1 h
    unfold emplace
    split
    · rename_i hc
      refine List.pairwise_cons.2 ⟨fun b hb => ?_, h⟩
      rcases List.mem_cons.1 hb with e | e
      · rw [e]; exact hc
      · have := hx.1 b e
        simp only [BitVec.lt_def] at *
        omega
    · split
      · exact h
      · rename_i h1 h2
        refine List.pairwise_cons.2 ⟨fun b hb => ?_, ih hx.2⟩
        rcases mem_emplace c v es b hb with e | e
        · rw [e]
          simp only [BitVec.lt_def] at *
          have : c.toNat ≠ x.1.toNat := fun e => h2 (BitVec.eq_of_toNat_eq e)
          omega
        · exact hx.1 b e

theorem find_sorted : ∀ (es : List (Byte × Nat)), es.Pairwise (fun a b => a.1 < b.1) → ∀ e ∈ es, es.find? (fun x => x.1 == e.1) = some e := by
  intro es
  induction es with
  | nil => intro _ e he; cases he
  | cons x es ih =>
    intro h e he
    have hx := List.pairwise_cons.1 h
    rw [List.find?_cons]
    rcases List.mem_cons.1 he with e1 | e1
    · subst e1; simp
    · have h1 := hx.1 e e1
      have h2 : (x.1 == e.1) = false := by
        simp only [beq_eq_false_iff_ne, ne_eq]
        intro e2
        rw [e2] at h1
        exact absurd h1 (by simp)
      simp only [h2]
      exact ih hx.2 e e1

/-- The target of an edge, 0 if there is none. -/
def tg (t : Trie α) (u : Nat) (c : Byte) : Nat := ((t.container[u]?).map (fun n => n.target c)).getD 0

/-- The node reached by a word. -/
def walk (t : Trie α) : Nat → List Byte → Option Nat
  | u, [] => some u
  | u, c :: ws => if tg t u c = 0 then none else walk t (tg t u c) ws

structure Inv (w : Nat) (t : Trie α) : Prop where
  pos : 0 < t.container.length
  up : ∀ u c, tg t u c ≠ 0 → u < tg t u c ∧ tg t u c < t.container.length
  inj : ∀ u c u' c', tg t u c = tg t u' c' → tg t u c ≠ 0 → u = u' ∧ c = c'
  sorted : ∀ (u : Nat) (n : Node), t.container[u]? = some n → n.edges.Pairwise (fun a b => a.1 < b.1)
  nz : ∀ (u : Nat) (n : Node), t.container[u]? = some n → ∀ e ∈ n.edges, e.2 ≠ 0
  reach : ∀ u, u < t.container.length → ∃ ws, walk t 0 ws = some u
  items : ∀ (u : Nat) (n : Node), t.container[u]? = some n → n.item ≠ itemEmpty w → n.item < t.storage.length
  itemInj : ∀ (u : Nat) (n : Node) (u' : Nat) (n' : Node), t.container[u]? = some n → t.container[u']? = some n' → n.item ≠ itemEmpty w → n.item = n'.item → u = u'

theorem tg_lt (t : Trie α) (u : Nat) (c : Byte) (h : tg t u c ≠ 0) : u < t.container.length := by
  rcases Nat.lt_or_ge u t.container.length with h1 | h1
  · exact h1
  · exfalso; apply h; unfold tg; rw [List.getElem?_eq_none h1]; rfl

theorem tg_some (t : Trie α) (u : Nat) (c : Byte) (n : Node) (h : t.container[u]? = some n) : tg t u c = n.target c := by
  unfold tg; rw [h]; rfl

theorem walk_append (t : Trie α) : ∀ (ws vs : List Byte) (u : Nat), walk t u (ws ++ vs) = (walk t u ws).bind (fun v => walk t v vs) := by
  intro ws
  induction ws with
  | nil => intro vs u; rfl
  | cons c ws ih =>
    intro vs u
    rw [List.cons_append, walk, walk]
    split
    · rfl
    · exact ih vs _

theorem walk_ge {w : Nat} {t : Trie α} (hI : Inv w t) : ∀ (ws : List Byte) (u v : Nat), walk t u ws = some v → u + ws.length ≤ v := by
  intro ws
  induction ws with
  | nil => intro u v h; cases h; simp
  | cons c ws ih =>
    intro u v h
    rw [walk] at h
    split at h
    · cases h
    · rename_i h0
      have := ih _ _ h
      have := (hI.up u c h0).1
      simp only [List.length_cons]
      omega

theorem walk_lt {w : Nat} {t : Trie α} (hI : Inv w t) : ∀ (ws : List Byte) (u v : Nat), u < t.container.length → walk t u ws = some v →
    v < t.container.length := by
  intro ws
  induction ws with
  | nil => intro u v hu h; cases h; exact hu
  | cons c ws ih =>
    intro u v hu h
    rw [walk] at h
    split at h
    · cases h
    · rename_i h0
      exact ih _ _ (hI.up u c h0).2 h

/-- A node is reached by one word. -/
theorem walk_inj {w : Nat} {t : Trie α} (hI : Inv w t) : ∀ (n : Nat) (ws vs : List Byte) (v : Nat), ws.length ≤ n → walk t 0 ws = some v →
    walk t 0 vs = some v → ws = vs := by
  intro n
  induction n with
  | zero =>
    intro ws vs v hn h1 h2
    have : ws = [] := List.eq_nil_of_length_eq_zero (by omega)
    subst this
    cases h1
    have := walk_ge hI vs 0 0 h2
    exact (List.eq_nil_of_length_eq_zero (by omega)).symm
  | succ n ih =>
    intro ws vs v hn h1 h2
    rcases List.eq_nil_or_concat ws with e | ⟨ws', c, e⟩
    · subst e
      cases h1
      have := walk_ge hI vs 0 0 h2
      exact (List.eq_nil_of_length_eq_zero (by omega)).symm
    · rcases List.eq_nil_or_concat vs with e' | ⟨vs', c', e'⟩
      · subst e'
        cases h2
        have := walk_ge hI ws 0 0 h1
        exact (List.eq_nil_of_length_eq_zero (by omega))
      · rw [List.concat_eq_append] at e e'
        subst e e'
        rw [walk_append] at h1 h2
        obtain ⟨u, hu, h1⟩ := Option.bind_eq_some_iff.1 h1
        obtain ⟨u', hu', h2⟩ := Option.bind_eq_some_iff.1 h2
        rw [walk] at h1 h2
        split at h1
        · cases h1
        · split at h2
          · cases h2
          · rename_i k1 k2
            have e1 : tg t u c = v := by injection h1
            have e2 : tg t u' c' = v := by injection h2
            obtain ⟨rfl, rfl⟩ := hI.inj u c u' c' (e1.trans e2.symm) k1
            rw [ih ws' vs' u (by simp at hn; omega) hu hu']

theorem inv_empty (w : Nat) : Inv w (Trie.empty w : Trie α) := by
  have h0 : ∀ u (c : Byte), tg (Trie.empty w : Trie α) u c = 0 := by
    intro u c
    unfold tg Trie.empty
    cases u with
    | zero => rfl
    | succ u => rfl
  have h1 : ∀ u n, (Trie.empty w : Trie α).container[u]? = some n → u = 0 ∧ n = ⟨itemEmpty w, []⟩ := by
    intro u n h
    unfold Trie.empty at h
    cases u with
    | zero => simp at h; exact ⟨rfl, h.symm⟩
    | succ u => simp at h
  refine ⟨by simp [Trie.empty], fun u c h => absurd (h0 u c) h, fun u c _ _ _ h => absurd (h0 u c) h, ?_, ?_, ?_, ?_, ?_⟩
  · intro u n h; rw [(h1 u n h).2]; exact .nil
  · intro u n h; rw [(h1 u n h).2]; intro e he; cases he
  · intro u hu
    have : u = 0 := by simp [Trie.empty] at hu; omega
    subst this
    exact ⟨[], rfl⟩
  · intro u n h hi; rw [(h1 u n h).2] at hi; exact absurd rfl hi
  · intro u n u' n' h h' _ _
    rw [(h1 u n h).1, (h1 u' n' h').1]

/-- The item under a word. -/
def look (w : Nat) (t : Trie α) (ws : List Byte) : Option α :=
  (walk t 0 ws).bind (fun u => (t.container[u]?).bind (fun n => if n.item = itemEmpty w then none else t.storage[n.item]?))

/-- What one step of an insertion does. -/
structure Stepped (w : Nat) (t t' : Trie α) (u : Nat) (c : Byte) (v : Nat) : Prop where
  inv : Inv w t'
  tgt : tg t' u c = v
  vnz : v ≠ 0
  len : t'.container.length ≤ t.container.length + 1
  le : t.container.length ≤ t'.container.length
  sto : t'.storage = t.storage
  mono : ∀ x d, tg t x d ≠ 0 → tg t' x d = tg t x d
  new : ∀ x d, tg t' x d ≠ 0 → tg t x d = tg t' x d ∨ (x = u ∧ d = c ∧ v = t.container.length)
  item : ∀ x, x < t.container.length → ((t'.container[x]?).map Node.item) = ((t.container[x]?).map Node.item)
  fresh : ∀ (x : Nat) (n : Node), t.container.length ≤ x → t'.container[x]? = some n → n.item = itemEmpty w
  szlt : v < t'.container.length

theorem walk_mono {t t' : Trie α} (h : ∀ x d, tg t x d ≠ 0 → tg t' x d = tg t x d) : ∀ (ws : List Byte) (u v : Nat), walk t u ws = some v →
    walk t' u ws = some v := by
  intro ws
  induction ws with
  | nil => intro u v h; exact h
  | cons c ws ih =>
    intro u v hw
    rw [walk] at hw ⊢
    split at hw
    · cases hw
    · rename_i h0
      rw [h u c h0, if_neg h0]
      exact ih _ _ hw

theorem step_spec (w : Nat) (t : Trie α) (hI : Inv w t) (u : Nat) (hu : u < t.container.length) (c : Byte)
    (hsz : tg t u c = 0 → t.container.length < 2 ^ w) : ∃ t' v, t.step w u c = some (t', v) ∧ Stepped w t t' u c v := by
  unfold Trie.step
  have hn : t.container[u]? = some t.container[u] := List.getElem?_eq_getElem hu
  rw [hn]
  simp only [Option.bind_eq_bind, Option.bind_some]
  have htg : t.container[u].target c = tg t u c := (tg_some t u c _ hn).symm
  rw [htg]
  by_cases h0 : tg t u c ≠ 0
  · rw [if_pos h0]
    exact ⟨t, _, rfl, hI, rfl, h0, by omega, by omega, rfl, fun _ _ _ => rfl, fun _ _ _ => Or.inl rfl, fun _ _ => rfl,
      (fun x n hx h => by rw [List.getElem?_eq_none hx] at h; cases h), (hI.up u c h0).2⟩
  · rw [if_neg h0, wr_eq _ _ _ hu]
    have h0 : tg t u c = 0 := by omega
    simp only [Option.bind_some, Option.pure_def]
    have hnone : t.container[u].edges.find? (fun e => e.1 == c) = none := by
      cases hf : t.container[u].edges.find? (fun e => e.1 == c) with
      | none => rfl
      | some e =>
        exfalso
        have h1 : t.container[u].target c = e.2 := by unfold Node.target; rw [hf]; rfl
        exact hI.nz u _ hn e (List.mem_of_find?_eq_some hf) (by rw [← h1, htg, h0])
    have hmod : t.container.length % 2 ^ w = t.container.length := Nat.mod_eq_of_lt (hsz h0)
    let t' : Trie α := { t with container := t.container.set u (t.container[u].add w c t.container.length) ++ [⟨itemEmpty w, []⟩] }
    have hlen : t'.container.length = t.container.length + 1 := by simp [t']
    have hget : ∀ x, t'.container[x]? = if x = u then some (t.container[u].add w c t.container.length)
        else if x < t.container.length then t.container[x]? else if x = t.container.length then some ⟨itemEmpty w, []⟩ else none := by
      intro x
      simp only [t', List.getElem?_append, List.length_set, List.getElem?_set]
      by_cases h1 : x < t.container.length
      · rw [if_pos h1]
        by_cases h2 : u = x
        · subst h2; simp [hu]
        · rw [if_neg h2, if_neg (fun e => h2 e.symm), if_pos h1]
      · rw [if_neg h1, if_neg (by omega), if_neg h1]
        by_cases h3 : x = t.container.length
        · rw [if_pos h3, h3]; simp
        · rw [if_neg h3, List.getElem?_eq_none (by simp; omega)]
    have htg' : ∀ x d, tg t' x d = if x = u ∧ d = c then t.container.length else tg t x d := by
      intro x d
      unfold tg
      rw [hget]
      by_cases h1 : x = u
      · subst h1
        rw [if_pos rfl, hn]
        simp only [Option.map_some, Option.getD_some, true_and]
        unfold Node.target Node.add
        simp only
        rw [find_emplace _ _ _ hnone]
        by_cases h2 : d = c
        · rw [if_pos h2, if_pos h2, hmod]; rfl
        · rw [if_neg h2, if_neg h2]
      · rw [if_neg h1, if_neg (show ¬ (x = u ∧ d = c) from fun h => h1 h.1)]
        by_cases h2 : x < t.container.length
        · rw [if_pos h2]
        · rw [if_neg h2, List.getElem?_eq_none (show t.container.length ≤ x by omega)]
          by_cases h3 : x = t.container.length
          · rw [if_pos h3]; rfl
          · rw [if_neg h3]
    have hmono : ∀ x d, tg t x d ≠ 0 → tg t' x d = tg t x d := by
      intro x d h
      rw [htg', if_neg]
      rintro ⟨rfl, rfl⟩
      exact h h0
    have hpos := hI.pos
    have hitem : ∀ x, x < t.container.length → ((t'.container[x]?).map Node.item) = ((t.container[x]?).map Node.item) := by
      intro x hx
      rw [hget]
      by_cases h1 : x = u
      · subst h1; rw [if_pos rfl, hn]; rfl
      · rw [if_neg h1, if_pos hx]
    have hfresh : ∀ (x : Nat) (n : Node), t.container.length ≤ x → t'.container[x]? = some n → n.item = itemEmpty w := by
      intro x n hx h
      rw [hget, if_neg (by omega), if_neg (by omega)] at h
      split at h
      · injection h with h; rw [← h]
      · cases h
    have hold : ∀ (x : Nat) (n : Node), t'.container[x]? = some n → n.item ≠ itemEmpty w → ∃ n0 : Node, t.container[x]? = some n0 ∧ n0.item = n.item := by
      intro x n h hne
      rcases Nat.lt_or_ge x t.container.length with hx | hx
      · have := hitem x hx
        rw [h, List.getElem?_eq_getElem hx] at this
        refine ⟨_, List.getElem?_eq_getElem hx, ?_⟩
        simpa using this.symm
      · exact absurd (hfresh x n hx h) hne
    refine ⟨t', t.container.length, rfl, ⟨by omega, ?_, ?_, ?_, ?_, ?_, ?_, ?_⟩, ?_, by omega, by omega, by omega, rfl, hmono, ?_, hitem, hfresh, by omega⟩
    · intro x d h
      rw [htg'] at h ⊢
      split
      · rename_i h1; rw [h1.1]; omega
      · rename_i h1
        rw [if_neg h1] at h
        have := hI.up x d h
        omega
    · intro x d x' d' he hne
      rw [htg'] at he hne
      rw [htg' x' d'] at he
      by_cases h1 : x = u ∧ d = c
      · rw [if_pos h1] at he
        by_cases h2 : x' = u ∧ d' = c
        · exact ⟨h1.1.trans h2.1.symm, h1.2.trans h2.2.symm⟩
        · rw [if_neg h2] at he
          have := (hI.up x' d' (by omega)).2
          omega
      · rw [if_neg h1] at he hne
        by_cases h2 : x' = u ∧ d' = c
        · rw [if_pos h2] at he
          have := (hI.up x d hne).2
          omega
        · rw [if_neg h2] at he
          exact hI.inj x d x' d' he hne
    · intro x n h
      rw [hget] at h
      split at h
      · injection h with h
        rw [← h]
        exact emplace_sorted _ _ _ (hI.sorted u _ hn)
      · split at h
        · exact hI.sorted x n h
        · split at h
          · injection h with h; rw [← h]; exact .nil
          · cases h
    · intro x n h e he
      rw [hget] at h
      split at h
      · injection h with h
        rw [← h] at he
        rcases mem_emplace _ _ _ _ he with h1 | h1
        · rw [h1]; simp only [hmod]; omega
        · exact hI.nz u _ hn e h1
      · split at h
        · exact hI.nz x n h e he
        · split at h
          · injection h with h; rw [← h] at he; cases he
          · cases h
    · intro x hx
      by_cases h1 : x < t.container.length
      · obtain ⟨ws, hws⟩ := hI.reach x h1
        exact ⟨ws, walk_mono hmono ws 0 x hws⟩
      · obtain ⟨ws, hws⟩ := hI.reach u hu
        refine ⟨ws ++ [c], ?_⟩
        rw [walk_append, walk_mono hmono ws 0 u hws]
        simp only [Option.bind_some, walk]
        have h2 : tg t' u c = t.container.length := by rw [htg', if_pos ⟨rfl, rfl⟩]
        rw [h2, if_neg (by omega)]
        congr 1
        omega
    · intro x n h hne
      obtain ⟨n0, h1, h2⟩ := hold x n h hne
      have := hI.items x n0 h1 (by rw [h2]; exact hne)
      rw [h2] at this
      exact this
    · intro x n x' n' h h' hne he
      obtain ⟨n0, h1, h2⟩ := hold x n h hne
      obtain ⟨n0', h1', h2'⟩ := hold x' n' h' (by rw [← he]; exact hne)
      exact hI.itemInj x n0 x' n0' h1 h1' (by rw [h2]; exact hne) (by rw [h2, h2', he])
    · rw [htg', if_pos ⟨rfl, rfl⟩]
    · intro x d h
      rw [htg'] at h ⊢
      by_cases h1 : x = u ∧ d = c
      · rw [if_pos h1]; right; exact ⟨h1.1, h1.2, rfl⟩
      · rw [if_neg h1]; left; rfl

/-- A walk in the new trie is one in the old, or leads to the new node. -/
theorem walk_new {w : Nat} {t t' : Trie α} {u v : Nat} {c : Byte} (h : Stepped w t t' u c v) : ∀ (ws : List Byte) (x y : Nat), walk t' x ws = some y →
    walk t x ws = some y ∨ (t.container.length ≤ y ∧ v = t.container.length) := by
  intro ws
  induction ws with
  | nil => intro x y hw; exact Or.inl hw
  | cons d ws ih =>
    intro x y hw
    rw [walk] at hw
    split at hw
    · cases hw
    · rename_i h0
      rcases h.new x d h0 with e | ⟨_, _, e⟩
      · rw [walk, e, if_neg h0]
        exact ih _ _ hw
      · rename_i e1 e2
        subst e1 e2
        have := walk_ge h.inv ws _ _ hw
        rw [h.tgt] at this
        right
        exact ⟨by omega, e⟩

theorem look_step {w : Nat} {t t' : Trie α} (hI : Inv w t) {u v : Nat} {c : Byte} (h : Stepped w t t' u c v) (ws : List Byte) :
    look w t' ws = look w t ws := by
  unfold look
  cases hw : walk t 0 ws with
  | some y =>
    rw [walk_mono h.mono ws 0 y hw]
    simp only [Option.bind_some]
    have hy := walk_lt hI ws 0 y hI.pos hw
    have hi := h.item y hy
    rw [List.getElem?_eq_getElem hy, List.getElem?_eq_getElem (show y < t'.container.length by have := h.le; omega)] at hi ⊢
    simp only [Option.map_some, Option.some.injEq] at hi
    simp only [Option.bind_some, hi, h.sto]
  | none =>
    simp only [Option.bind_none]
    cases hw' : walk t' 0 ws with
    | none => rfl
    | some y =>
      simp only [Option.bind_some]
      rcases walk_new h ws 0 y hw' with e | e
      · rw [hw] at e; cases e
      · cases hc : t'.container[y]? with
        | none => rfl
        | some n =>
          simp only [Option.bind_some, h.fresh y n e.1 hc, if_true]

/-- What a number of steps does. -/
structure Pathed (w : Nat) (t t' : Trie α) (u : Nat) (ws : List Byte) (v : Nat) : Prop where
  inv : Inv w t'
  walk : walk t' u ws = some v
  len : t'.container.length ≤ t.container.length + ws.length
  le : t.container.length ≤ t'.container.length
  sto : t'.storage = t.storage
  mono : ∀ x d, tg t x d ≠ 0 → tg t' x d = tg t x d
  look : ∀ vs, look w t' vs = look w t vs

theorem path_spec (w : Nat) : ∀ (key : List Byte) (t : Trie α) (u : Nat), Inv w t → u < t.container.length → t.container.length + key.length ≤ 2 ^ w →
    ∃ t' v, t.path w key u = some (t', v) ∧ Pathed w t t' u key v ∧ v < t'.container.length := by
  intro key
  induction key with
  | nil => intro t u hI hu _; exact ⟨t, u, rfl, ⟨hI, rfl, by simp, by omega, rfl, fun _ _ _ => rfl, fun _ => rfl⟩, hu⟩
  | cons c key ih =>
    intro t u hI hu hsz
    simp only [List.length_cons] at hsz
    obtain ⟨t1, v, e1, s1⟩ := step_spec w t hI u hu c (fun _ => by omega)
    have := s1.len
    obtain ⟨t2, v2, e2, p2, hv2⟩ := ih t1 v s1.inv s1.szlt (by omega)
    refine ⟨t2, v2, ?_, ⟨p2.inv, ?_, ?_, ?_, ?_, ?_, ?_⟩, hv2⟩
    · simp only [Trie.path, e1, Option.bind_eq_bind, Option.bind_some, e2]
    · have : tg t2 u c = v := by rw [p2.mono u c (by rw [s1.tgt]; exact s1.vnz), s1.tgt]
      rw [Trie.walk, this, if_neg s1.vnz]
      exact p2.walk
    · have := p2.len
      simp only [List.length_cons]
      omega
    · have := p2.le; have := s1.le; omega
    · rw [p2.sto, s1.sto]
    · intro x d h
      have h1 := s1.mono x d h
      rw [p2.mono x d (by rw [h1]; exact h), h1]
    · intro vs
      rw [p2.look, look_step hI s1]

/-- The words of the new trie. -/
theorem path_words (w : Nat) : ∀ (key : List Byte) (t : Trie α) (u : Nat) (p : List Byte), Inv w t → walk t 0 p = some u →
    t.container.length + key.length ≤ 2 ^ w → ∀ t' v, t.path w key u = some (t', v) → ∀ vs, (walk t' 0 vs).isSome = true →
    (walk t 0 vs).isSome = true ∨ vs <+: p ++ key := by
  intro key
  induction key with
  | nil => intro t u p _ _ _ t' v e vs h; cases e; exact Or.inl h
  | cons c key ih =>
    intro t u p hI hp hsz t' v e vs h
    simp only [List.length_cons] at hsz
    have hu := walk_lt hI p 0 u hI.pos hp
    obtain ⟨t1, v1, e1, s1⟩ := step_spec w t hI u hu c (fun _ => by omega)
    have hp1 : walk t1 0 (p ++ [c]) = some v1 := by
      rw [walk_append, walk_mono s1.mono p 0 u hp]
      simp only [Option.bind_some, walk, s1.tgt, if_neg s1.vnz]
    simp only [Trie.path, e1, Option.bind_eq_bind, Option.bind_some] at e
    have := s1.len
    rcases ih t1 v1 (p ++ [c]) s1.inv hp1 (by omega) t' v e vs h with h1 | h1
    · obtain ⟨y, hy⟩ := Option.isSome_iff_exists.1 h1
      rcases walk_new s1 vs 0 y hy with h2 | ⟨h2, h3⟩
      · left; rw [h2]; rfl
      · right
        have h4 := walk_lt s1.inv vs 0 y s1.inv.pos hy
        have h5 : y = v1 := by omega
        subst h5
        have := walk_inj s1.inv _ vs (p ++ [c]) y (Nat.le_refl _) hy hp1
        subst this
        exact ⟨key, by simp⟩
    · right
      rw [List.append_assoc] at h1
      exact h1

theorem path_append (w : Nat) : ∀ (key key2 : List Byte) (t : Trie α) (u : Nat),
    t.path w (key ++ key2) u = (t.path w key u).bind (fun x => x.1.path w key2 x.2) := by
  intro key
  induction key with
  | nil => intro key2 t u; rfl
  | cons c key ih =>
    intro key2 t u
    simp only [List.cons_append, Trie.path, Option.bind_eq_bind]
    cases t.step w u c with
    | none => rfl
    | some x => simp only [Option.bind_some, ih]

/-- What `store` does. -/
theorem store_spec (w : Nat) (t : Trie α) (hI : Inv w t) (ws : List Byte) (u : Nat) (hw : walk t 0 ws = some u) (item : α)
    (hsz : ∀ n, t.container[u]? = some n → n.item = itemEmpty w → t.storage.length + 1 < 2 ^ w) :
    ∃ t' i, t.store w u item = some (t', i) ∧ Inv w t' ∧ t'.container.length = t.container.length ∧ t'.storage.length ≤ t.storage.length + 1 ∧
      t'.storage[i]? = some item ∧ (∀ x d, tg t' x d = tg t x d) ∧ ∀ vs, look w t' vs = if vs = ws then some item else look w t vs := by
  have hu := walk_lt hI ws 0 u hI.pos hw
  have hn : t.container[u]? = some t.container[u] := List.getElem?_eq_getElem hu
  unfold Trie.store
  rw [hn]
  simp only [Option.bind_eq_bind, Option.bind_some]
  have hone : ∀ vs, walk t 0 vs = some u → vs = ws := fun vs h => walk_inj hI _ vs ws u (Nat.le_refl _) h hw
  by_cases he : t.container[u].item = itemEmpty w
  · rw [if_pos he, wr_eq _ _ _ hu]
    simp only [Option.bind_some, Option.pure_def]
    have hsz := hsz _ hn he
    have hmod : t.storage.length % 2 ^ w = t.storage.length := Nat.mod_eq_of_lt (by omega)
    have hne : t.storage.length ≠ itemEmpty w := by unfold itemEmpty; omega
    rw [hmod]
    let t' : Trie α := ⟨t.container.set u { t.container[u] with item := t.storage.length }, t.storage ++ [item]⟩
    have hget : ∀ x, t'.container[x]? = if x = u then some { t.container[u] with item := t.storage.length } else t.container[x]? := by
      intro x
      simp only [t', List.getElem?_set]
      by_cases h2 : u = x
      · subst h2; simp [hu]
      · rw [if_neg h2, if_neg (fun e => h2 e.symm)]
    have htg : ∀ x d, tg t' x d = tg t x d := by
      intro x d
      unfold tg
      rw [hget]
      by_cases h2 : x = u
      · subst h2; rw [if_pos rfl, hn]; rfl
      · rw [if_neg h2]
    have hwalk : ∀ vs x, walk t' x vs = walk t x vs := by
      intro vs
      induction vs with
      | nil => intro x; rfl
      | cons d vs ih => intro x; rw [walk, walk, htg, ih]
    have hlen : t'.container.length = t.container.length := by simp [t']
    have hsl : t'.storage.length = t.storage.length + 1 := by simp [t']
    refine ⟨t', t.storage.length, rfl, ⟨by rw [hlen]; exact hI.pos, ?_, ?_, ?_, ?_, ?_, ?_, ?_⟩, hlen, by omega, by simp [t'], htg, ?_⟩
    · intro x d h; rw [htg] at h ⊢; rw [hlen]; exact hI.up x d h
    · intro x d x' d' h1 h2; rw [htg] at h1 h2; rw [htg x' d'] at h1; exact hI.inj x d x' d' h1 h2
    · intro x n h
      rw [hget] at h
      split at h
      · injection h with h; rw [← h]; exact hI.sorted u t.container[u] hn
      · exact hI.sorted x n h
    · intro x n h
      rw [hget] at h
      split at h
      · injection h with h; rw [← h]; exact hI.nz u t.container[u] hn
      · exact hI.nz x n h
    · intro x hx
      rw [hlen] at hx
      obtain ⟨vs, hvs⟩ := hI.reach x hx
      exact ⟨vs, by rw [hwalk]; exact hvs⟩
    · intro x n h hi
      rw [hget] at h
      rw [hsl]
      split at h
      · injection h with h; rw [← h]; simp
      · have := hI.items x n h hi; omega
    · intro x n x' n' h h' hi hii
      rw [hget] at h h'
      split at h
      · injection h with h
        split at h'
        · rename_i k1 k2; rw [k1, k2]
        · have h3 : n'.item = t.storage.length := by rw [← hii, ← h]
          have := hI.items x' n' h' (by rw [h3]; exact hne)
          omega
      · split at h'
        · injection h' with h'
          have h3 : n.item = t.storage.length := by rw [hii, ← h']
          have := hI.items x n h (by rw [h3]; exact hne)
          omega
        · exact hI.itemInj x n x' n' h h' hi hii
    · intro vs
      unfold look
      rw [hwalk]
      by_cases hv : vs = ws
      · subst hv
        rw [if_pos rfl, hw]
        simp only [Option.bind_some]
        rw [hget, if_pos rfl]
        simp only [Option.bind_some, if_neg hne]
        simp [t']
      · rw [if_neg hv]
        cases hx : walk t 0 vs with
        | none => rfl
        | some x =>
          simp only [Option.bind_some]
          have hxu : x ≠ u := fun e => hv (hone vs (e ▸ hx))
          rw [hget, if_neg hxu]
          cases hc : t.container[x]? with
          | none => rfl
          | some n =>
            simp only [Option.bind_some]
            split
            · rfl
            · rename_i hi
              have := hI.items x n hc hi
              simp only [t']
              rw [List.getElem?_append_left this]
  · rw [if_neg he]
    have hil := hI.items u _ hn he
    rw [wr_eq _ _ _ hil]
    simp only [Option.bind_some, Option.pure_def]
    let t' : Trie α := { t with storage := t.storage.set t.container[u].item item }
    have hwalk : ∀ vs x, walk t' x vs = walk t x vs := by
      intro vs
      induction vs with
      | nil => intro x; rfl
      | cons d vs ih => intro x; rw [walk, walk, ih]; rfl
    refine ⟨t', _, rfl, ⟨hI.pos, hI.up, hI.inj, hI.sorted, hI.nz, ?_, ?_, hI.itemInj⟩, rfl, by simp [t'], by simp [t', hil], fun _ _ => rfl, ?_⟩
    · intro x hx
      obtain ⟨vs, hvs⟩ := hI.reach x hx
      exact ⟨vs, by rw [hwalk]; exact hvs⟩
    · intro x n h hi
      simp only [t', List.length_set]
      exact hI.items x n h hi
    · intro vs
      unfold look
      rw [hwalk]
      by_cases hv : vs = ws
      · subst hv
        rw [if_pos rfl, hw]
        simp only [Option.bind_some]
        show (t.container[u]?).bind _ = _
        rw [hn]
        simp only [Option.bind_some, if_neg he]
        simp [t', hil]
      · rw [if_neg hv]
        cases hx : walk t 0 vs with
        | none => rfl
        | some x =>
          simp only [Option.bind_some]
          have hxu : x ≠ u := fun e => hv (hone vs (e ▸ hx))
          show (t.container[x]?).bind _ = _
          cases hc : t.container[x]? with
          | none => rfl
          | some n =>
            simp only [Option.bind_some]
            split
            · rfl
            · rename_i hi
              have hd : t.container[u].item ≠ n.item := fun e => hxu (hI.itemInj x n u _ hc hn hi e.symm)
              simp only [t']
              rw [List.getElem?_set_ne hd]

theorem insert_spec (w : Nat) (t : Trie α) (hI : Inv w t) (key : List Byte) (item : α)
    (hsz : t.container.length + key.length + 1 ≤ 2 ^ w) (hst : t.storage.length + 1 < 2 ^ w) :
    ∃ t' i, t.insert w key item = some (t', i) ∧ Inv w t' ∧ t'.container.length ≤ t.container.length + key.length + 1 ∧
      t'.storage.length ≤ t.storage.length + 1 ∧ t'.storage[i]? = some item ∧
      (∀ vs, (walk t' 0 vs).isSome = true ↔ ((walk t 0 vs).isSome = true ∨ vs <+: key ++ [0#8])) ∧
      ∀ vs, look w t' vs = if vs = key ++ [0#8] then some item else look w t vs := by
  have hp := path_append w key [0#8] t 0
  obtain ⟨t1, v, e1, p1, _⟩ := path_spec w (key ++ [0#8]) t 0 hI hI.pos (by simp; omega)
  obtain ⟨t2, i, e2, i2, l2, s2, g2, m2, k2⟩ := store_spec w t1 p1.inv _ v p1.walk item (fun _ _ _ => by rw [p1.sto]; exact hst)
  refine ⟨t2, i, ?_, i2, ?_, ?_, g2, ?_, ?_⟩
  · rw [e1] at hp
    unfold Trie.insert
    cases ha : t.path w key 0 with
    | none => rw [ha] at hp; cases hp
    | some x =>
      obtain ⟨ta, na⟩ := x
      rw [ha] at hp
      simp only [Option.bind_some, Trie.path, Option.bind_eq_bind] at hp
      simp only [Option.bind_eq_bind, Option.bind_some]
      cases hb : ta.step w na 0#8 with
      | none => rw [hb] at hp; cases hp
      | some y =>
        rw [hb] at hp
        simp only [Option.bind_some, Option.some.injEq] at hp ⊢
        have h1 : t1 = y.1 := congrArg Prod.fst hp
        have h2 : v = y.2 := congrArg Prod.snd hp
        rw [← h1, ← h2]
        exact e2
  · have := p1.len; simp only [List.length_append, List.length_cons, List.length_nil] at this; omega
  · rw [p1.sto] at s2; exact s2
  · have hwalk : ∀ vs x, walk t2 x vs = walk t1 x vs := by
      intro vs
      induction vs with
      | nil => intro x; rfl
      | cons d vs ih => intro x; rw [Trie.walk, Trie.walk, m2, ih]
    intro vs
    rw [hwalk]
    constructor
    · intro h
      exact path_words w _ t 0 [] hI rfl (by simp; omega) t1 v e1 vs h
    · rintro (h | ⟨vs', h⟩)
      · obtain ⟨y, hy⟩ := Option.isSome_iff_exists.1 h
        rw [walk_mono p1.mono vs 0 y hy]; rfl
      · have h1 := p1.walk
        rw [← h, walk_append] at h1
        cases hw : Trie.walk t1 0 vs with
        | none => rw [hw] at h1; cases h1
        | some y => rfl
  · intro vs; rw [k2, p1.look]

theorem down_spec {w : Nat} {t : Trie α} (hI : Inv w t) : ∀ (key : List Byte) (u : Nat), u < t.container.length → t.down key u = some (walk t u key) := by
  intro key
  induction key with
  | nil => intro u _; rfl
  | cons c key ih =>
    intro u hu
    rw [Trie.down, List.getElem?_eq_getElem hu, walk]
    simp only [Option.bind_eq_bind, Option.bind_some]
    rw [← tg_some t u c _ (List.getElem?_eq_getElem hu)]
    by_cases h : tg t u c = 0
    · rw [if_pos h, if_pos h]; rfl
    · rw [if_neg h, if_neg h]; exact ih _ (hI.up u c h).2

theorem traverse'_spec {w : Nat} {t : Trie α} (hI : Inv w t) (key : List Byte) :
    t.traverse' key = some (match walk t 0 (key ++ [0#8]) with
      | none => 2 ^ 64 - 1
      | some u => ((t.container[u]?).map Node.item).getD 0) := by
  unfold Trie.traverse'
  rw [down_spec hI key 0 hI.pos, walk_append]
  simp only [Option.bind_eq_bind, Option.bind_some]
  cases hw : walk t 0 key with
  | none => rfl
  | some u =>
    have hu := walk_lt hI key 0 u hI.pos hw
    simp only [Option.bind_some]
    rw [List.getElem?_eq_getElem hu]
    simp only [Option.bind_some]
    rw [← tg_some t u 0#8 _ (List.getElem?_eq_getElem hu), walk]
    by_cases h : tg t u 0#8 = 0
    · rw [if_pos h, if_pos h]; rfl
    · rw [if_neg h, if_neg h, List.getElem?_eq_getElem (hI.up u _ h).2, walk]
      simp only [Option.bind_some, Option.pure_def]
      rw [List.getElem?_eq_getElem (hI.up u _ h).2]
      rfl

theorem traverse_spec (t : Trie α) (hI : Inv 64 t) (key : List Byte) :
    t.traverse key = some (look 64 t (key ++ [0#8])) := by
  unfold Trie.traverse look
  rw [traverse'_spec hI]
  simp only [Option.bind_eq_bind, Option.bind_some]
  cases hw : walk t 0 (key ++ [0#8]) with
  | none => rfl
  | some u =>
    have hu := walk_lt hI _ 0 u hI.pos hw
    simp only [Option.bind_some]
    rw [List.getElem?_eq_getElem hu]
    simp only [Option.map_some, Option.getD_some, Option.bind_some]
    by_cases h : t.container[u].item = itemEmpty 64
    · rw [if_neg (by rw [h]; simp [itemEmpty]), if_pos h]
      rfl
    · have h' := h
      unfold itemEmpty at h
      rw [if_pos h, if_neg h']
      have hl := hI.items u _ (List.getElem?_eq_getElem hu) h'
      rw [List.getElem?_eq_getElem hl]
      rfl

end Verif.Trie
