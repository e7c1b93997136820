/-
A search for a base that never ends: once the list of free elements is empty (`front = 0`, element 0 in use), `_find_base` stays at element 0.
-/
import Verif.FO.Insert

namespace Verif.FO

open PM (Byte)

/-- The search is stuck at an element that refers to itself and is not the front. -/
def stuck (s : Builder) (transes : List Nat) (index : Nat) : Bool :=
  decide (tryBase s transes index = some none) && decide (s.next[index]? = some index) && decide (index ≠ s.front)

theorem findBase_stuck (s : Builder) (ts : List Nat) (i : Nat) (h : stuck s ts i = true) : ∀ fuel, findBase fuel s ts i = .stop := by
  simp only [stuck, Bool.and_eq_true, decide_eq_true_eq] at h
  obtain ⟨⟨h1, h2⟩, h3⟩ := h
  intro fuel
  induction fuel with
  | zero => rfl
  | succ n ih =>
    unfold findBase
    simp only [h1, lift_some, ok_bind, h2, if_neg h3, ih]

/-- The search with a test for being stuck; `ub` when the number of steps does not suffice. -/
def findBase' : (fuel : Nat) → Builder → List Nat → (index : Nat) → Res (Builder × Nat)
  | 0, _, _, _ => .ub
  | fuel + 1, s, transes, index =>
    if stuck s transes index then .stop else do
    match ← lift (tryBase s transes index) with
    | some b => .ok (s, b)
    | none => do
      let n ← lift s.next[index]?
      let s ← if n = s.front then s.expand else .ok s
      let n ← lift s.next[index]?
      findBase' fuel s transes n

theorem findBase'_agree : ∀ (fuel k : Nat) (s : Builder) (ts : List Nat) (i : Nat), findBase' fuel s ts i ≠ .ub →
    findBase (fuel + k) s ts i = findBase' fuel s ts i := by
  intro fuel
  induction fuel with
  | zero => intro k s ts i h; exact absurd rfl h
  | succ n ih =>
    intro k s ts i h
    unfold findBase' at h ⊢
    by_cases hs : stuck s ts i = true
    · rw [if_pos hs]; exact findBase_stuck s ts i hs _
    · rw [if_neg hs] at h ⊢
      rw [show n + 1 + k = (n + k) + 1 by omega]
      unfold findBase
      cases ht : tryBase s ts i with
      | none => rfl
      | some o =>
        simp only [ht, lift_some, ok_bind] at h ⊢
        cases o with
        | some b => rfl
        | none =>
          simp only at h ⊢
          cases hn : s.next[i]? with
          | none => rfl
          | some x =>
            simp only [hn, lift_some, ok_bind] at h ⊢
            by_cases hf : x = s.front
            · simp only [if_pos hf] at h ⊢
              cases he : s.expand with
              | ub => rfl
              | stop => rfl
              | ok s1 =>
                simp only [he, ok_bind] at h ⊢
                cases hn1 : s1.next[i]? with
                | none => rfl
                | some y =>
                  simp only [hn1, lift_some, ok_bind] at h ⊢
                  exact ih k _ _ _ h
            · simp only [if_neg hf, ok_bind, hn, lift_some] at h ⊢
              exact ih k _ _ _ h

/-- One of the two outcomes without a value. -/
def bad (b : Bool) {α : Type} : Res α := if b then .stop else .ub

/-- `fb` gives what `fb'` gives, except where that is `bad b`. -/
def Agree (b : Bool) (fb fb' : Builder → List Nat → Nat → Res (Builder × Nat)) : Prop :=
  ∀ s ts i, fb' s ts i ≠ bad b → fb s ts i = fb' s ts i

theorem insertTrans_agree {bd : Bool} {fb fb' : Builder → List Nat → Nat → Res (Builder × Nat)} (h : Agree bd fb fb') (s : Builder) (st ns : Nat)
    (hu : insertTrans fb' s st ns ≠ bad bd) : insertTrans fb s st ns = insertTrans fb' s st ns := by
  unfold insertTrans at hu ⊢
  cases hc : lift (checkAt s.check ns) with
  | ub => rfl
  | stop => rfl
  | ok c =>
    simp only [hc, ok_bind] at hu ⊢
    cases hb : lift s.base[st]? with
    | ub => rfl
    | stop => rfl
    | ok b =>
      simp only [hb, ok_bind] at hu ⊢
      by_cases hk : b = kEmpty
      · simp only [if_pos hk] at hu ⊢
        have : fb' s [ns] s.front ≠ bad bd := by
          intro e; rw [e] at hu; cases bd <;> exact hu rfl
        rw [h _ _ _ this]
      · simp only [if_neg hk] at hu ⊢
        cases hut : lift s.usedTrans[b ^^^ c]? with
        | ub => rfl
        | stop => rfl
        | ok u =>
          simp only [hut, ok_bind] at hu ⊢
          cases u with
          | false => rfl
          | true =>
            simp only [if_true] at hu ⊢
            cases hg : lift (s.getTranses st) with
            | ub => rfl
            | stop => rfl
            | ok ts =>
              simp only [hg, ok_bind] at hu ⊢
              have : fb' s (ts ++ [ns]) s.front ≠ bad bd := by
                intro e; rw [e] at hu; cases bd <;> exact hu rfl
              rw [h _ _ _ this]

theorem chainLoop_agree {bd : Bool} {fb fb' : Builder → List Nat → Nat → Res (Builder × Nat)} (h : Agree bd fb fb') (lrs : List Nat) (i : Nat) :
    ∀ (k : Nat) (s : Builder), chainLoop fb' lrs i s k ≠ bad bd → chainLoop fb lrs i s k = chainLoop fb' lrs i s k := by
  intro k
  induction k using Nat.strongRecOn with
  | _ k ih =>
    intro s hu
    unfold chainLoop at hu ⊢
    by_cases hk : k < i + 1
    · simp only [dif_pos hk] at hu ⊢
      cases ht : s.transition k (i + 1) with
      | none => rfl
      | some t =>
        simp only [ht] at hu ⊢
        by_cases h0 : t = 0
        · simp only [if_pos h0] at hu ⊢
          have : insertTrans fb' s k (i + 1) ≠ bad bd := by
            intro e; rw [e] at hu; cases bd <;> exact hu rfl
          rw [insertTrans_agree h _ _ _ this]
          cases hi : insertTrans fb' s k (i + 1) with
          | ub => rfl
          | stop => rfl
          | ok s1 =>
            simp only [hi] at hu ⊢
            cases hl : lrs[k]? with
            | none => rfl
            | some k' =>
              simp only [hl] at hu ⊢
              by_cases hk' : k' < k
              · simp only [dif_pos hk'] at hu ⊢
                exact ih k' hk' _ hu
              · simp only [dif_neg hk']
        · simp only [if_neg h0]
    · simp only [dif_neg hk]

theorem letterLoop_agree {bd : Bool} {fb fb' : Builder → List Nat → Nat → Res (Builder × Nat)} (h : Agree bd fb fb') :
    ∀ (n i : Nat) (lrs : List Nat) (s : Builder), letterLoop fb' n i lrs s ≠ bad bd → letterLoop fb n i lrs s = letterLoop fb' n i lrs s := by
  intro n
  induction n with
  | zero => intros; rfl
  | succ n ih =>
    intro i lrs s hu
    unfold letterLoop at hu ⊢
    cases h1 : lift (wr lrs 0 (i + 1)) with
    | ub => rfl
    | stop => rfl
    | ok l1 =>
      simp only [h1, ok_bind] at hu ⊢
      cases h2 : lift l1[i]? with
      | ub => rfl
      | stop => rfl
      | ok k =>
        simp only [h2, ok_bind] at hu ⊢
        have : chainLoop fb' l1 i s k ≠ bad bd := by
          intro e; rw [e] at hu; cases bd <;> exact hu rfl
        rw [chainLoop_agree h _ _ _ _ this]
        cases h3 : chainLoop fb' l1 i s k with
        | ub => rfl
        | stop => rfl
        | ok x =>
          obtain ⟨s1, k1⟩ := x
          simp only [h3, ok_bind] at hu ⊢
          cases h4 : lift (if k1 = i + 1 then some 0 else s1.transition k1 (i + 1)) with
          | ub => rfl
          | stop => rfl
          | ok v =>
            simp only [h4, ok_bind] at hu ⊢
            cases h5 : lift (wr l1 (i + 1) v) with
            | ub => rfl
            | stop => rfl
            | ok l2 =>
              simp only [h5, ok_bind] at hu ⊢
              exact ih _ _ _ hu

theorem buildWith_agree {bd : Bool} {fb fb' : Builder → List Nat → Nat → Res (Builder × Nat)} (h : Agree bd fb fb') (text : List Byte)
    (hu : buildWith fb' text ≠ bad bd) : buildWith fb text = buildWith fb' text := by
  unfold buildWith at hu ⊢
  cases h1 : expandLoop text.length text.length (initial text) with
  | ub => rfl
  | stop => rfl
  | ok s =>
    simp only [h1, ok_bind] at hu ⊢
    cases h2 : lift (s.setNext 0 0) with
    | ub => rfl
    | stop => rfl
    | ok s1 =>
      simp only [h2, ok_bind] at hu ⊢
      have : letterLoop fb' text.length 0 (List.replicate (text.length + 1) 0) s1 ≠ bad bd := by
        intro e; rw [e] at hu; cases bd <;> exact hu rfl
      rw [letterLoop_agree h _ _ _ _ this]

theorem findBase_mono : ∀ (f k : Nat) (s : Builder) (ts : List Nat) (i : Nat), findBase f s ts i ≠ .stop →
    findBase (f + k) s ts i = findBase f s ts i := by
  intro f
  induction f with
  | zero => intro k s ts i h; exact absurd rfl h
  | succ n ih =>
    intro k s ts i h
    rw [show n + 1 + k = (n + k) + 1 by omega]
    unfold findBase at h ⊢
    cases ht : tryBase s ts i with
    | none => rfl
    | some o =>
      simp only [ht, lift_some, ok_bind] at h ⊢
      cases o with
      | some b => rfl
      | none =>
        simp only at h ⊢
        cases hn : s.next[i]? with
        | none => rfl
        | some x =>
          simp only [hn, lift_some, ok_bind] at h ⊢
          by_cases hf : x = s.front
          · simp only [if_pos hf] at h ⊢
            cases he : s.expand with
            | ub => rfl
            | stop => rfl
            | ok s1 =>
              simp only [he, ok_bind] at h ⊢
              cases hn1 : s1.next[i]? with
              | none => rfl
              | some y =>
                simp only [hn1, lift_some, ok_bind] at h ⊢
                exact ih k _ _ _ h
          · simp only [if_neg hf, ok_bind, hn, lift_some] at h ⊢
            exact ih k _ _ _ h

theorem letterLoop_add (fb : Builder → List Nat → Nat → Res (Builder × Nat)) (b : Nat) : ∀ (a i : Nat) (lrs : List Nat) (s : Builder),
    letterLoop fb (a + b) i lrs s = (letterLoop fb a i lrs s).bind (fun x => letterLoop fb b (i + a) x.2 x.1) := by
  intro a
  induction a with
  | zero => intro i lrs s; rw [Nat.zero_add]; rfl
  | succ a ih =>
    intro i lrs s
    rw [show a + 1 + b = (a + b) + 1 by omega]
    rw [letterLoop.eq_2 fb i lrs s (a + b), letterLoop.eq_2 fb i lrs s a]
    cases h1 : lift (wr lrs 0 (i + 1)) with
    | ub => rfl
    | stop => rfl
    | ok l1 =>
      simp only [ok_bind]
      cases h2 : lift l1[i]? with
      | ub => rfl
      | stop => rfl
      | ok k =>
        simp only [ok_bind]
        cases h3 : chainLoop fb l1 i s k with
        | ub => rfl
        | stop => rfl
        | ok x =>
          obtain ⟨s1, k1⟩ := x
          simp only [ok_bind]
          cases h4 : lift (if k1 = i + 1 then some 0 else s1.transition k1 (i + 1)) with
          | ub => rfl
          | stop => rfl
          | ok v =>
            simp only [ok_bind]
            cases h5 : lift (wr l1 (i + 1) v) with
            | ub => rfl
            | stop => rfl
            | ok l2 =>
              simp only [ok_bind]
              rw [ih, show i + 1 + a = i + (a + 1) by omega]

theorem letterLoop_comp {fb : Builder → List Nat → Nat → Res (Builder × Nat)} {a b c i i' : Nat} {lrs lrs' : List Nat} {s s' : Builder}
    (h1 : letterLoop fb a i lrs s = .ok (s', lrs')) (h2 : letterLoop fb b i' lrs' s' = .stop) (hc : c = a + b) (hi : i' = i + a) :
    letterLoop fb c i lrs s = .stop := by
  subst hc hi
  rw [letterLoop_add, h1]
  exact h2

/-- A text whose search gets stuck is never finished, with any number of steps. -/
theorem build_stuck (f : Nat) (text : List Byte) (h : buildWith (findBase' f) text = .stop) : ∀ fuel o, build fuel text ≠ .ok o := by
  intro fuel o e
  have h1 : build (fuel + f) text = .ok o := by
    unfold build
    rw [buildWith_agree (bd := true) (fb' := findBase fuel) (fun s ts i hs => findBase_mono fuel f s ts i hs) text]
    · exact e
    · unfold build at e
      rw [e]; simp [bad]
  have h2 : build (fuel + f) text = .stop := by
    unfold build
    rw [Nat.add_comm]
    rw [buildWith_agree (bd := false) (fb' := findBase' f) (fun s ts i hs => findBase'_agree f fuel s ts i hs) text]
    · exact h
    · rw [h]; simp [bad]
  rw [h1] at h2
  cases h2

end Verif.FO
