/-
Property theorems C72 (the number of comparisons of KMP).
-/
import Verif.PM.Cost
import Verif.PM.Props

namespace Verif.PM

theorem kmpBackC_spec (key : List Byte) (past : Option Byte) (next : List Int) (c : Byte) : ∀ (m : Nat) (pos : Int) (cnt : Nat), (pos + 1).toNat = m →
    -1 ≤ pos →
    (kmpBackC key past next c pos cnt).map Prod.fst = kmpBack key past next c pos ∧
    ∀ p n, kmpBackC key past next c pos cnt = some (p, n) → -1 ≤ p ∧ (n : Int) ≤ cnt + pos - p + 1 := by
  intro m
  induction m using Nat.strongRecOn with
  | ind m ih =>
    intro pos cnt hm hpos
    unfold kmpBackC kmpBack
    by_cases h : pos > -1
    · rw [dif_pos h, dif_pos h]
      cases keyAt key past pos.toNat with
      | none => simp
      | some k =>
        dsimp only
        by_cases hk : k ≠ c
        · rw [if_pos hk, if_pos hk]
          cases next[pos.toNat]? with
          | none => simp
          | some q =>
            dsimp only
            by_cases hq : q < pos ∧ -1 ≤ q
            · rw [dif_pos hq, dif_pos hq]
              obtain ⟨a, b⟩ := ih _ (by omega) q (cnt + 1) rfl hq.2
              refine ⟨a, ?_⟩
              intro p n e
              obtain ⟨b1, b2⟩ := b p n e
              refine ⟨b1, ?_⟩
              omega
            · rw [dif_neg hq, dif_neg hq]; simp
        · rw [if_neg hk, if_neg hk]
          refine ⟨rfl, ?_⟩
          intro p n e
          simp only [Option.some.injEq, Prod.mk.injEq] at e
          obtain ⟨rfl, rfl⟩ := e
          omega
    · rw [dif_neg h, dif_neg h]
      refine ⟨rfl, ?_⟩
      intro p n e
      simp only [Option.some.injEq, Prod.mk.injEq] at e
      obtain ⟨rfl, rfl⟩ := e
      omega

theorem kmpBuildLoopC_spec (key : List Byte) : ∀ (m i : Nat) (n : Int) (next : List Int) (cnt : Nat), key.length - i = m → -1 ≤ n →
    (kmpBuildLoopC key i n next cnt).map Prod.fst = kmpBuildLoop key i n next ∧
    ∀ t k, kmpBuildLoopC key i n next cnt = some (t, k) → (k : Int) ≤ cnt + n + 1 + 3 * m := by
  intro m
  induction m with
  | zero =>
    intro i n next cnt hm hn
    unfold kmpBuildLoopC kmpBuildLoop
    rw [dif_neg (by omega), dif_neg (by omega)]
    refine ⟨rfl, ?_⟩
    intro t k e
    simp only [Option.some.injEq, Prod.mk.injEq] at e
    omega
  | succ m ih =>
    intro i n next cnt hm hn
    have hi : i < key.length := by omega
    unfold kmpBuildLoopC kmpBuildLoop
    rw [dif_pos hi, dif_pos hi, List.getElem?_eq_getElem hi]
    simp only [Option.bind_eq_bind, Option.bind_some]
    obtain ⟨a, b⟩ := kmpBackC_spec key none next key[i] _ n cnt rfl hn
    cases e : kmpBackC key none next key[i] n cnt with
    | none => rw [e] at a; rw [← a]; simp
    | some r =>
      obtain ⟨p, c⟩ := r
      rw [e] at a
      rw [← a]
      obtain ⟨b1, b2⟩ := b p c e
      simp only [Option.map_some, Option.bind_some]
      cases kmpValue key i (p + 1) next with
      | none => simp
      | some v =>
        simp only [Option.bind_some]
        cases wr next (i + 1) v with
        | none => simp
        | some nx =>
          simp only [Option.bind_some]
          obtain ⟨c1, c2⟩ := ih (i + 1) (p + 1) nx (if i + 1 < key.length then c + 1 else c) (by omega) (by omega)
          refine ⟨c1, ?_⟩
          intro t k e
          have := c2 t k e
          split at this <;> omega

theorem kmpLoopC_spec (key : List Byte) (past : Option Byte) (next : List Int) (text : List Byte) : ∀ (m i : Nat) (pos : Int) (acc : List Nat) (cnt : Nat),
    text.length - i = m → -1 ≤ pos →
    (kmpLoopC key past next text i pos acc cnt).map Prod.fst = kmpLoop key past next text i pos acc ∧
    ∀ t k, kmpLoopC key past next text i pos acc cnt = some (t, k) → (k : Int) ≤ cnt + pos + 1 + 2 * m ∧ (0 ≤ pos → (k : Int) ≤ cnt + pos + 2 * m) := by
  intro m
  induction m with
  | zero =>
    intro i n next cnt hm hn
    unfold kmpLoopC kmpLoop
    rw [dif_neg (by omega), dif_neg (by omega)]
    refine ⟨rfl, ?_⟩
    intro t k e
    simp only [Option.some.injEq, Prod.mk.injEq] at e
    omega
  | succ m ih =>
    intro i n acc cnt hm hn
    have hi : i < text.length := by omega
    unfold kmpLoopC kmpLoop
    rw [dif_pos hi, dif_pos hi, List.getElem?_eq_getElem hi]
    simp only [Option.bind_eq_bind, Option.bind_some]
    obtain ⟨a, b⟩ := kmpBackC_spec key past next text[i] _ n cnt rfl hn
    cases e : kmpBackC key past next text[i] n cnt with
    | none => rw [e] at a; rw [← a]; simp
    | some r =>
      obtain ⟨p, c⟩ := r
      rw [e] at a
      rw [← a]
      obtain ⟨b1, b2⟩ := b p c e
      simp only [Option.map_some, Option.bind_some]
      obtain ⟨c1, c2⟩ := ih (i + 1) (p + 1) (if p + 1 = key.length then acc ++ [i + 1 - key.length] else acc) c (by omega) (by omega)
      refine ⟨c1, ?_⟩
      intro t k e
      obtain ⟨c2, c3⟩ := c2 t k e
      have := c3 (by omega)
      omega

/-- The counted functions are the functions of the model, the constructor makes at most `3 |key|` comparisons and the search at most `2 |text|`, whatever
the text, the key and the table. -/
theorem C72_kmp_linear (text key : List Byte) (past : Option Byte) (next : List Int) :
    (kmpBuildC key).map Prod.fst = kmpBuild key ∧ (kmpLoopC key past next text 0 0 [] 0).map Prod.fst = kmpLoop key past next text 0 0 [] ∧
    (∀ t k, kmpBuildC key = some (t, k) → k ≤ 3 * key.length) ∧
    ∀ r k, kmpLoopC key past next text 0 0 [] 0 = some (r, k) → k ≤ 2 * text.length := by
  obtain ⟨a1, a2⟩ := kmpLoopC_spec key past next text _ 0 0 [] 0 rfl (by omega)
  have hw : wr (List.replicate (key.length + 1) (0 : Int)) 0 (-1) = some ((List.replicate (key.length + 1) (0 : Int)).set 0 (-1)) :=
    wr_eq _ _ _ (by simp)
  obtain ⟨b1, b2⟩ := kmpBuildLoopC_spec key _ 0 (-1) ((List.replicate (key.length + 1) (0 : Int)).set 0 (-1)) 0 rfl (by omega)
  refine ⟨?_, a1, ?_, ?_⟩
  · unfold kmpBuildC kmpBuild
    rw [hw]
    exact b1
  · intro t k e
    unfold kmpBuildC at e
    rw [hw] at e
    have := b2 t k e
    omega
  · intro r k e
    have := (a2 r k e).2 (by omega)
    omega

example : ∃ t, kmpBuildC [97#8, 97#8, 98#8] = some (t, 4) ∧
    kmpLoopC [97#8, 97#8, 98#8] (some 0#8) t [97#8, 97#8, 97#8, 98#8, 97#8] 0 0 [] 0 = some ([1], 7) := by
  refine ⟨[-1, -1, 1, 0], ?_⟩
  decide +kernel

end Verif.PM
