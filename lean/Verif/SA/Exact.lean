/-
`Induce_` with sorted LMS positions yields the suffix array; so does `Sais_` if its innermost call does.
-/
import Verif.SA.Sais

namespace Verif.SA

theorem drop_cons {str : List Nat} {i : Nat} (h : i < str.length) : str.drop i = ltr str i :: str.drop (i + 1) := by
  rw [List.drop_eq_getElem_cons h]
  congr 1
  have := getD_some str i 0 h
  rw [List.getElem?_eq_getElem h] at this
  exact Option.some.inj this

theorem drop_lt {str : List Nat} {i j : Nat} (hi : i < str.length) (hj : j < str.length) (h : ltr str i < ltr str j) : str.drop i < str.drop j := by
  rw [drop_cons hi, drop_cons hj, List.cons_lt_cons_iff]
  exact Or.inl h

theorem drop_step {str : List Nat} {i j : Nat} (hi : i < str.length) (hj : j < str.length) (h : ltr str i = ltr str j)
    (h' : str.drop (i + 1) < str.drop (j + 1)) : str.drop i < str.drop j := by
  rw [drop_cons hi, drop_cons hj, List.cons_lt_cons_iff]
  exact Or.inr ⟨h, h'⟩

/-- With the same letter, an L suffix comes before an S suffix. -/
theorem drop_LS {str : List Nat} {mx : Nat} (hT : Text str mx) : ∀ (m i j : Nat), str.length - i = m → i < str.length → j < str.length →
    ltr str i = ltr str j → typ str i = false → typ str j = true → str.drop i < str.drop j := by
  intro m
  induction m with
  | zero => intro i j hm hi; omega
  | succ m ih =>
    intro i j hm hi hj he hti htj
    have hin : i + 1 < str.length := (isL_next (isL_iff.2 ⟨hi, hti⟩)).1
    have hjn : j + 1 < str.length := by
      apply Decidable.byContradiction
      intro hc
      have h1 := (hT.zero_iff hj).2 (by omega)
      have h2 := hT.pos i hin
      omega
    apply drop_step hi hj he
    rcases typL hin hti with h1 | h1 <;> rcases typS hjn htj with h2 | h2
    · exact drop_lt hin hjn (by omega)
    · exact drop_lt hin hjn (by omega)
    · exact drop_lt hin hjn (by omega)
    · exact ih (i + 1) (j + 1) (by omega) hin hjn (by omega) h1.2 h2.2

/-- `Induce_` with sorted LMS positions. -/
theorem induce_exact {str : List Nat} {mx : Nat} (hT : Text str mx) (order : Option (List Nat))
    (hperm : (order.getD (List.range (findLMSs (classify str)).length)).Perm (List.range (findLMSs (classify str)).length))
    (hpw : ((order.getD (List.range (findLMSs (classify str)).length)).map (fun i => (findLMSs (classify str)).getD i 0)).Pairwise
      (fun i j => ltr str i = ltr str j → str.drop i < str.drop j)) :
    ∃ sa, induce mx str (classify str) (findLMSs (classify str)) order = some sa ∧ sa.Perm (List.range str.length) ∧
      sa.Pairwise (fun i j => str.drop i < str.drop j) ∧ sa[0]? = some (str.length - 1) :=
  induce_spec hT (fun _ _ hi hj h => drop_lt hi hj h) (fun i j hi hj h h1 h2 => drop_LS hT _ i j rfl hi hj h h1 h2)
    (fun i j _ _ hi hj h h' => drop_step (by omega) (by omega) h h') (fun _ _ hi hj h => drop_lt hi hj h)
    (fun i j hi hj h h1 h2 => drop_LS hT _ i j rfl hi hj h h1 h2) (fun i j _ _ hi hj h h' => drop_step (by omega) (by omega) h h')
    (fun _ _ _ _ _ _ h => h) order hperm hpw

/-- The end of a key. -/
theorem keyc_end {str : List Nat} : ∀ (m i : Nat) (cur : Bool), str.length - i = m → i < str.length →
    ∃ e, (keyc str cur i).length = e + 1 ∧ i + e < str.length ∧ (∀ p, i < p → p < i + e → ¬ IsLms str p) ∧
      (0 < e → IsLms str (i + e) ∨ i + e + 1 = str.length) ∧ (e = 0 → (cur = false ∧ typ str i = true) ∨ i + 1 = str.length) := by
  intro m
  induction m with
  | zero => intro i cur hm h; omega
  | succ m ih =>
    intro i cur hm h
    by_cases hi : i + 1 < str.length
    · by_cases hc : cur = true ∨ typ str i = false
      · obtain ⟨e, h1, h2, h3, h4, h5⟩ := ih (i + 1) (typ str i) (by omega) hi
        refine ⟨e + 1, ?_, by omega, ?_, ?_, by omega⟩
        · rw [keyc_next hi hc, List.length_cons, h1]
        · intro p hp1 hp2
          by_cases hpi : p = i + 1
          · subst hpi
            intro hl
            by_cases he : e = 0
            · omega
            · have h6 := hl.2.2.1
              rw [Nat.add_sub_cancel] at h6
              obtain ⟨l, hk⟩ : ∃ l, keyc str (typ str i) (i + 1) = l ∧ l.length = 1 := ⟨_, rfl, by
                rw [h6, keyc_stop hl.2.2.2]; rfl⟩
              rw [hk.1, hk.2] at h1
              omega
          · exact h3 p (by omega) (by omega)
        · intro _
          by_cases he : e = 0
          · rcases h5 he with h5 | h5
            · left
              rw [he]
              exact ⟨by omega, hi, by rw [show i + (0 + 1) - 1 = i by omega]; exact h5.1, h5.2⟩
            · right; omega
          · rw [show i + (e + 1) = i + 1 + e by omega]
            exact h4 (by omega)
      · have hcf : cur = false := by
          cases cur
          · rfl
          · exact absurd (Or.inl rfl) hc
        have htt : typ str i = true := by
          cases ht : typ str i
          · exact absurd (Or.inr ht) hc
          · rfl
        refine ⟨0, ?_, by omega, by omega, by omega, fun _ => Or.inl ⟨hcf, htt⟩⟩
        rw [hcf, keyc_stop htt]
        rfl
    · exact ⟨0, by rw [keyc_last hi]; rfl, by omega, by omega, by omega, fun _ => Or.inr (by omega)⟩

theorem drop_of_code {str : List Nat} {mx : Nat} (hT : Text str mx) {i j : Nat} (hi : i < str.length) (hj : j < str.length)
    (h : code str i < code str j) : str.drop i < str.drop j := by
  by_cases hl : ltr str i < ltr str j
  · exact drop_lt hi hj hl
  · unfold code at h
    have h1 : ltr str i = ltr str j := by
      have h2 : (typ str j).toNat ≤ 1 := Bool.toNat_le _
      omega
    rw [h1] at h
    have h2 : (typ str i).toNat < (typ str j).toNat := by omega
    cases h3 : typ str i <;> cases h4 : typ str j <;> rw [h3, h4] at h2
    · simp at h2
    · exact drop_LS hT _ i j rfl hi hj h1 h3 h4
    · simp at h2
    · simp at h2

/-- A smaller key means a smaller suffix. -/
theorem drop_of_key {str : List Nat} {mx : Nat} (hT : Text str mx) : ∀ (m i j : Nat) (cur : Bool), str.length - i = m → i < str.length →
    j < str.length → keyc str cur i < keyc str cur j → str.drop i < str.drop j := by
  intro m
  induction m with
  | zero => intro i j cur hm h; omega
  | succ m ih =>
    intro i j cur hm hi hj h
    by_cases hin : i + 1 < str.length
    · by_cases hjn : j + 1 < str.length
      · by_cases hc : code str i = code str j
        · have hce := code_eq.1 hc
          by_cases hs : cur = true ∨ typ str i = false
          · rw [keyc_next hin hs, keyc_next hjn (by rw [← hce.2]; exact hs), List.cons_lt_cons_iff, ← hce.2] at h
            rcases h with h | h
            · omega
            · exact drop_step hi hj hce.1 (ih (i + 1) (j + 1) (typ str i) (by omega) hin hjn h.2)
          · have hcf : cur = false := by
              cases cur
              · rfl
              · exact absurd (Or.inl rfl) hs
            have htt : typ str i = true := by
              cases ht : typ str i
              · exact absurd (Or.inr ht) hs
              · rfl
            rw [hcf, keyc_stop htt, keyc_stop (by rw [← hce.2]; exact htt), hc] at h
            exact absurd h (List.lt_irrefl _)
        · obtain ⟨a, ha⟩ := keyc_cons str cur i
          obtain ⟨b, hb⟩ := keyc_cons str cur j
          rw [ha, hb, List.cons_lt_cons_iff] at h
          rcases h with h | h
          · exact drop_of_code hT hi hj h
          · exact absurd h.1 hc
      · -- nothing is smaller than the terminator
        exfalso
        rw [keyc_last hjn] at h
        obtain ⟨a, ha⟩ := keyc_cons str cur i
        rw [ha, List.cons_lt_cons_iff] at h
        have h1 := code_lt (str := str) (i := j) (j := i) (by rw [(hT.zero_iff hj).2 (by omega)]; exact hT.pos i hin)
        rcases h with h | h <;> omega
    · by_cases hjn : j + 1 < str.length
      · apply drop_lt hi hj
        rw [(hT.zero_iff hi).2 (by omega)]
        exact hT.pos j hjn
      · rw [show i = j by omega] at h
        exact absurd h (List.lt_irrefl _)

/-- Equal keys: the suffixes compare like those behind the keys. -/
theorem drop_of_keyEq {str : List Nat} : ∀ (m i j : Nat) (cur : Bool), str.length - i = m → i < str.length → j < str.length →
    keyc str cur i = keyc str cur j → ∀ e, (keyc str cur i).length = e + 1 → str.drop (i + e) < str.drop (j + e) → str.drop i < str.drop j := by
  intro m
  induction m with
  | zero => intro i j cur hm h; omega
  | succ m ih =>
    intro i j cur hm hi hj hk e he hlt
    cases e with
    | zero => exact hlt
    | succ e =>
      obtain ⟨a, ha⟩ := keyc_cons str cur i
      obtain ⟨b, hb⟩ := keyc_cons str cur j
      have hc : code str i = code str j := by
        rw [ha, hb] at hk
        exact (List.cons.inj hk).1
      have hce := code_eq.1 hc
      have hlen : 1 < (keyc str cur i).length := by omega
      have hnext : ∀ x, 1 < (keyc str cur x).length → x + 1 < str.length ∧ (cur = true ∨ typ str x = false) := by
        intro x hx
        constructor
        · apply Decidable.byContradiction
          intro hcc
          rw [keyc_last hcc] at hx
          simp at hx
        · apply Decidable.byContradiction
          intro hcc
          have hcf : cur = false := by
            cases cur
            · rfl
            · exact absurd (Or.inl rfl) hcc
          have htt : typ str x = true := by
            cases ht : typ str x
            · exact absurd (Or.inr ht) hcc
            · rfl
          rw [hcf, keyc_stop htt] at hx
          simp at hx
      obtain ⟨hin, hs⟩ := hnext i hlen
      obtain ⟨hjn, hs'⟩ := hnext j (by rw [← hk]; exact hlen)
      rw [keyc_next hin hs, List.length_cons] at he
      rw [keyc_next hin hs, keyc_next hjn hs', ← hce.2] at hk
      apply drop_step hi hj hce.1
      exact ih (i + 1) (j + 1) (typ str i) (by omega) hin hjn (List.cons.inj hk).2 e (by omega)
        (by rw [show i + 1 + e = i + (e + 1) by omega, show j + 1 + e = j + (e + 1) by omega]; exact hlt)

end Verif.SA
