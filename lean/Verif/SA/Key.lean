/-
The strings by which the first call of `Induce_` sorts: from a position up to the next LMS position, letters with types.
-/
import Verif.SA.Induce

namespace Verif.SA

instance (str : List Nat) (i : Nat) : Decidable (IsLms str i) := by unfold IsLms; infer_instance

/-- Letter and type; L comes before S. -/
def code (str : List Nat) (i : Nat) : Nat := 2 * ltr str i + (typ str i).toNat

/-- From `i` up to the first LMS position; `cur` is the type before `i`. -/
def keyc (str : List Nat) (cur : Bool) (i : Nat) : List Nat :=
  if _h : i + 1 < str.length then
    if !cur && typ str i then [code str i] else code str i :: keyc str (typ str i) (i + 1)
  else [code str i]
termination_by str.length - i

theorem keyc_last {str : List Nat} {i : Nat} (h : ¬ i + 1 < str.length) (cur : Bool) : keyc str cur i = [code str i] := by
  rw [keyc, dif_neg h]

theorem keyc_stop {str : List Nat} {i : Nat} (h : typ str i = true) : keyc str false i = [code str i] := by
  rw [keyc]
  split
  · rw [h]; rfl
  · rfl

theorem keyc_next {str : List Nat} {cur : Bool} {i : Nat} (h : i + 1 < str.length) (hc : cur = true ∨ typ str i = false) :
    keyc str cur i = code str i :: keyc str (typ str i) (i + 1) := by
  rw [keyc, dif_pos h, if_neg]
  rcases hc with hc | hc <;> rw [hc] <;> simp

theorem keyc_cons (str : List Nat) (cur : Bool) (i : Nat) : ∃ l, keyc str cur i = code str i :: l := by
  rw [keyc]
  split
  · split
    · exact ⟨_, rfl⟩
    · exact ⟨_, rfl⟩
  · exact ⟨_, rfl⟩

theorem code_lt {str : List Nat} {i j : Nat} (h : ltr str i < ltr str j) : code str i < code str j := by
  unfold code
  have h1 : (typ str i).toNat ≤ 1 := Bool.toNat_le _
  omega

theorem code_lt' {str : List Nat} {i j : Nat} (h : ltr str i = ltr str j) (hi : typ str i = false) (hj : typ str j = true) :
    code str i < code str j := by
  unfold code
  rw [h, hi, hj]
  simp

theorem code_eq {str : List Nat} {i j : Nat} : code str i = code str j ↔ ltr str i = ltr str j ∧ typ str i = typ str j := by
  constructor
  · unfold code
    intro h
    generalize ltr str i = a at *
    generalize ltr str j = b at *
    generalize typ str i = s at *
    generalize typ str j = t at *
    cases s <;> cases t <;> simp at h <;> refine ⟨?_, ?_⟩ <;> first | rfl | omega
  · rintro ⟨h1, h2⟩
    unfold code
    rw [h1, h2]

theorem key_lt {str : List Nat} {i j : Nat} (h : code str i < code str j) (c d : Bool) : ¬ keyc str d j < keyc str c i := by
  obtain ⟨l, hl⟩ := keyc_cons str c i
  obtain ⟨l', hl'⟩ := keyc_cons str d j
  rw [hl, hl', List.cons_lt_cons_iff]
  omega

/-- The type before a position. -/
def prev (str : List Nat) (i : Nat) : Bool := if i = 0 then true else typ str (i - 1)

theorem key_indep {str : List Nat} {i : Nat} (h : typ str i = false) (c d : Bool) : keyc str c i = keyc str d i := by
  by_cases hi : i + 1 < str.length
  · rw [keyc_next hi (Or.inr h), keyc_next hi (Or.inr h)]
  · rw [keyc_last hi, keyc_last hi]

/-- The result of `Induce_` is sorted up to the next LMS position, whatever the given order of the LMS positions. -/
theorem induce_keys {str : List Nat} {mx : Nat} (hT : Text str mx) (order : Option (List Nat))
    (hperm : (order.getD (List.range (findLMSs (classify str)).length)).Perm (List.range (findLMSs (classify str)).length)) :
    ∃ sa, induce mx str (classify str) (findLMSs (classify str)) order = some sa ∧ sa.Perm (List.range str.length) ∧
      sa.Pairwise (fun i j => ¬ keyc str true j < keyc str true i) ∧ sa[0]? = some (str.length - 1) := by
  have hR12 : ∀ i j, typ str i = false → typ str j = false → ¬ keyc str (prev str j) j < keyc str (prev str i) i →
      ¬ keyc str true j < keyc str true i := by
    intro i j hi hj h
    rw [key_indep hi true (prev str i), key_indep hj true (prev str j)]
    exact h
  refine induce_spec hT (R1 := fun i j => ¬ keyc str (prev str j) j < keyc str (prev str i) i) ?_ ?_ ?_ ?_ ?_ ?_
    (fun i j _ _ hi hj h => hR12 i j hi hj h) order hperm ?_
  · intro i j _ _ h
    exact key_lt (code_lt h) _ _
  · intro i j _ _ h h1 h2
    exact key_lt (code_lt' h h1 h2) _ _
  · intro i j hi hj hin hjn h hR
    have hp : ∀ i, prev str (i + 1) = typ str i := fun i => by simp [prev]
    rw [keyc_next hin (Or.inr hi), keyc_next hjn (Or.inr hj), List.cons_lt_cons_iff]
    rintro (h1 | ⟨_, h1⟩)
    · rw [code_eq.2 ⟨h, hi.trans hj.symm⟩] at h1
      omega
    · rw [hp, hp] at hR
      exact hR h1
  · intro i j _ _ h
    exact key_lt (code_lt h) _ _
  · intro i j _ _ h h1 h2
    exact key_lt (code_lt' h h1 h2) _ _
  · intro i j hi hj hin hjn h hR
    rw [keyc_next hin (Or.inl rfl), keyc_next hjn (Or.inl rfl), List.cons_lt_cons_iff, hi, hj]
    rintro (h1 | ⟨_, h1⟩)
    · rw [code_eq.2 ⟨h, hi.trans hj.symm⟩] at h1
      omega
    · exact hR h1
  · rw [List.pairwise_map]
    have hlms : ∀ i, i ∈ order.getD (List.range (findLMSs (classify str)).length) → IsLms str ((findLMSs (classify str)).getD i 0) := by
      intro i hi
      rw [hperm.mem_iff, List.mem_range] at hi
      exact (mem_lms str _).1 (List.mem_of_getElem? (getD_some _ i 0 hi))
    have hnd : (order.getD (List.range (findLMSs (classify str)).length)).Nodup := hperm.nodup_iff.2 List.nodup_range
    refine (List.Pairwise.and_mem.1 hnd).imp ?_
    rintro a b ⟨ha, hb, _⟩ hl
    obtain ⟨ha0, _, ha1, ha2⟩ := hlms a ha
    obtain ⟨hb0, _, hb1, hb2⟩ := hlms b hb
    have hpa : prev str ((findLMSs (classify str)).getD a 0) = false := by
      rw [prev, if_neg (by omega), ha1]
    have hpb : prev str ((findLMSs (classify str)).getD b 0) = false := by
      rw [prev, if_neg (by omega), hb1]
    rw [hpa, hpb, keyc_stop ha2, keyc_stop hb2, code_eq.2 ⟨hl, ha2.trans hb2.symm⟩]
    exact List.lt_irrefl _

/-- Comparison of two LMS substrings that disagree in a type. -/
theorem eqLoop_types {str : List Nat} : ∀ (m li ri : Nat), str.length - li = m → li + 1 < str.length → ri + 1 < str.length →
    ltr str li = ltr str ri → typ str li = false → typ str ri = true → eqLoop str (classify str) (li + 1) (ri + 1) false ≠ some true := by
  intro m
  induction m with
  | zero => intro li ri hm h1; omega
  | succ m ih =>
    intro li ri hm h1 h2 he hl hr
    have hcl := classify_length str
    rw [eqLoop, dif_pos h1, getD_some str (ri + 1) 0 h2]
    have e1 : str[li + 1] = ltr str (li + 1) := by
      have := getD_some str (li + 1) 0 h1
      rw [List.getElem?_eq_getElem h1] at this
      exact Option.some.inj this
    simp only
    rw [e1]
    by_cases hne : ltr str (li + 1) = ltr str (ri + 1)
    · rw [if_neg (fun h => h hne), getD_some (classify str) (li + 1) false (by omega)]
      have h3 : typ str (li + 1) = false ∧ typ str (ri + 1) = true := by
        rcases typL h1 hl with h3 | h3 <;> rcases typS h2 hr with h4 | h4
        · omega
        · omega
        · omega
        · exact ⟨h3.2, h4.2⟩
      show (if (!false && typ str (li + 1)) = true then some true else eqLoop str (classify str) (li + 1 + 1) (ri + 1 + 1) (typ str (li + 1))) ≠ _
      rw [h3.1]
      by_cases hl2 : li + 1 + 1 < str.length
      · by_cases hr2 : ri + 1 + 1 < str.length
        · exact ih (li + 1) (ri + 1) (by omega) hl2 hr2 hne h3.1 h3.2
        · rw [eqLoop, dif_pos hl2, List.getElem?_eq_none (by omega)]
          simp
      · rw [eqLoop, dif_neg hl2]
        simp
    · rw [if_pos hne]
      simp

/-- `EqualLMSs_` never leaves the text. -/
theorem eqLoop_spec {str : List Nat} {mx : Nat} (hT : Text str mx) : ∀ (m li ri : Nat) (cur : Bool), str.length - li = m → li ≠ ri →
    li < str.length → ri < str.length →
    ∃ b, eqLoop str (classify str) li ri cur = some b ∧ (b = false → keyc str cur li ≠ keyc str cur ri) ∧
      (b = true → ¬ keyc str cur ri < keyc str cur li → keyc str cur li = keyc str cur ri) := by
  intro m
  induction m with
  | zero => intro li ri cur hm _ h1; omega
  | succ m ih =>
    intro li ri cur hm hne h1 h2
    have hcl := classify_length str
    have e1 : str[li] = ltr str li := by
      have := getD_some str li 0 h1
      rw [List.getElem?_eq_getElem h1] at this
      exact Option.some.inj this
    obtain ⟨tl, htl⟩ := keyc_cons str cur li
    obtain ⟨tr, htr⟩ := keyc_cons str cur ri
    rw [eqLoop, dif_pos h1, getD_some str ri 0 h2]
    simp only
    rw [e1]
    by_cases he : ltr str li = ltr str ri
    · have hin : li + 1 < str.length ∧ ri + 1 < str.length := by
        constructor
        · apply Decidable.byContradiction
          intro hc
          have h3 := (hT.zero_iff h1).2 (by omega)
          have h4 := (hT.zero_iff h2).1 (by omega)
          omega
        · apply Decidable.byContradiction
          intro hc
          have h3 := (hT.zero_iff h2).2 (by omega)
          have h4 := (hT.zero_iff h1).1 (by omega)
          omega
      rw [if_neg (fun h => h he), getD_some (classify str) li false (by omega)]
      show ∃ b, (if (!cur && typ str li) = true then some true else eqLoop str (classify str) (li + 1) (ri + 1) (typ str li)) = some b ∧ _
      by_cases hs : (!cur && typ str li) = true
      · rw [if_pos hs]
        simp only [Bool.and_eq_true, Bool.not_eq_true'] at hs
        refine ⟨true, rfl, by simp, fun _ hlt => ?_⟩
        rw [hs.1] at hlt ⊢
        rw [keyc_stop hs.2] at hlt ⊢
        by_cases ht : typ str ri = true
        · rw [keyc_stop ht, code_eq.2 ⟨he, hs.2.trans ht.symm⟩]
        · exfalso
          apply hlt
          have ht' : typ str ri = false := by simpa using ht
          obtain ⟨l, hl⟩ := keyc_cons str false ri
          rw [hl, List.cons_lt_cons_iff]
          exact Or.inl (code_lt' he.symm ht' hs.2)
      · rw [if_neg hs]
        have hs' : cur = true ∨ typ str li = false := by
          cases hcc : cur with
          | true => exact Or.inl rfl
          | false =>
            right
            rw [hcc] at hs
            simpa using hs
        obtain ⟨b, eb, hb1, hb2⟩ := ih (li + 1) (ri + 1) (typ str li) (by omega) (by omega) hin.1 hin.2
        refine ⟨b, eb, ?_, ?_⟩
        · intro hbf hkk
          have hc : code str li = code str ri := by
            rw [htl, htr] at hkk
            exact (List.cons.inj hkk).1
          have ht := (code_eq.1 hc).2
          rw [keyc_next hin.1 hs', keyc_next hin.2 (by rw [← ht]; exact hs')] at hkk
          have := (List.cons.inj hkk).2
          rw [← ht] at this
          exact hb1 hbf this
        · intro hbt hlt
          by_cases ht : typ str li = typ str ri
          · have hc := code_eq.2 ⟨he, ht⟩
            rw [keyc_next hin.1 hs', keyc_next hin.2 (by rw [← ht]; exact hs'), ← ht, hc] at hlt ⊢
            rw [hb2 hbt]
            intro hlt'
            apply hlt
            rw [List.cons_lt_cons_iff]
            exact Or.inr ⟨rfl, hlt'⟩
          · exfalso
            cases htl' : typ str li with
            | true =>
              have htr' : typ str ri = false := by
                rw [htl'] at ht
                revert ht
                cases typ str ri <;> simp
              apply hlt
              rw [htl, htr, List.cons_lt_cons_iff]
              exact Or.inl (code_lt' he.symm htr' htl')
            | false =>
              have htr' : typ str ri = true := by
                rw [htl'] at ht
                revert ht
                cases typ str ri <;> simp
              rw [htl', hbt] at eb
              exact eqLoop_types _ li ri rfl hin.1 hin.2 he htl' htr' eb
    · rw [if_pos he]
      refine ⟨false, rfl, fun _ hkk => ?_, by simp⟩
      rw [htl, htr] at hkk
      exact he (code_eq.1 (List.cons.inj hkk).1).1

end Verif.SA
