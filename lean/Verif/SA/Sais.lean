/-
`InducedSort_` and `Sais_`.
-/
import Verif.SA.Naming

namespace Verif.SA

theorem lms_eq_filter (str : List Nat) : findLMSs (classify str) = (List.range str.length).filter (fun i => decide (IsLms str i)) := by
  have h1 : (findLMSs (classify str)).Pairwise (· < ·) := lmsFrom_sorted _ _
  have h2 : ((List.range str.length).filter (fun i => decide (IsLms str i))).Pairwise (· < ·) := List.pairwise_lt_range.filter _
  apply List.Perm.eq_of_pairwise (le := (· < ·)) (fun a b _ _ h h' => by omega) h1 h2
  refine (List.perm_ext_iff_of_nodup (h1.imp (fun h => by omega)) (h2.imp (fun h => by omega))).2 (fun a => ?_)
  rw [mem_lms, List.mem_filter, List.mem_range, decide_eq_true_eq]
  exact ⟨fun h => ⟨h.2.1, h⟩, fun h => h.2⟩

theorem lms_last {str : List Nat} {mx : Nat} (hT : Text str mx) :
    ∃ l, findLMSs (classify str) = l ++ [str.length - 1] ∧ ∀ i ∈ l, i + 1 < str.length := by
  have h2 := hT.two
  refine ⟨(List.range (str.length - 1)).filter (fun i => decide (IsLms str i)), ?_, ?_⟩
  · rw [lms_eq_filter, show List.range str.length = List.range (str.length - 1) ++ [str.length - 1] by
      rw [← List.range_succ, Nat.succ_eq_add_one, show str.length - 1 + 1 = str.length by omega], List.filter_append]
    simp [hT.last_lms]
  · intro i hi
    have := List.mem_range.1 (List.mem_filter.1 hi).1
    omega

theorem Text.key_zero {str : List Nat} {mx : Nat} (hT : Text str mx) {i : Nat} (hi : i + 1 < str.length) :
    keyc str true (str.length - 1) < keyc str true i := by
  rw [keyc_last (by omega)]
  obtain ⟨l, hl⟩ := keyc_cons str true i
  rw [hl, List.cons_lt_cons_iff]
  left
  apply code_lt
  rw [hT.last]
  exact hT.pos i hi

/-- `InducedSort_`: the array of the first `Induce_` and the names of the LMS positions. -/
theorem inducedSort_sharp {str : List Nat} {mx : Nat} (hT : Text str mx) :
    ∃ sa nm ch, induce mx str (classify str) (findLMSs (classify str)) none = some sa ∧
      inducedSort mx str (classify str) (findLMSs (classify str)) =
        some (sa, (findLMSs (classify str)).map nm, (findLMSs (classify str)).length - 1 - ch) ∧
      ch < (findLMSs (classify str)).length ∧ sa.Perm (List.range str.length) ∧
      sa.Pairwise (fun i j => ¬ keyc str true j < keyc str true i) ∧ sa[0]? = some (str.length - 1) ∧
      (∀ i, IsLms str i → nm i ≤ ch) ∧ nm (str.length - 1) = 0 ∧
      (∀ i j, IsLms str i → IsLms str j → keyc str true i < keyc str true j → nm i < nm j) ∧
      (∀ i j, IsLms str i → IsLms str j → keyc str true i = keyc str true j → nm i = nm j) ∧
      (∀ i j, IsLms str i → IsLms str j → i ≠ j → keyc str true i = keyc str true j → ch + 2 ≤ (findLMSs (classify str)).length) := by
  have hsmall := hT.small
  obtain ⟨sa, e, hp, hk, h0⟩ := induce_keys hT none (List.Perm.refl _)
  obtain ⟨sub, ch, last, e2, hI⟩ := nameLoop_all hT hp hk h0
  have hall : ∀ i, i < str.length → i ∈ sa := fun i hi => hp.mem_iff.2 (List.mem_range.2 hi)
  have hlen : (findLMSs (classify str)).length ≤ str.length := by
    rw [lms_eq_filter]
    have := List.length_filter_le (fun i => decide (IsLms str i)) (List.range str.length)
    rw [List.length_range] at this
    exact this
  have hcnt : ch + 1 ≤ (findLMSs (classify str)).length := by
    rw [lms_eq_filter, ← (hp.filter _).length_eq]
    exact hI.cnt
  have hnm : ∀ i, i < str.length → sub[i]? = some (sub.getD i 0) := fun i hi => getD_some sub i 0 (by rw [hI.len]; exact hi)
  have hle : ∀ i, IsLms str i → sub.getD i 0 ≤ ch := by
    intro i hi
    obtain ⟨c, hc, hle⟩ := hI.le i (hall i hi.2.1) hi
    rw [hnm i hi.2.1] at hc
    cases hc
    exact hle
  have hf : sub.filter (fun c => decide (c ≠ kInf)) = (findLMSs (classify str)).map (fun i => sub.getD i 0) := by
    have hs : sub = (List.range str.length).map (fun i => sub.getD i 0) := by
      apply List.ext_getElem (by simp [hI.len])
      intro i h1 h2
      have h3 := hnm i (by rw [← hI.len]; exact h1)
      rw [List.getElem?_eq_getElem h1] at h3
      simpa using h3
    rw [lms_eq_filter]
    conv => lhs; rw [hs]
    rw [List.filter_map]
    congr 1
    apply List.filter_congr
    intro i hi
    have hi' := List.mem_range.1 hi
    simp only [Function.comp]
    by_cases hl : IsLms str i
    · have := hle i hl
      have hne : sub.getD i 0 ≠ kInf := by
        unfold kInf
        omega
      simp only [hne, hl, ne_eq, not_false_eq_true, decide_true]
    · have := hI.val i hi' (fun hc => hl hc.2)
      rw [hnm i hi'] at this
      have heq : sub.getD i 0 = kInf := Option.some.inj this
      simp only [heq, hl, ne_eq, not_true_eq_false, decide_false]
  refine ⟨sa, fun i => sub.getD i 0, ch, e, ?_, by omega, hp, hk, h0, hle, ?_, ?_, ?_, ?_⟩
  · simp only [inducedSort, e, Option.bind_eq_bind, Option.bind_some, e2, hf, List.length_map, Nat.le_refl, if_true, Nat.sub_self,
      List.replicate_zero, List.append_nil, Option.pure_def]
    congr 3
    rw [show (findLMSs (classify str)).length + (2 ^ 65 - 1 - ch) = ((findLMSs (classify str)).length - 1 - ch) + 2 ^ 64 + 2 ^ 64 by omega,
      Nat.add_mod_right, Nat.add_mod_right, Nat.mod_eq_of_lt (by omega)]
  · have := hI.zero.2
    rw [hnm _ (by have := hT.two; omega)] at this
    exact Option.some.inj this
  · intro i j hi hj hk
    exact hI.lt i j (hall i hi.2.1) (hall j hj.2.1) hi hj hk _ _ (hnm i hi.2.1) (hnm j hj.2.1)
  · intro i j hi hj hk
    have := hI.eq i j (hall i hi.2.1) (hall j hj.2.1) hi hj hk
    rw [hnm i hi.2.1, hnm j hj.2.1] at this
    exact Option.some.inj this
  · intro i j hi hj hij hk
    have := hI.sharp i j (hall i hi.2.1) (hall j hj.2.1) hi hj hij hk
    rw [(hp.filter _).length_eq, ← lms_eq_filter] at this
    exact this

theorem inducedSort_spec {str : List Nat} {mx : Nat} (hT : Text str mx) :
    ∃ sa nm ch, induce mx str (classify str) (findLMSs (classify str)) none = some sa ∧
      inducedSort mx str (classify str) (findLMSs (classify str)) =
        some (sa, (findLMSs (classify str)).map nm, (findLMSs (classify str)).length - 1 - ch) ∧
      ch < (findLMSs (classify str)).length ∧ sa.Perm (List.range str.length) ∧
      sa.Pairwise (fun i j => ¬ keyc str true j < keyc str true i) ∧ sa[0]? = some (str.length - 1) ∧
      (∀ i, IsLms str i → nm i ≤ ch) ∧ nm (str.length - 1) = 0 ∧
      (∀ i j, IsLms str i → IsLms str j → keyc str true i < keyc str true j → nm i < nm j) ∧
      (∀ i j, IsLms str i → IsLms str j → keyc str true i = keyc str true j → nm i = nm j) := by
  obtain ⟨sa, nm, ch, h1, h2, h3, h4, h5, h6, h7, h8, h9, h10, _⟩ := inducedSort_sharp hT
  exact ⟨sa, nm, ch, h1, h2, h3, h4, h5, h6, h7, h8, h9, h10⟩

/-- The string of the names is a text for the recursion. -/
theorem Text.sub {str : List Nat} {mx : Nat} (hT : Text str mx) {nm : Nat → Nat} {ch : Nat} (hch : ch + 1 < (findLMSs (classify str)).length)
    (hle : ∀ i, IsLms str i → nm i ≤ ch) (h0 : nm (str.length - 1) = 0)
    (hlt : ∀ i j, IsLms str i → IsLms str j → keyc str true i < keyc str true j → nm i < nm j) :
    Text ((findLMSs (classify str)).map nm) ch := by
  have hsmall := hT.small
  obtain ⟨l, hl, hli⟩ := lms_last hT
  have hlen : (findLMSs (classify str)).length < str.length := by
    have := lmsFrom_length (classify str) 1 (by
      intro hc
      have := congrArg List.length hc
      rw [classify_length] at this
      have h2 := hT.two
      simp at this
      rw [this] at h2
      simp at h2)
    rw [classify_length] at this
    exact this
  have hmem : ∀ i ∈ l, IsLms str i := fun i hi => (mem_lms str i).1 (by rw [hl]; simp [hi])
  constructor
  · rw [List.length_map]; omega
  · rw [hl, List.map_append]
    simp [ltr, h0]
  · intro i hi
    rw [hl, List.map_append] at hi ⊢
    simp only [List.length_append, List.length_map, List.map_cons, List.map_nil, List.length_cons, List.length_nil] at hi
    have hi' : i < l.length := by omega
    have : ltr (l.map nm ++ [nm (str.length - 1)]) i = nm l[i] := by
      rw [ltr, List.getD_eq_getElem?_getD, List.getElem?_append_left (by rw [List.length_map]; exact hi'), List.getElem?_map,
        List.getElem?_eq_getElem hi']
      rfl
    rw [List.map_cons, List.map_nil, this]
    have h1 := hlt _ _ hT.last_lms (hmem _ (List.getElem_mem hi')) (hT.key_zero (hli _ (List.getElem_mem hi')))
    omega
  · intro x hx
    obtain ⟨i, hi, rfl⟩ := List.mem_map.1 hx
    exact hle i ((mem_lms str i).1 hi)
  · rw [List.length_map]; omega

theorem sub_length {str : List Nat} (h : str ≠ []) (nm : Nat → Nat) : ((findLMSs (classify str)).map nm).length < str.length := by
  rw [List.length_map]
  have := lmsFrom_length (classify str) 1 (by
    intro hc
    have := congrArg List.length hc
    rw [classify_length] at this
    exact h (List.length_eq_zero_iff.1 (by simpa using this)))
  rw [classify_length] at this
  exact this

theorem Text.ne_nil {str : List Nat} {mx : Nat} (hT : Text str mx) : str ≠ [] := by
  intro hc
  have := hT.two
  rw [hc] at this
  simp at this

/-- The test on the lengths in `sais` always succeeds. -/
theorem sais_guard {str : List Nat} {mx : Nat} (hT : Text str mx) {sa sub : List Nat} {shared : Nat}
    (h : inducedSort mx str (classify str) (findLMSs (classify str)) = some (sa, sub, shared)) : sub.length < str.length := by
  obtain ⟨_, nm, _, _, e, _⟩ := inducedSort_spec hT
  rw [e] at h
  cases h
  exact sub_length hT.ne_nil nm

/-- `Sais_` always succeeds, with a permutation that is sorted up to the next LMS positions. -/
theorem sais_total : ∀ (m : Nat) (str : List Nat) (mx : Nat), str.length = m → Text str mx →
    ∃ sa, sais str mx = some sa ∧ sa.Perm (List.range str.length) ∧ sa.Pairwise (fun i j => ¬ keyc str true j < keyc str true i) ∧
      sa[0]? = some (str.length - 1) := by
  intro m
  induction m using Nat.strongRecOn with
  | ind m ih =>
    intro str mx hm hT
    obtain ⟨sa, nm, ch, e1, e2, hch, hp, hk, h0, hle, hz, hlt, heq⟩ := inducedSort_spec hT
    have hcl : classified str = some (classify str) := by rw [classified, if_neg hT.ne_nil]
    have hsm := hT.small
    have hguard := sub_length hT.ne_nil nm
    by_cases hs : (findLMSs (classify str)).length - 1 - ch = 0
    · refine ⟨sa, ?_, hp, hk, h0⟩
      rw [sais]
      simp only [hcl, Option.bind_eq_bind, Option.bind_some, e2, if_pos hs, Option.pure_def]
    · have hT' := hT.sub (ch := ch) (by omega) hle hz hlt
      obtain ⟨ssa, e3, hp3, _⟩ := ih _ (by rw [← hm]; exact hguard) _ ch rfl hT'
      obtain ⟨sa', e4, hp4, hk4, h04⟩ := induce_keys hT (some ssa) (by simpa using hp3)
      refine ⟨sa', ?_, hp4, hk4, h04⟩
      rw [List.length_map] at hguard
      have hmx : ((findLMSs (classify str)).length + (2 ^ 65 - 1 - ((findLMSs (classify str)).length - 1 - ch))) % 2 ^ 64 = ch := by
        rw [show (findLMSs (classify str)).length + (2 ^ 65 - 1 - ((findLMSs (classify str)).length - 1 - ch)) = ch + 2 ^ 64 + 2 ^ 64 by omega,
          Nat.add_mod_right, Nat.add_mod_right, Nat.mod_eq_of_lt (by omega)]
      rw [sais]
      simp only [hcl, Option.bind_eq_bind, Option.bind_some, e2, if_neg hs, List.length_map, dif_pos hguard, hmx, e3, e4]

end Verif.SA
