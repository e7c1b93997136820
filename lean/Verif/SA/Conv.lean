/-
What a correct result of `Induce_` says about the given order of the LMS positions.
-/
import Verif.SA.Exact2
import Verif.Pigeon

namespace Verif.SA

/-- Positions before LMS positions, with the same letter and the same letter behind, come out in the given order of the LMS positions. -/
theorem induce_keeps {str : List Nat} {mx : Nat} (hT : Text str mx) (rk : Nat → Nat)
    (hpw : (findLMSs (classify str)).Pairwise (fun i j => rk i < rk j)) :
    ∃ sa, induce mx str (classify str) (findLMSs (classify str)) none = some sa ∧ sa.Perm (List.range str.length) ∧
      sa.Pairwise (fun i j => IsLms str (i + 1) → IsLms str (j + 1) → ltr str i = ltr str j → ltr str (i + 1) = ltr str (j + 1) →
        rk (i + 1) < rk (j + 1)) := by
  obtain ⟨sa, e, hp, hk, _⟩ := induce_spec hT
    (R1 := fun i j => (IsLms str (i + 1) → IsLms str (j + 1) → ltr str i = ltr str j → ltr str (i + 1) = ltr str (j + 1) →
      rk (i + 1) < rk (j + 1)) ∧ (IsLms str i → IsLms str j → ltr str i = ltr str j → rk i < rk j))
    (R2 := fun i j => IsLms str (i + 1) → IsLms str (j + 1) → ltr str i = ltr str j → ltr str (i + 1) = ltr str (j + 1) →
      rk (i + 1) < rk (j + 1))
    (fun i j _ _ h => ⟨fun _ _ h' => by omega, fun _ _ h' => by omega⟩)
    (fun i j _ _ _ hi hj => ⟨fun _ h' => by
      have := h'.2.2.1
      rw [Nat.add_sub_cancel, hj] at this
      exact (Bool.noConfusion this), fun h' => by
      have := h'.2.2.2
      rw [hi] at this
      cases this⟩)
    (fun i j hi _ _ _ _ h => ⟨fun h1 h2 _ h4 => h.2 h1 h2 h4, fun h' => by
      have := h'.2.2.2
      rw [hi] at this
      cases this⟩)
    (fun i j _ _ h _ _ h' => by omega)
    (fun i j _ _ _ _ hj _ h' => by
      have := h'.2.2.1
      rw [Nat.add_sub_cancel, hj] at this
      cases this)
    (fun i j hi _ _ _ _ _ h' => by
      have := h'.2.2.1
      rw [Nat.add_sub_cancel, hi] at this
      cases this)
    (fun i j _ _ _ _ h => h.1) none (List.Perm.refl _) (by
      have hmap : ((none : Option (List Nat)).getD (List.range (findLMSs (classify str)).length)).map (fun i => (findLMSs (classify str)).getD i 0) =
          findLMSs (classify str) := by
        apply List.ext_getElem?
        intro i
        rw [Option.getD_none, List.getElem?_map]
        by_cases hi : i < (findLMSs (classify str)).length
        · rw [List.getElem?_range hi, Option.map_some, ← getD_some _ i 0 hi]
        · rw [List.getElem?_eq_none (by rw [List.length_range]; omega), List.getElem?_eq_none (by omega)]
          rfl
      rw [hmap]
      refine (List.Pairwise.and_mem.1 hpw).imp ?_
      rintro a b ⟨ha, hb, h⟩ _
      refine ⟨fun h' => ?_, fun _ _ _ => h⟩
      have h1 := h'.2.2.1
      rw [Nat.add_sub_cancel, ((mem_lms str a).1 ha).2.2.2] at h1
      cases h1)
  exact ⟨sa, e, hp, hk⟩

theorem pairwise_of_mem {α : Type} {R S : α → α → Prop} {l : List α} (h : l.Pairwise R) (hirr : ∀ a, ¬ R a a) (hasym : ∀ a b, R a b → ¬ R b a)
    (hS : l.Pairwise S) {a b : α} (ha : a ∈ l) (hb : b ∈ l) (hab : R a b) : S a b := by
  obtain ⟨x, hx, rfl⟩ := List.mem_iff_getElem.1 ha
  obtain ⟨y, hy, rfl⟩ := List.mem_iff_getElem.1 hb
  rcases Nat.lt_trichotomy x y with hlt | heq | hgt
  · exact List.pairwise_iff_getElem.1 hS x y hx hy hlt
  · subst heq
    exact absurd hab (hirr _)
  · exact absurd (List.pairwise_iff_getElem.1 h y x hy hx hgt) (hasym _ _ hab)

/-- If no two LMS substrings are equal, there is no recursion, and a correct result means that the LMS positions were in order. -/
theorem sais_distinct {str : List Nat} {mx : Nat} (hT : Text str mx)
    (hd : ∀ i j, IsLms str i → IsLms str j → i ≠ j → keyc str true i ≠ keyc str true j) {sa : List Nat} (e : sais str mx = some sa)
    (hs : sa.Pairwise (fun i j => str.drop i < str.drop j)) : LmsOrdered str := by
  obtain ⟨sa0, nm, ch, e1, e2, hch, hp, hk, h0, hle, hz, hlt, heq⟩ := inducedSort_spec hT
  have hcl : classified str = some (classify str) := by rw [classified, if_neg hT.ne_nil]
  have hsort : (findLMSs (classify str)).Pairwise (· < ·) := lmsFrom_sorted _ _
  have hshared : (findLMSs (classify str)).length - 1 - ch = 0 := by
    have hnd : ((findLMSs (classify str)).map nm).Nodup := by
      rw [List.Nodup, List.pairwise_map]
      refine (List.Pairwise.and_mem.1 hsort).imp ?_
      rintro a b ⟨ha, hb, hab⟩ hn
      have ha' := (mem_lms str a).1 ha
      have hb' := (mem_lms str b).1 hb
      have hne := hd a b ha' hb' (by omega)
      by_cases hc : keyc str true b < keyc str true a
      · have := hlt _ _ hb' ha' hc
        omega
      · have := hlt _ _ ha' hb' (list_lt_of hc hne)
        omega
    have := nodup_bound (ch + 1) _ hnd (by
      intro x hx
      obtain ⟨i, hi, rfl⟩ := List.mem_map.1 hx
      have := hle i ((mem_lms str i).1 hi)
      omega)
    rw [List.length_map] at this
    omega
  rw [sais] at e
  simp only [hcl, Option.bind_eq_bind, Option.bind_some, e2, if_pos hshared, Option.pure_def, Option.some.injEq] at e
  subst e
  obtain ⟨sa', e', hp', hk'⟩ := induce_keeps hT id hsort
  rw [e1] at e'
  obtain rfl := Option.some.inj e'
  intro i j hi hj hij hl hl0
  apply list_lt_of
  · intro hc
    have hi1 : i - 1 + 1 = i := Nat.sub_add_cancel hi.1
    have hj1 : j - 1 + 1 = j := Nat.sub_add_cancel hj.1
    have hil := hi.2.1
    have hjl := hj.2.1
    have hlt' : str.drop (j - 1) < str.drop (i - 1) := by
      apply drop_step (by omega) (by omega) hl0.symm
      rw [hi1, hj1]
      exact hc
    have h3 := pairwise_of_mem hs (fun a => List.lt_irrefl _) (fun a b h1 h2 => List.lt_irrefl _ (List.lt_trans h1 h2)) hk'
      (hp.mem_iff.2 (List.mem_range.2 (by omega))) (hp.mem_iff.2 (List.mem_range.2 (by omega))) hlt'
    rw [hi1, hj1] at h3
    have := h3 hj hi hl0.symm hl.symm
    simp only [id] at this
    omega
  · exact drop_ne hi.2.1 (by omega)

end Verif.SA
