/-
Property C104: the sorting of the suffixes takes linear time.
-/
import Verif.SA.TimeLemmas
import Verif.SA.PropsCost

namespace Verif.SA
open Verif.Serial

theorem saisC_costs : ∀ (m : Nat) (str : List Nat) (mx : Nat), str.length = m → Text str mx →
    Costs (saisC str mx) (sais str mx) (51 * str.length + 6 * (mx + 1)) := by
  intro m
  induction m using Nat.strongRecOn with
  | ind m ih =>
    intro str mx hm hT
    obtain ⟨sa, nm, ch, e1, e2, hch, hp, hk, h0, hle, hz, hlt, heq⟩ := inducedSort_spec hT
    have hcl : classified str = some (classify str) := by rw [classified, if_neg hT.ne_nil]
    have hsm := hT.small
    have hguard := sub_length hT.ne_nil nm
    have hhalf := lms_half str
    have hlen : sa.length = str.length := by rw [hp.length_eq, List.length_range]
    have c1 := classifiedC_costs str
    rw [hcl] at c1
    have c2 := lmsFromC_costs (classify str) 1
    rw [classify_length] at c2
    have c3 := inducedSortC_costs hT
    rw [e2] at c3
    rw [List.length_map] at hguard
    by_cases hs : (findLMSs (classify str)).length - 1 - ch = 0
    · rw [saisC, sais]
      simp only [hcl, Option.bind_eq_bind, Option.bind_some, e2, if_pos hs, Option.pure_def]
      refine (c1.map (c2.map (c3.map (L := str.length) ?_))).mono (by omega)
      simp only [if_pos hs]
      exact (Costs.ticks (Costs.pure _)).mono (by omega)
    · have hT' := hT.sub (ch := ch) (by omega) hle hz hlt
      have c4 := ih _ (by rw [← hm, List.length_map]; exact hguard) _ ch rfl hT'
      obtain ⟨ssa, e3, hp3, _⟩ := sais_total _ _ _ rfl hT'
      have hl3 : ssa.length = (findLMSs (classify str)).length := by rw [hp3.length_eq, List.length_range, List.length_map]
      have c5 := induceC_costs mx str (classify str) (findLMSs (classify str)) (some ssa) (fun o h => by cases h; exact hl3)
      have hmx : ((findLMSs (classify str)).length + (2 ^ 65 - 1 - ((findLMSs (classify str)).length - 1 - ch))) % 2 ^ 64 = ch := by
        rw [show (findLMSs (classify str)).length + (2 ^ 65 - 1 - ((findLMSs (classify str)).length - 1 - ch)) = ch + 2 ^ 64 + 2 ^ 64 by omega,
          Nat.add_mod_right, Nat.add_mod_right, Nat.mod_eq_of_lt (by omega)]
      rw [e3, List.length_map] at c4
      rw [saisC, sais]
      simp only [hcl, Option.bind_eq_bind, Option.bind_some, e2, if_neg hs, List.length_map, dif_pos hguard, hmx, e3]
      refine (c1.map (c2.map (c3.map (L := str.length + ((findLMSs (classify str)).length + (51 * (findLMSs (classify str)).length + 6 * (ch + 1) +
        (4 * str.length + 3 * (mx + 1) + 3 * (findLMSs (classify str)).length)))) ?_))).mono (by omega)
      simp only [if_neg hs, List.length_map]
      rw [dif_pos hguard]
      refine (Costs.ticks ?_).mono (Nat.add_le_add_right (Nat.le_of_eq hlen) _)
      refine Costs.ticks ?_
      rw [show ((lmsFrom (classify str) 1).length + (2 ^ 65 - 1 - ((findLMSs (classify str)).length - 1 - ch))) % 2 ^ 64 = ch from hmx]
      exact c4.map c5

/-- C104: for every non-empty text of `n` bytes 1..127 the sorting of the suffixes takes at most `51 * (n + 1) + 1536` steps: rounds of loops and
elements of vectors made or copied, over all levels of the recursion. The counting program computes the same array. -/
theorem C104_linear (str : List Byte) (h : Plain str) (h0 : str ≠ []) (hmax : str.length + 1 < 2 ^ 31) :
    ∃ sa k, saisC (saisStr str) 0xff 0 = some (sa, k) ∧ sais (saisStr str) 0xff = some sa ∧ k ≤ 51 * (str.length + 1) + 1536 := by
  have hT := saisStr_text h h0 hmax
  obtain ⟨sa, e, -⟩ := sais_total _ _ _ rfl hT
  obtain ⟨h1, h2⟩ := saisC_costs _ _ _ rfl hT 0
  rw [e] at h1
  obtain ⟨⟨a, k⟩, hc, rfl⟩ := Option.map_eq_some_iff.1 h1
  refine ⟨a, k, hc, e, ?_⟩
  have h3 : k ≤ 0 + (51 * (saisStr str).length + 6 * (255 + 1)) := h2 _ hc
  rw [saisStr_length, Nat.zero_add] at h3
  exact h3

/-- "banana": the hypotheses hold, and the single level takes 870 steps, of which 768 are for the 256 buckets. -/
example : Plain [98, 97, 110, 97, 110, 97] ∧ (saisC (saisStr [98, 97, 110, 97, 110, 97]) 0xff 0).map (·.2) = some 870 := by decide +kernel
/-- "mississippi": two levels, 1829 steps. -/
example : (saisC (saisStr [109, 105, 115, 115, 105, 115, 115, 105, 112, 112, 105]) 0xff 0).map (·.2) = some 1829 := by decide +kernel

end Verif.SA
