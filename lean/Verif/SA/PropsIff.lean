/-
Property theorem C62 (SuffixArray.hpp), continued: exactly when the array is correct, for texts without recursion.
-/
import Verif.SA.Conv
import Verif.SA.Props

namespace Verif.SA
open Verif.Serial

/-- If no two valleys are followed by the same letters up to another valley, the array is correct if and only if valleys with the same letter and
the same letter before are in suffix order from left to right. Missing: the converse for texts with equal letters between valleys. -/
theorem C62_iff_partial (str : List Byte) (h : Plain str) (h0 : str ≠ []) (hmax : str.length + 1 < 2 ^ 31)
    (hd : ∀ i j e, i ≠ j → 0 < e → IsValley str i → IsValley str j → IsValley str (i + e) → IsValley str (j + e) →
      ∃ t, t ≤ e ∧ str[i + t]? ≠ str[j + t]?) :
    ∃ o p, build str = some o ∧ o.str = str ∧ Holds o.sa p ∧
      (IsSuffixArray str p ↔ ∀ i j, IsValley str i → IsValley str j → i < j → str[i]? = str[j]? → str[i - 1]? = str[j - 1]? →
        str.drop i < str.drop j) := by
  have hT := saisStr_text h h0 hmax
  have hl := saisStr_length str
  obtain ⟨sa, e, hp, hk, hz⟩ := sais_total _ _ _ rfl hT
  obtain ⟨v, w, p, la, e1, _, e2, hp', hh, _⟩ := build_of h0 hmax e hp hz
  refine ⟨_, p, e1, rfl, hh, ?_, ?_⟩
  · intro hs i j hi hj hij hl1 hl2
    have hil := hi.2.1
    have hjl := hj.2.1
    have hord : LmsOrdered (saisStr str) := by
      refine sais_distinct hT ?_ e ?_
      · intro a b ha hb hab hK
        have hal := ha.2.1
        have hbl := hb.2.1
        have hloc : ∀ a b, IsLms (saisStr str) a → IsLms (saisStr str) b → a ≠ b → keyc (saisStr str) true a = keyc (saisStr str) true b →
            (saisStr str).drop b < (saisStr str).drop a → False := by
          intro a b ha hb hab hK hlt
          obtain ⟨c, hc, h1, h2, h3, h4, h5⟩ := keys_local hT ha.2.1 hb.2.1 hab (by rw [hK]; exact List.lt_irrefl _) hlt
          obtain ⟨t, ht, hne⟩ := hd a b c hab hc ((lms_iff h h0 hmax (by omega)).1 ha) ((lms_iff h h0 hmax (by omega)).1 hb)
            ((lms_iff h h0 hmax (by omega)).1 h1) ((lms_iff h h0 hmax (by omega)).1 h2)
          have h6 := h5 t ht
          rw [saisStr_ltr h (by omega), saisStr_ltr h (by omega)] at h6
          apply hne
          rw [List.getElem?_eq_getElem (by omega), List.getElem?_eq_getElem (by omega), BitVec.toNat_inj.1 h6]
        by_cases hc : (saisStr str).drop b < (saisStr str).drop a
        · exact hloc a b ha hb hab hK hc
        · exact hloc b a hb ha (Ne.symm hab) hK.symm (list_lt_of hc (drop_ne hal hab))
      · rw [e2, List.pairwise_cons]
        have hmem : ∀ x ∈ p, x < str.length := fun x hx => List.mem_range.1 (hp'.mem_iff.1 hx)
        refine ⟨?_, ?_⟩
        · intro x hx
          have hx' := hmem x hx
          apply drop_lt (by omega) (by omega)
          rw [(hT.zero_iff (j := str.length) (by omega)).2 (by omega)]
          exact hT.pos x (by omega)
        · refine (List.Pairwise.and_mem.1 hs.2).imp ?_
          rintro a b ⟨ha, hb, hab⟩
          have := hmem a ha
          have := hmem b hb
          exact (saisStr_lt h (by omega) (by omega)).2 hab
    rw [List.getElem?_eq_getElem (by omega), List.getElem?_eq_getElem (by omega)] at hl1 hl2
    have h3 := hord i j ((lms_iff h h0 hmax hil).2 hi) ((lms_iff h h0 hmax hjl).2 hj) hij
      (by rw [saisStr_ltr h hil, saisStr_ltr h hjl, Option.some.inj hl1])
      (by rw [saisStr_ltr h (by omega), saisStr_ltr h (by omega), Option.some.inj hl2])
    exact (saisStr_lt h (by omega) (by omega)).1 h3
  · intro hv
    obtain ⟨o', p', e1', _, hh', hs⟩ := C62_exact_partial str h h0 hmax hv
    rw [e1] at e1'
    obtain rfl := Option.some.inj e1'
    have : p' = p := by
      apply List.ext_getElem?
      intro i
      have hlen : p'.length = p.length := by rw [← hh'.1, ← hh.1]
      by_cases hi : i < p.length
      · rw [← hh.2 i hi, ← hh'.2 i (by omega)]
      · rw [List.getElem?_eq_none (by omega), List.getElem?_eq_none (by omega)]
    rw [← this]
    exact hs

/-- "bacbab" meets the condition, with the valleys 1 and 4, which are not in order. -/
example : ∀ i j e, i ≠ j → 0 < e → IsValley [98, 97, 99, 98, 97, 98] i → IsValley [98, 97, 99, 98, 97, 98] j →
    IsValley [98, 97, 99, 98, 97, 98] (i + e) → IsValley [98, 97, 99, 98, 97, 98] (j + e) →
      ∃ t, t ≤ e ∧ ([98, 97, 99, 98, 97, 98] : List Byte)[i + t]? ≠ ([98, 97, 99, 98, 97, 98] : List Byte)[j + t]? := by
  have : ∀ i < 6, IsValley [98, 97, 99, 98, 97, 98] i → i = 1 ∨ i = 4 := by
    decide +kernel
  intro i j e hij he hi hj hie hje
  have h1 := this i hi.2.1 hi
  have h2 := this j hj.2.1 hj
  have h3 := this (i + e) hie.2.1 hie
  have h4 := this (j + e) hje.2.1 hje
  omega

end Verif.SA
