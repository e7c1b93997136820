/-
Property theorem C78 (SuffixArray.hpp): the accessors.
-/
import Verif.SA.Access
import Verif.SA.Props

namespace Verif.SA
open Verif.Serial

/-- The text of a constructed object is the argument: `suffix(i, k)` has the letters `i`, `i + 1`, ... of it, `k` of them or all that are left,
`suffix(i)` all that are left, and both throw for `i` behind the end; `char_at` gives the letters. -/
theorem C78_suffix (str : List Byte) (hmax : str.length < 2 ^ 64) (o : SufArr) (hb : build str = some o) :
    (∀ i k, i ≤ str.length → ∃ u, o.suffix2 i k = some u ∧ u.length = min k (str.length - i) ∧ ∀ t, t < u.length → u[t]? = str[i + t]?) ∧
    (∀ i, i ≤ str.length → ∃ u, o.suffix1 i = some u ∧ str = str.take i ++ u) ∧
    (∀ i k, str.length < i → o.suffix2 i k = none ∧ o.suffix1 i = none) ∧
    (∀ i, i < str.length → o.charAt i = str[i]?) ∧ o.charAt str.length = some 0 := by
  have hstr : o.str = str := by
    simp only [build, Option.bind_eq_bind] at hb
    cases e1 : buildSA str with
    | none => rw [e1] at hb; simp at hb
    | some v =>
      rw [e1] at hb
      simp only [Option.bind_some] at hb
      cases e2 : buildLCP str v with
      | none => rw [e2] at hb; simp at hb
      | some w =>
        rw [e2] at hb
        simp only [Option.bind_some, Option.pure_def, Option.some.injEq] at hb
        rw [← hb]
  subst hstr
  refine ⟨?_, ?_, ?_, ?_, ?_⟩
  · intro i k hi
    refine ⟨_, if_pos hi, by rw [List.length_take, List.length_drop], ?_⟩
    intro t ht
    rw [List.length_take] at ht
    rw [List.getElem?_take_of_lt (by omega), List.getElem?_drop]
  · intro i hi
    refine ⟨o.str.drop i, ?_, (List.take_append_drop _ _).symm⟩
    unfold SufArr.suffix1 SufArr.suffix2
    rw [if_pos hi, List.take_of_length_le]
    rw [List.length_drop]
    omega
  · intro i k hi
    unfold SufArr.suffix1 SufArr.suffix2
    rw [if_neg (by omega), if_neg (by omega)]
    exact ⟨rfl, rfl⟩
  · intro i hi
    exact if_pos hi
  · unfold SufArr.charAt
    rw [if_neg (by omega), if_pos rfl]

example := C78_suffix [97, 98] (by decide) _ (Option.some_get (x := build [97, 98]) (by decide +kernel)).symm

/-- When the array is correct, the suffixes at its entries are in order, and neighbours share exactly the letters counted by the LCP array. -/
theorem C78_order (str : List Byte) (h0 : str ≠ []) (hmax : str.length + 1 < 2 ^ 31) (o : SufArr) (hb : build str = some o) (p : List Nat)
    (hh : Holds o.sa p) (hs : IsSuffixArray str p) (r : Nat) (hr : r + 1 < str.length) :
    ∃ i j m u v, o.sa.get r = some i ∧ o.sa.get (r + 1) = some j ∧ o.lcp.get r = some m ∧ o.suffix1 i = some u ∧ o.suffix1 j = some v ∧
      u < v ∧ o.suffix2 i m = o.suffix2 j m ∧ u[m]? ≠ v[m]? := by
  obtain ⟨h1, h2, _, _, _⟩ := C78_suffix str (by omega) o hb
  have hlen : p.length = str.length := by rw [hs.1.length_eq, List.length_range]
  have hi : p[r]? = some (p[r]'(by omega)) := List.getElem?_eq_getElem (by omega)
  have hj : p[r + 1]? = some (p[r + 1]'(by omega)) := List.getElem?_eq_getElem (by omega)
  have hil := List.mem_range.1 (hs.1.mem_iff.1 (List.mem_of_getElem? hi))
  have hjl := List.mem_range.1 (hs.1.mem_iff.1 (List.mem_of_getElem? hj))
  obtain ⟨_, _, h3⟩ := C63_lcp str h0 hmax o hb p hh hs
  obtain ⟨m, hm, ⟨w, hw1, hw2, hw3⟩, hmx⟩ := h3 r _ _ hi hj
  have hlt := (List.pairwise_iff_getElem.1 hs.2) r (r + 1) (by omega) (by omega) (by omega)
  have hsuf : ∀ i, i < str.length → o.suffix1 i = some (str.drop i) := by
    intro i hi
    obtain ⟨u, hu, e⟩ := h2 i (by omega)
    rw [hu]
    congr 1
    have e' := List.take_append_drop i str
    rw [← e'] at e
    conv at e => rhs; rw [e']
    exact (List.append_cancel_left e).symm
  have hsub : ∀ i, i < str.length → o.suffix2 i m = some ((str.drop i).take m) := by
    intro i hi
    obtain ⟨u, hu, hul, e⟩ := h1 i m (by omega)
    rw [hu]
    congr 1
    apply List.ext_getElem?
    intro t
    by_cases ht : t < u.length
    · rw [e t ht, List.getElem?_take_of_lt (by omega), List.getElem?_drop]
    · rw [List.getElem?_eq_none (by omega), List.getElem?_eq_none (by rw [List.length_take, List.length_drop]; omega)]
  refine ⟨_, _, m, _, _, by rw [hh.2 r (by omega)]; exact hi, by rw [hh.2 (r + 1) (by omega)]; exact hj, hm, hsuf _ hil, hsuf _ hjl, hlt, ?_, ?_⟩
  · rw [hsub _ hil, hsub _ hjl, ← hw1, ← List.prefix_iff_eq_take.1 hw2, ← List.prefix_iff_eq_take.1 hw3]
  · intro he
    generalize str.drop p[r] = u at *
    generalize str.drop p[r + 1] = v at *
    obtain ⟨a, rfl⟩ := hw2
    obtain ⟨b, rfl⟩ := hw3
    rw [← hw1, List.getElem?_append_right (Nat.le_refl _), List.getElem?_append_right (Nat.le_refl _), Nat.sub_self] at he
    cases a with
    | nil =>
      cases b with
      | nil => exact List.lt_irrefl _ hlt
      | cons y b => simp at he
    | cons x a =>
      cases b with
      | nil => simp at he
      | cons y b =>
        simp only [List.getElem?_cons_zero, Option.some.injEq] at he
        subst he
        have := hmx (w ++ [x]) ⟨a, by simp⟩ ⟨b, by simp⟩
        simp at this
        omega

/-- "ab": the array is 0 1, and the hypotheses hold. -/
example : ∃ o, build [97, 98] = some o ∧ Holds o.sa [0, 1] ∧ IsSuffixArray [97, 98] [0, 1] := by
  refine ⟨_, (Option.some_get (x := build [97, 98]) (by decide +kernel)).symm, ⟨by decide +kernel, ?_⟩, by decide, ?_⟩
  · have : ∀ i < 2, (Option.get (build [97, 98]) (by decide +kernel)).sa.get i = ([0, 1] : List Nat)[i]? := by
      decide +kernel
    exact this
  · rw [List.pairwise_pair]
    decide

/-- What `WriteSA` and `WriteLCP` write is read by the constructor of `FitVector` from a stream. -/
theorem C78_write_parts (str : List Byte) (h : Plain str) (h0 : str ≠ []) (hmax : str.length + 1 < 2 ^ 31) (s : Stream) :
    ∃ o, build str = some o ∧ Fit.read (o.writeSA ++ s) = some (o.sa, s) ∧ Fit.read (o.writeLCP ++ s) = some (o.lcp, s) := by
  have hT := saisStr_text h h0 hmax
  obtain ⟨sa, e, hp, hk, hz⟩ := sais_total _ _ _ rfl hT
  obtain ⟨v, w, p, la, e1, _, e2, hp', hh, hw, hll, ev, ew, hla⟩ := build_of h0 hmax e hp hz
  have hlen : p.length = str.length := by rw [hp'.length_eq, List.length_range]
  have hpos : 0 < str.length := List.length_pos_iff.2 h0
  have hr1 := ofVector_read (l := p) (by rintro rfl; simp at hlen; omega) (by omega) (fun x hx => by
    have := List.mem_range.1 (hp'.mem_iff.1 hx)
    omega) ev
  have hr2 := ofVector_read (l := la) (by rintro rfl; simp at hll; omega) (by omega) (fun x hx => by
    have := hla x hx
    omega) ew
  exact ⟨_, e1, hr1 s, hr2 s⟩

example := C78_write_parts [98, 97, 110, 97, 110, 97] (by decide) (by decide) (by decide) [7]

end Verif.SA
