/-
Property theorems C107: what the LCP array tells about repetitions.
-/
import Verif.SA.PropsFind
import Mathlib.Data.List.Perm.Subperm
import Mathlib.Data.List.Nodup

namespace Verif.SA
open Verif.Serial
open PM (Occ)

theorem length_eq_of_mem {α : Type} {a b : List α} (ha : a.Nodup) (hb : b.Nodup) (h : ∀ x, x ∈ a ↔ x ∈ b) : a.length = b.length :=
  ((List.perm_ext_iff_of_nodup ha hb).2 h).length_eq

/-- The prefixes that are longer than `m`. -/
theorem long_prefixes {u : List Byte} {m : Nat} {S : List (List Byte)} (hS : S.Nodup) (h : ∀ w, w ∈ S ↔ m < w.length ∧ w <+: u) :
    S.length = u.length - m := by
  have hn : ((List.range (u.length - m)).map (fun k => u.take (m + 1 + k))).Nodup := by
    unfold List.Nodup
    rw [List.pairwise_map]
    refine (List.nodup_range).imp_of_mem (fun {a b} ha hb hab e => hab ?_)
    have := congrArg List.length e
    rw [List.mem_range] at ha hb
    simp only [List.length_take] at this
    omega
  have := length_eq_of_mem hS hn (fun w => by
    rw [h, List.mem_map]
    constructor
    · rintro ⟨h1, h2⟩
      have h3 := h2.length_le
      refine ⟨w.length - m - 1, List.mem_range.2 (by omega), ?_⟩
      rw [show m + 1 + (w.length - m - 1) = w.length by omega]
      exact (List.prefix_iff_eq_take.1 h2).symm
    · rintro ⟨k, hk, rfl⟩
      rw [List.mem_range] at hk
      exact ⟨by rw [List.length_take]; omega, List.take_prefix _ _⟩)
  rwa [List.length_map, List.length_range] at this

/-- The number of the non-empty prefixes of sorted words. -/
theorem count_prefixes : ∀ (us : List (List Byte)) (m : Nat → Nat) (S : List (List Byte)), us.Pairwise (· < ·) →
    (∀ (r : Nat) (u v : List Byte), us[r]? = some u → us[r + 1]? = some v → IsLcp u v (m r)) → S.Nodup →
    (∀ w, w ∈ S ↔ w ≠ [] ∧ ∃ u ∈ us, w <+: u) → S.length + ((List.range (us.length - 1)).map m).sum = (us.map List.length).sum
  | [], m, S, _, _, _, h => by
    have : S = [] := List.eq_nil_iff_forall_not_mem.2 (fun w hw => by obtain ⟨_, u, hu, _⟩ := (h w).1 hw; cases hu)
    subst this
    rfl
  | [u], m, S, _, _, hS, h => by
    have := long_prefixes (u := u) (m := 0) hS (fun w => by
      rw [h]
      simp [List.length_pos_iff])
    simp [this]
  | u :: v :: us, m, S, hs, hl, hS, h => by
    classical
    have hlcp := hl 0 u v rfl rfl
    rw [List.pairwise_cons] at hs
    have ih := count_prefixes (v :: us) (fun r => m (r + 1)) (S.filter (fun w => decide (∃ x ∈ v :: us, w <+: x))) hs.2
      (fun r x y hx hy => hl (r + 1) x y (by simpa using hx) (by simpa using hy)) (hS.filter _) (fun w => by
        rw [List.mem_filter, h]
        simp only [decide_eq_true_iff]
        constructor
        · rintro ⟨⟨h1, _⟩, h2⟩; exact ⟨h1, h2⟩
        · rintro ⟨h1, x, hx, h2⟩; exact ⟨⟨h1, x, List.mem_cons_of_mem _ hx, h2⟩, x, hx, h2⟩)
    have h2 := long_prefixes (u := u) (m := m 0) (hS.filter (fun w => !decide (∃ x ∈ v :: us, w <+: x))) (fun w => by
        rw [List.mem_filter, h]
        simp only [Bool.not_eq_true', decide_eq_false_iff_not]
        constructor
        · rintro ⟨⟨h1, x, hx, h3⟩, h2⟩
          have hxu : x = u := by
            rcases List.mem_cons.1 hx with hx | hx
            · exact hx
            · exact absurd ⟨x, hx, h3⟩ h2
          subst hxu
          refine ⟨Nat.lt_of_not_le fun hle => h2 ?_, h3⟩
          obtain ⟨y, hy, hy1, hy2⟩ := hlcp.1
          exact ⟨v, List.mem_cons_self, (List.prefix_of_prefix_length_le h3 hy1 (by omega)).trans hy2⟩
        · rintro ⟨h1, h3⟩
          refine ⟨⟨by rintro rfl; simp at h1, u, List.mem_cons_self, h3⟩, ?_⟩
          rintro ⟨x, hx, hwx⟩
          have hv : w <+: v := by
            rcases List.mem_cons.1 hx with rfl | hx'
            · exact hwx
            · exact prefix_convex h3 hwx (hs.1 v List.mem_cons_self) ((List.pairwise_cons.1 hs.2).1 x hx')
          have := hlcp.2 w h3 hv
          omega)
    have h3 : S.length = (S.filter (fun w => decide (∃ x ∈ v :: us, w <+: x))).length + (S.filter (fun w => !decide (∃ x ∈ v :: us, w <+: x))).length :=
      List.length_eq_length_filter_add _
    have h4 : m 0 ≤ u.length := by
      obtain ⟨y, hy, hy1, _⟩ := hlcp.1
      have := hy1.length_le
      omega
    simp only [List.length_cons, Nat.add_sub_cancel] at ih ⊢
    rw [List.range_succ_eq_map, List.map_cons, List.sum_cons, List.map_map, List.map_cons, List.sum_cons]
    have h5 : m ∘ Nat.succ = fun r => m (r + 1) := rfl
    rw [h5]
    omega

theorem sum_suffix_lengths (n : Nat) : 2 * ((List.range n).map (fun i => n - i)).sum = n * (n + 1) := by
  induction n with
  | zero => rfl
  | succ n ih =>
    rw [List.range_succ_eq_map, List.map_cons, List.sum_cons, List.map_map]
    have : (fun i => n + 1 - i) ∘ Nat.succ = fun i => n - i := by funext i; simp
    rw [this, Nat.mul_add, ih, Nat.add_mul, Nat.mul_add]
    simp only [Nat.mul_add]
    omega

/-- C107: if the suffix array is right, there is a word of `m` letters that occurs at two different places exactly if an entry of the LCP array is at
least `m`; so the largest entry is the length of the longest repetition. -/
theorem C107_repeats (str : List Byte) (h0 : str ≠ []) (hmax : str.length + 1 < 2 ^ 31) (o : SufArr) (hb : build str = some o)
    (p : List Nat) (hh : Holds o.sa p) (hs : IsSuffixArray str p) (m : Nat) (hm : 0 < m) :
    (∃ w i j, w.length = m ∧ i ≠ j ∧ Occ w str i ∧ Occ w str j) ↔ ∃ r e, o.lcp.get r = some e ∧ r + 1 < str.length ∧ m ≤ e := by
  have hlen : p.length = str.length := by rw [hs.1.length_eq, List.length_range]
  obtain ⟨_, _, hl⟩ := C63_lcp str h0 hmax o hb p hh hs
  have hin : ∀ r i : Nat, p[r]? = some i → i < str.length := fun r i h => List.mem_range.1 (hs.1.mem_iff.1 (List.mem_of_getElem? h))
  constructor
  · rintro ⟨w, i, j, hw, hij, hi, hj⟩
    have hwne : w ≠ [] := by rintro rfl; simp at hw; omega
    obtain ⟨a, b, rs, hab, hbl, hP, _, _, hr⟩ := C102_interval str w h0 hmax hwne o hb p hh hs
    have key : ∀ i, Occ w str i → ∃ r, p[r]? = some i ∧ a ≤ r ∧ r < b := by
      intro i hi
      have hi' := hi.1
      obtain ⟨r, e⟩ := List.mem_iff_getElem?.1 (hs.1.mem_iff.2 (List.mem_range.2 (show i < str.length by omega)))
      have hrl := (List.getElem?_eq_some_iff.1 e).1
      exact ⟨r, e, (hP r i (by omega) (by rw [hh.2 r hrl, e])).1 hi⟩
    obtain ⟨r, er, r1, r2⟩ := key i hi
    obtain ⟨s, es, s1, s2⟩ := key j hj
    have hrs : r ≠ s := by rintro rfl; rw [er] at es; exact hij (Option.some.inj es)
    obtain ⟨e, he, h1, _⟩ := hr a (by omega) (by omega)
    exact ⟨a, e, he, by omega, by rw [← hw]; exact h1 ⟨Nat.le_refl _, by omega⟩⟩
  · rintro ⟨r, e, he, hr, hme⟩
    have e1 : p[r]? = some p[r] := List.getElem?_eq_getElem (by omega)
    have e2 : p[r + 1]? = some p[r + 1] := List.getElem?_eq_getElem (by omega)
    obtain ⟨e', he', ⟨y, hy, hy1, hy2⟩, _⟩ := hl r _ _ e1 e2
    rw [he] at he'
    cases he'
    refine ⟨y.take m, p[r], p[r + 1], by rw [List.length_take]; omega, ?_, ?_, ?_⟩
    · intro hc
      have hn : p.Nodup := hs.1.nodup_iff.2 List.nodup_range
      have := (List.Nodup.getElem_inj_iff hn).1 hc
      omega
    · exact (occ_iff (Nat.le_of_lt (hin _ _ e1))).2 ((List.take_prefix _ _).trans hy1)
    · exact (occ_iff (Nat.le_of_lt (hin _ _ e2))).2 ((List.take_prefix _ _).trans hy2)

/-- C107: if the suffix array is right, the number of different non-empty factors of the text (`S` lists them) and the sum of the LCP array are together
`n (n + 1) / 2`. -/
theorem C107_factors (str : List Byte) (h0 : str ≠ []) (hmax : str.length + 1 < 2 ^ 31) (o : SufArr) (hb : build str = some o)
    (p : List Nat) (hh : Holds o.sa p) (hs : IsSuffixArray str p) (S : List (List Byte)) (hS : S.Nodup) (hm : ∀ w, w ∈ S ↔ w ≠ [] ∧ ∃ i, Occ w str i) :
    ∃ l : List Nat, l.length = str.length ∧ (∀ r, r < str.length → o.lcp.get r = l[r]?) ∧ 2 * (S.length + l.sum) = str.length * (str.length + 1) := by
  have hlen : p.length = str.length := by rw [hs.1.length_eq, List.length_range]
  have hpos := List.length_pos_iff.2 h0
  obtain ⟨_, hlast, hl⟩ := C63_lcp str h0 hmax o hb p hh hs
  have hin : ∀ i ∈ p, i < str.length := fun i h => List.mem_range.1 (hs.1.mem_iff.1 h)
  let f : Nat → Nat := fun r => (o.lcp.get r).getD 0
  have hc := count_prefixes (p.map (fun i => str.drop i)) f S (by rw [List.pairwise_map]; exact hs.2) (fun r u v hu hv => by
      rw [List.getElem?_map] at hu hv
      obtain ⟨i, hi, rfl⟩ := Option.map_eq_some_iff.1 hu
      obtain ⟨j, hj, rfl⟩ := Option.map_eq_some_iff.1 hv
      obtain ⟨m, e, h⟩ := hl r i j hi hj
      show IsLcp _ _ ((o.lcp.get r).getD 0)
      rw [e]
      exact h) hS (fun w => by
      rw [hm]
      refine and_congr_right fun hw => ?_
      simp only [List.mem_map, exists_exists_and_eq_and]
      constructor
      · rintro ⟨i, hi⟩
        have h1 := hi.1
        have h2 := List.length_pos_iff.2 hw
        exact ⟨i, hs.1.mem_iff.2 (List.mem_range.2 (by omega)), (occ_iff (by omega)).1 hi⟩
      · rintro ⟨i, hi, h⟩
        exact ⟨i, (occ_iff (Nat.le_of_lt (hin i hi))).2 h⟩)
  refine ⟨(List.range str.length).map f, by simp, fun r hr => ?_, ?_⟩
  · rw [List.getElem?_map, List.getElem?_range hr]
    show _ = some ((o.lcp.get r).getD 0)
    rcases Nat.lt_or_ge (r + 1) str.length with h | h
    · obtain ⟨m, e, _⟩ := hl r _ _ (List.getElem?_eq_getElem (by omega)) (List.getElem?_eq_getElem (show r + 1 < p.length by omega))
      rw [e]; rfl
    · rw [show r = str.length - 1 by omega, hlast]; rfl
  · have h1 : ((List.range str.length).map f).sum = ((List.range (str.length - 1)).map f).sum := by
      conv => lhs; rw [show str.length = str.length - 1 + 1 by omega]
      rw [List.range_succ, List.map_append, List.sum_append]
      have : f (str.length - 1) = 0 := by show (o.lcp.get (str.length - 1)).getD 0 = 0; rw [hlast]; rfl
      simp [this]
    have h2 : ((p.map (fun i => str.drop i)).map List.length).sum = ((List.range str.length).map (fun i => str.length - i)).sum := by
      rw [List.map_map]
      have : (List.length ∘ fun i => str.drop i) = fun i => str.length - i := by funext i; simp
      rw [this]
      exact (hs.1.map _).sum_nat
    rw [List.length_map, hlen, h2] at hc
    rw [h1, hc]
    exact sum_suffix_lengths _

/-- "banana": the suffix array is right, the longest repetition is "ana" and the LCP array is 1 3 0 0 2 0. -/
example : ∃ o, build [98, 97, 110, 97, 110, 97] = some o ∧ Holds o.sa [5, 3, 1, 0, 4, 2] ∧
    IsSuffixArray [98, 97, 110, 97, 110, 97] [5, 3, 1, 0, 4, 2] ∧ (List.range 6).map o.lcp.get = [some 1, some 3, some 0, some 0, some 2, some 0] := by
  refine ⟨_, (Option.some_get (x := build [98, 97, 110, 97, 110, 97]) (by decide +kernel)).symm, ⟨by decide +kernel, ?_⟩, ?_, by decide +kernel⟩
  · have : ∀ i < 6, (Option.get (build [98, 97, 110, 97, 110, 97]) (by decide +kernel)).sa.get i = ([5, 3, 1, 0, 4, 2] : List Nat)[i]? := by
      decide +kernel
    exact this
  · unfold IsSuffixArray
    decide

/-- `C107_repeats` for it, with words of three characters. -/
example := C107_repeats [98, 97, 110, 97, 110, 97] (by decide) (by decide) _
  (Option.some_get (x := build [98, 97, 110, 97, 110, 97]) (by decide +kernel)).symm [5, 3, 1, 0, 4, 2]
  ⟨by decide +kernel, show ∀ i < 6, (Option.get (build [98, 97, 110, 97, 110, 97]) (by decide +kernel)).sa.get i = ([5, 3, 1, 0, 4, 2] : List Nat)[i]? by
    decide +kernel⟩ (by unfold IsSuffixArray; decide) 3 (by decide)

/-- "banana" has 15 different factors: 15 + 6 = 21. -/
example : ∃ S : List (List Byte), S.Nodup ∧ (∀ w, w ∈ S ↔ w ≠ [] ∧ ∃ i, Occ w [98, 97, 110, 97, 110, 97] i) ∧ S.length = 15 := by
  have h : ∀ w i, Occ w [98, 97, 110, 97, 110, 97] i → w ≠ [] → ∃ n < 7, i < 7 ∧ w = (([98, 97, 110, 97, 110, 97] : List Byte).drop i).take n := by
    intro w i h hw
    have h1 := h.1
    have h2 := (occ_iff (show i ≤ ([98, 97, 110, 97, 110, 97] : List Byte).length by omega)).1 h
    simp at h1
    exact ⟨w.length, by omega, by omega, List.prefix_iff_eq_take.1 h2⟩
  refine ⟨[[97], [98], [110], [97, 110], [98, 97], [110, 97], [97, 110, 97], [98, 97, 110], [110, 97, 110], [97, 110, 97, 110], [98, 97, 110, 97], [110, 97, 110, 97], [97, 110, 97, 110, 97], [98, 97, 110, 97, 110], [98, 97, 110, 97, 110, 97]], by decide, fun w => ⟨fun h => ?_, ?_⟩, rfl⟩
  · have h' : w ≠ [] ∧ ∃ i < 6, w <+: ([98, 97, 110, 97, 110, 97] : List Byte).drop i := by
      revert h w
      decide +kernel
    obtain ⟨h1, i, hi, h2⟩ := h'
    exact ⟨h1, i, (occ_iff (by simp; omega)).2 h2⟩
  · rintro ⟨hw, i, hi⟩
    obtain ⟨n, hn, hi', rfl⟩ := h w i hi hw
    revert hw
    clear h hi
    revert n
    revert i
    have : ∀ i < 7, ∀ n < 7, (([98, 97, 110, 97, 110, 97] : List Byte).drop i).take n ≠ [] →
        (([98, 97, 110, 97, 110, 97] : List Byte).drop i).take n ∈ ([[97], [98], [110], [97, 110], [98, 97], [110, 97], [97, 110, 97], [98, 97, 110], [110, 97, 110], [97, 110, 97, 110], [98, 97, 110, 97], [110, 97, 110, 97], [97, 110, 97, 110, 97], [98, 97, 110, 97, 110], [98, 97, 110, 97, 110, 97]] : List (List Byte)) := by decide +kernel
    exact fun i hi n hn => this i hi n hn

end Verif.SA
