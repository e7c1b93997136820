/-
Property theorems C102: the occurrences of a key stand next to each other in the suffix array.
-/
import Verif.SA.PropsAccess
import Verif.PM.Props

namespace Verif.SA
open Verif.Serial
open PM (Occ)

theorem occ_iff {key str : List Byte} {i : Nat} (hi : i ≤ str.length) : Occ key str i ↔ key <+: str.drop i := by
  rw [List.prefix_iff_getElem?]
  unfold Occ
  constructor
  · intro h j hj
    rw [List.getElem?_drop, h.2 j hj, List.getElem?_eq_getElem hj]
  · intro h
    refine ⟨?_, fun j hj => ?_⟩
    · rcases Nat.eq_zero_or_pos key.length with h0 | h0
      · omega
      · have := h (key.length - 1) (by omega)
        rw [List.getElem?_drop] at this
        have := (List.getElem?_eq_some_iff.1 this).1
        omega
    · rw [List.getElem?_eq_getElem hj, ← h j hj, List.getElem?_drop]

/-- The lists with a given prefix are convex in the lexicographic order. -/
theorem prefix_convex : ∀ {key u w v : List Byte}, key <+: u → key <+: v → u < w → w < v → key <+: w
  | [], _, _, _, _, _, _, _ => List.nil_prefix
  | c :: key, u, w, v, hu, hv, h1, h2 => by
    obtain ⟨u', rfl⟩ : ∃ u', u = c :: u' := by obtain ⟨t, rfl⟩ := hu; exact ⟨_, rfl⟩
    obtain ⟨v', rfl⟩ : ∃ v', v = c :: v' := by obtain ⟨t, rfl⟩ := hv; exact ⟨_, rfl⟩
    cases w with
    | nil => exact absurd h1 (by simp)
    | cons d w =>
      rw [List.cons_lt_cons_iff] at h1 h2
      have hcd : c = d := by
        rcases h1 with h1 | ⟨h1, _⟩
        · rcases h2 with h2 | ⟨h2, _⟩
          · exact absurd (BitVec.lt_trans h1 h2) (BitVec.lt_irrefl c)
          · exact h2.symm
        · exact h1
      subst hcd
      rw [List.cons_prefix_cons] at hu hv ⊢
      refine ⟨rfl, prefix_convex hu.2 hv.2 ?_ ?_⟩
      · rcases h1 with h1 | ⟨_, h1⟩
        · exact absurd h1 (BitVec.lt_irrefl c)
        · exact h1
      · rcases h2 with h2 | ⟨_, h2⟩
        · exact absurd h2 (BitVec.lt_irrefl c)
        · exact h2

/-- A property of the entries of a list that is convex holds in an interval of ranks. -/
theorem interval_of_convex (P : Nat → Prop) : ∀ (p : List Nat),
    (∀ r s t i k j : Nat, r < s → s < t → p[r]? = some i → p[s]? = some k → p[t]? = some j → P i → P j → P k) →
    ∃ a b, a ≤ b ∧ b ≤ p.length ∧ ∀ r i : Nat, p[r]? = some i → (P i ↔ a ≤ r ∧ r < b)
  | [], _ => ⟨0, 0, Nat.le_refl _, Nat.le_refl _, fun r i h => by simp at h⟩
  | x :: p, h => by
    obtain ⟨a, b, hab, hb, hP⟩ := interval_of_convex P p (fun r s t i k j h1 h2 h3 h4 h5 =>
      h (r + 1) (s + 1) (t + 1) i k j (by omega) (by omega) (by simpa using h3) (by simpa using h4) (by simpa using h5))
    by_cases hx : P x
    · by_cases he : a < b
      · have ha : a = 0 := by
          rcases Nat.eq_zero_or_pos a with h0 | h0
          · exact h0
          · have h1 : p[0]? = some p[0] := List.getElem?_eq_getElem (by omega)
            have h2 : p[a]? = some p[a] := List.getElem?_eq_getElem (by omega)
            have := (hP 0 _ h1).1 (h 0 1 (a + 1) x _ _ (by omega) (by omega) rfl (by simp) (by simp) hx ((hP a _ h2).2 ⟨by omega, he⟩))
            omega
        subst ha
        refine ⟨0, b + 1, by omega, by simpa using hb, fun r i hr => ?_⟩
        cases r with
        | zero => simp at hr; subst hr; exact ⟨fun _ => by omega, fun _ => hx⟩
        | succ r => rw [hP r i (by simpa using hr)]; omega
      · refine ⟨0, 1, by omega, by simp, fun r i hr => ?_⟩
        cases r with
        | zero => simp at hr; subst hr; exact ⟨fun _ => by omega, fun _ => hx⟩
        | succ r => rw [hP r i (by simpa using hr)]; omega
    · refine ⟨a + 1, b + 1, by omega, by simpa using hb, fun r i hr => ?_⟩
      cases r with
      | zero => simp at hr; subst hr; exact ⟨fun h => absurd h hx, fun _ => by omega⟩
      | succ r => rw [hP r i (by simpa using hr)]; omega

/-- The entries of the interval are the result of the search. -/
theorem interval_perm {key str : List Byte} (hk : key ≠ []) {p : List Nat} (hp : p.Perm (List.range str.length)) {a b : Nat}
    (hP : ∀ r i : Nat, p[r]? = some i → (Occ key str i ↔ a ≤ r ∧ r < b)) :
    ∃ rs, PM.simple str key = some rs ∧ ((p.drop a).take (b - a)).Perm rs := by
  obtain ⟨rs, e, h1, h2⟩ := PM.C48_simple str key
  have hn : p.Nodup := hp.nodup_iff.2 List.nodup_range
  have hkl := List.length_pos_iff.2 hk
  refine ⟨rs, e, (List.perm_ext_iff_of_nodup ?_ (h1.imp Nat.ne_of_lt)).2 fun i => ?_⟩
  · exact hn.sublist ((List.take_sublist _ _).trans (List.drop_sublist _ _))
  · rw [h2, List.mem_iff_getElem?]
    constructor
    · rintro ⟨r, hr⟩
      rw [List.getElem?_take] at hr
      split at hr
      · rw [List.getElem?_drop] at hr
        exact (hP _ _ hr).2 ⟨by omega, by omega⟩
      · simp at hr
    · intro ho
      have : i ∈ p := hp.mem_iff.2 (List.mem_range.2 (by have := ho.1; omega))
      obtain ⟨r, hr⟩ := List.mem_iff_getElem?.1 this
      obtain ⟨h3, h4⟩ := (hP r i hr).1 ho
      refine ⟨r - a, ?_⟩
      rw [List.getElem?_take, if_pos (by omega), List.getElem?_drop, show a + (r - a) = r by omega]
      exact hr

/-- C102: if the suffix array is right, the ranks of the occurrences of a non-empty key are an interval, the entries there are the result of the
search in another order, and the LCP array tells where the interval ends. -/
theorem C102_interval (str key : List Byte) (h0 : str ≠ []) (hmax : str.length + 1 < 2 ^ 31) (hk : key ≠ []) (o : SufArr) (hb : build str = some o)
    (p : List Nat) (hh : Holds o.sa p) (hs : IsSuffixArray str p) :
    ∃ a b rs, a ≤ b ∧ b ≤ str.length ∧ (∀ r i : Nat, r < str.length → o.sa.get r = some i → (Occ key str i ↔ a ≤ r ∧ r < b)) ∧
      PM.simple str key = some rs ∧ ((p.drop a).take (b - a)).Perm rs ∧
      ∀ r, a < b → r + 1 < str.length → ∃ m, o.lcp.get r = some m ∧ (a ≤ r ∧ r + 1 < b → key.length ≤ m) ∧ (r + 1 = a ∨ r + 1 = b → m < key.length) := by
  have hlen : p.length = str.length := by rw [hs.1.length_eq, List.length_range]
  have hin : ∀ r i : Nat, p[r]? = some i → i < str.length := fun r i h => List.mem_range.1 (hs.1.mem_iff.1 (List.mem_of_getElem? h))
  have hlt : ∀ r s i j : Nat, r < s → p[r]? = some i → p[s]? = some j → str.drop i < str.drop j := by
    intro r s i j hrs hi hj
    obtain ⟨hr, rfl⟩ := List.getElem?_eq_some_iff.1 hi
    obtain ⟨hs', rfl⟩ := List.getElem?_eq_some_iff.1 hj
    exact List.pairwise_iff_getElem.1 hs.2 _ _ _ _ hrs
  obtain ⟨a, b, hab, hbl, hP⟩ := interval_of_convex (Occ key str) p (fun r s t i k j h1 h2 hi hk' hj hoi hoj =>
    (occ_iff (Nat.le_of_lt (hin _ _ hk'))).2 (prefix_convex ((occ_iff (Nat.le_of_lt (hin _ _ hi))).1 hoi) ((occ_iff (Nat.le_of_lt (hin _ _ hj))).1 hoj)
      (hlt _ _ _ _ h1 hi hk') (hlt _ _ _ _ h2 hk' hj)))
  obtain ⟨rs, e, hperm⟩ := interval_perm hk hs.1 hP
  obtain ⟨_, _, hl⟩ := C63_lcp str h0 hmax o hb p hh hs
  refine ⟨a, b, rs, hab, by omega, fun r i hr hi => hP r i (by rw [← hi, hh.2 r (by omega)]), e, hperm, fun r hlt' hr => ?_⟩
  have e1 : p[r]? = some p[r] := List.getElem?_eq_getElem (by omega)
  have e2 : p[r + 1]? = some p[r + 1] := List.getElem?_eq_getElem (by omega)
  have o1 := hP _ _ e1
  have o2 := hP _ _ e2
  rw [occ_iff (Nat.le_of_lt (hin _ _ e1))] at o1
  rw [occ_iff (Nat.le_of_lt (hin _ _ e2))] at o2
  obtain ⟨m, em, hm⟩ := hl _ _ _ e1 e2
  refine ⟨m, em, fun h => hm.2 key (o1.2 (by omega)) (o2.2 (by omega)), fun h => Nat.lt_of_not_le fun hle => ?_⟩
  obtain ⟨w, hw, hw1, hw2⟩ := hm.1
  rcases h with h | h
  · have h3 := List.prefix_of_prefix_length_le (o2.2 (by omega)) hw2 (by omega)
    have := o1.1 (h3.trans hw1)
    omega
  · have h3 := List.prefix_of_prefix_length_le (o1.2 (by omega)) hw1 (by omega)
    have := o2.1 (h3.trans hw2)
    omega

/-- C102: whether the array is right or not, the ranks of the occurrences are an interval if no occurrence has a valley of the text inside,
other than in its first or last place. -/
theorem C102_no_valley (str key : List Byte) (h : Plain str) (h0 : str ≠ []) (hmax : str.length + 1 < 2 ^ 31) (hk : key ≠ [])
    (hv : ∀ i e, Occ key str i → 0 < e → e + 1 < key.length → ¬ IsValley str (i + e)) :
    ∃ o a b rs, build str = some o ∧ a ≤ b ∧ b ≤ str.length ∧
      (∀ r, r < str.length → ∃ i, o.sa.get r = some i ∧ (Occ key str i ↔ a ≤ r ∧ r < b)) ∧
      PM.simple str key = some rs ∧ b - a = rs.length := by
  obtain ⟨o, p, hb, _, hh, hp, hl⟩ := C62_local_partial str h h0 hmax
  have hlen : p.length = str.length := by rw [hp.length_eq, List.length_range]
  have hkl := List.length_pos_iff.2 hk
  have hin : ∀ r i : Nat, p[r]? = some i → i < str.length := fun r i h => List.mem_range.1 (hp.mem_iff.1 (List.mem_of_getElem? h))
  have hshare : ∀ i k e, Occ key str i → key.length ≤ e + 1 → (∀ t, t ≤ e → str[i + t]? = str[k + t]?) → Occ key str k := by
    intro i k e ho he ht
    refine ⟨?_, fun j hj => by rw [← ht j (by omega), ho.2 j hj]⟩
    have h1 := ho.2 (key.length - 1) (by omega)
    rw [ht _ (by omega), List.getElem?_eq_getElem (l := key) (by omega)] at h1
    have := (List.getElem?_eq_some_iff.1 h1).1
    omega
  obtain ⟨a, b, hab, hbl, hP⟩ := interval_of_convex (Occ key str) p (fun r s t i k j h1 h2 hi hk' hj hoi hoj => by
    by_cases c1 : str.drop k < str.drop i
    · obtain ⟨e, he, hv1, _, ht⟩ := hl r s i k h1 hi hk' c1
      by_cases hke : key.length ≤ e + 1
      · exact hshare i k e hoi hke ht
      · exact absurd hv1 (hv i e hoi he (by omega))
    · by_cases c2 : str.drop j < str.drop k
      · obtain ⟨e, he, _, hv2, ht⟩ := hl s t k j h2 hk' hj c2
        by_cases hke : key.length ≤ e + 1
        · exact hshare j k e hoj hke (fun t h => (ht t h).symm)
        · exact absurd hv2 (hv j e hoj he (by omega))
      · have hne : ∀ {x y : Nat}, x < str.length → y < str.length → x ≠ y → str.drop x ≠ str.drop y := by
          intro x y hx hy hxy he
          have := congrArg List.length he
          rw [List.length_drop, List.length_drop] at this
          omega
        have hn : p.Nodup := hp.nodup_iff.2 List.nodup_range
        have hij : ∀ {r s i k : Nat}, r < s → p[r]? = some i → p[s]? = some k → ¬ str.drop k < str.drop i → str.drop i < str.drop k := by
          intro r s i k hrs hi hk hc
          have hik : i ≠ k := by
            rintro rfl
            obtain ⟨h3, h4⟩ := List.getElem?_eq_some_iff.1 hi
            obtain ⟨h5, h6⟩ := List.getElem?_eq_some_iff.1 hk
            exact List.pairwise_iff_getElem.1 hn r s h3 h5 hrs (h4.trans h6.symm)
          rcases Std.le_total (a := str.drop i) (b := str.drop k) with h7 | h7
          · exact Std.lt_of_le_of_ne h7 (hne (hin _ _ hi) (hin _ _ hk) hik)
          · exact absurd (Std.lt_of_le_of_ne h7 (hne (hin _ _ hk) (hin _ _ hi) (Ne.symm hik))) hc
        exact (occ_iff (Nat.le_of_lt (hin _ _ hk'))).2 (prefix_convex ((occ_iff (Nat.le_of_lt (hin _ _ hi))).1 hoi)
          ((occ_iff (Nat.le_of_lt (hin _ _ hj))).1 hoj) (hij h1 hi hk' c1) (hij h2 hk' hj c2)))
  obtain ⟨rs, e, hperm⟩ := interval_perm hk hp hP
  refine ⟨o, a, b, rs, hb, hab, by omega, fun r hr => ?_, e, ?_⟩
  · have e1 : p[r]? = some p[r] := List.getElem?_eq_getElem (by omega)
    exact ⟨p[r], by rw [hh.2 r (by omega), e1], hP r _ e1⟩
  · rw [← hperm.length_eq, List.length_take, List.length_drop]; omega

example := C102_no_valley [98, 97, 110, 97, 110, 97] [110, 97] (by decide) (by decide) (by decide) (by decide)
  (fun i e _ h0 h1 => absurd h1 (by simp; omega))

/-- C102: so for keys of one or two characters it always is. -/
theorem C102_two (str key : List Byte) (h : Plain str) (h0 : str ≠ []) (hmax : str.length + 1 < 2 ^ 31) (hk : key ≠ []) (h2 : key.length ≤ 2) :
    ∃ o a b rs, build str = some o ∧ a ≤ b ∧ b ≤ str.length ∧
      (∀ r, r < str.length → ∃ i, o.sa.get r = some i ∧ (Occ key str i ↔ a ≤ r ∧ r < b)) ∧
      PM.simple str key = some rs ∧ b - a = rs.length :=
  C102_no_valley str key h h0 hmax hk (fun i e _ h3 h4 => by omega)

/-- C102: and for keys whose characters, the last one aside, never go down. -/
theorem C102_ascending (str key : List Byte) (h : Plain str) (h0 : str ≠ []) (hmax : str.length + 1 < 2 ^ 31) (hk : key ≠ [])
    (ha : ∀ e (x y : Byte), e + 2 < key.length → key[e]? = some x → key[e + 1]? = some y → x.toNat ≤ y.toNat) :
    ∃ o a b rs, build str = some o ∧ a ≤ b ∧ b ≤ str.length ∧
      (∀ r, r < str.length → ∃ i, o.sa.get r = some i ∧ (Occ key str i ↔ a ≤ r ∧ r < b)) ∧
      PM.simple str key = some rs ∧ b - a = rs.length := by
  refine C102_no_valley str key h h0 hmax hk (fun i e ho he hl hv => ?_)
  obtain ⟨_, h1, h2, h3⟩ := hv
  obtain ⟨d, rfl⟩ : ∃ d, e = d + 1 := ⟨e - 1, by omega⟩
  have hle := ha d key[d] key[d + 1] (by omega) (List.getElem?_eq_getElem (by omega)) (List.getElem?_eq_getElem (by omega))
  have c1 : str.drop (i + (d + 1)) = key[d + 1] :: str.drop (i + (d + 1) + 1) := by
    have := ho.2 (d + 1) (by omega)
    rw [List.getElem?_eq_getElem h1, List.getElem?_eq_getElem (l := key) (by omega)] at this
    rw [List.drop_eq_getElem_cons h1, Option.some.inj this]
  have c0 : str.drop (i + (d + 1) - 1) = key[d] :: str.drop (i + (d + 1)) := by
    have := ho.2 d (by omega)
    rw [List.getElem?_eq_getElem (show i + d < str.length by omega), List.getElem?_eq_getElem (l := key) (by omega)] at this
    rw [show i + (d + 1) - 1 = i + d by omega, List.drop_eq_getElem_cons (show i + d < str.length by omega), Option.some.inj this]
    rfl
  rw [c0, c1, List.cons_lt_cons_iff] at h2
  rcases h2 with h2 | ⟨_, h2⟩
  · have : key[d + 1].toNat < key[d].toNat := h2
    omega
  · rw [← c1] at h2
    exact absurd (List.lt_trans h2 h3) (List.lt_irrefl _)

example := C102_two [98, 97, 110, 97, 110, 97] [97, 110] (by decide) (by decide) (by decide) (by decide) (by decide)

/-- C102: with three characters it can fail: in the array of "babaabaa" the two occurrences of "baa" have the ranks 5 and 7, and the rank 6 belongs to
the whole text. -/
theorem C102_three_fails : ∃ o, build [98, 97, 98, 97, 97, 98, 97, 97] = some o ∧ o.sa.get 5 = some 5 ∧ o.sa.get 6 = some 0 ∧ o.sa.get 7 = some 2 ∧
    Occ [98, 97, 97] [98, 97, 98, 97, 97, 98, 97, 97] 5 ∧ ¬ Occ [98, 97, 97] [98, 97, 98, 97, 97, 98, 97, 97] 0 ∧
    Occ [98, 97, 97] [98, 97, 98, 97, 97, 98, 97, 97] 2 := by
  refine ⟨_, (Option.some_get (x := build [98, 97, 98, 97, 97, 98, 97, 97]) (by decide +kernel)).symm, by decide +kernel, by decide +kernel,
    by decide +kernel, ?_⟩
  unfold Occ
  decide

/-- "banana" and "an": the array 5 3 1 0 4 2 is right, and the occurrences 3 and 1 have the ranks 1 and 2. -/
example : ∃ o, build [98, 97, 110, 97, 110, 97] = some o ∧ Holds o.sa [5, 3, 1, 0, 4, 2] ∧
    IsSuffixArray [98, 97, 110, 97, 110, 97] [5, 3, 1, 0, 4, 2] ∧ PM.simple [98, 97, 110, 97, 110, 97] [97, 110] = some [1, 3] := by
  refine ⟨_, (Option.some_get (x := build [98, 97, 110, 97, 110, 97]) (by decide +kernel)).symm, ⟨by decide +kernel, ?_⟩, ?_, by decide +kernel⟩
  · have : ∀ i < 6, (Option.get (build [98, 97, 110, 97, 110, 97]) (by decide +kernel)).sa.get i = ([5, 3, 1, 0, 4, 2] : List Nat)[i]? := by
      decide +kernel
    exact this
  · unfold IsSuffixArray
    decide

/-- `C102_interval` for it. -/
example : ∃ a b, ∀ o, build [98, 97, 110, 97, 110, 97] = some o → ∀ r i : Nat, r < 6 → o.sa.get r = some i →
    (Occ [97, 110] [98, 97, 110, 97, 110, 97] i ↔ a ≤ r ∧ r < b) := by
  obtain ⟨a, b, rs, _, _, h, _⟩ := C102_interval [98, 97, 110, 97, 110, 97] [97, 110] (by decide) (by decide) (by decide) _
    (Option.some_get (x := build [98, 97, 110, 97, 110, 97]) (by decide +kernel)).symm [5, 3, 1, 0, 4, 2]
    ⟨by decide +kernel, show ∀ i < 6, (Option.get (build [98, 97, 110, 97, 110, 97]) (by decide +kernel)).sa.get i = ([5, 3, 1, 0, 4, 2] : List Nat)[i]? by
      decide +kernel⟩ (by unfold IsSuffixArray; decide)
  refine ⟨a, b, fun o ho => ?_⟩
  have : o = (build [98, 97, 110, 97, 110, 97]).get (by decide +kernel) := by
    apply Option.some.inj
    rw [Option.some_get, ho]
  rw [this]
  exact h

/-- "babaabaa", whose array is wrong, and the ascending key "aab". -/
example : Plain [98, 97, 98, 97, 97, 98, 97, 97] ∧ (∀ e (x y : Byte), e + 2 < ([97, 97, 98] : List Byte).length →
    ([97, 97, 98] : List Byte)[e]? = some x → ([97, 97, 98] : List Byte)[e + 1]? = some y → x.toNat ≤ y.toNat) ∧
    PM.simple [98, 97, 98, 97, 97, 98, 97, 97] [97, 97, 98] = some [3] := by
  refine ⟨by decide, ?_, by decide +kernel⟩
  intro e x y he hx hy
  obtain rfl : e = 0 := by simp at he; omega
  simp at hx hy
  subst hx hy
  decide

end Verif.SA
