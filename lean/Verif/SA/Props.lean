/-
Property theorems C62-C64 (SuffixArray).
-/
import Verif.SA.Build

namespace Verif.SA
open Verif.Serial

/-! ### C62: the suffix array -/

instance (str : List Byte) : Decidable (Plain str) := by unfold Plain; infer_instance

instance (str : List Byte) (i : Nat) : Decidable (IsValley str i) := by unfold IsValley; infer_instance

/-- The positions of the suffixes in lexicographic order. -/
def IsSuffixArray (str : List Byte) (p : List Nat) : Prop :=
  p.Perm (List.range str.length) ∧ p.Pairwise (fun i j => str.drop i < str.drop j)

/-- "bacbab" gets the array 4 1 5 0 3 2, although "bab" comes before "bacbab". -/
theorem C62_refuted : ∃ str o p, str ≠ [] ∧ Plain str ∧ build str = some o ∧ Holds o.sa p ∧ ¬ IsSuffixArray str p := by
  refine ⟨[98, 97, 99, 98, 97, 98], _, [4, 1, 5, 0, 3, 2], by decide, by decide, (Option.some_get (x := build [98, 97, 99, 98, 97, 98]) (by decide +kernel)).symm, ?_, ?_⟩
  · refine ⟨by decide +kernel, ?_⟩
    have : ∀ i < 6, (Option.get (build [98, 97, 99, 98, 97, 98]) (by decide +kernel)).sa.get i = ([4, 1, 5, 0, 3, 2] : List Nat)[i]? := by
      decide +kernel
    exact this
  · intro h
    have := h.2
    rw [List.pairwise_iff_getElem] at this
    exact absurd (this 3 4 (by decide) (by decide) (by decide)) (by decide)

/-- For every non-empty text of bytes 1..127 the construction succeeds and the array is a permutation of the positions. Two entries in the wrong
order agree in all letters from their starts to a valley: a position whose suffix is smaller than the one before and the one behind.
Missing: that there are no entries in the wrong order, which is false (C62_refuted). -/
theorem C62_local_partial (str : List Byte) (h : Plain str) (h0 : str ≠ []) (hmax : str.length + 1 < 2 ^ 31) :
    ∃ o p, build str = some o ∧ o.str = str ∧ Holds o.sa p ∧ p.Perm (List.range str.length) ∧
      ∀ r r' i j : Nat, r < r' → p[r]? = some i → p[r']? = some j → str.drop j < str.drop i →
        ∃ e, 0 < e ∧ IsValley str (i + e) ∧ IsValley str (j + e) ∧ ∀ t, t ≤ e → str[i + t]? = str[j + t]? := by
  have hT := saisStr_text h h0 hmax
  have hl := saisStr_length str
  obtain ⟨sa, e, hp, hk, hz⟩ := sais_total _ _ _ rfl hT
  obtain ⟨v, w, p, la, e1, _, e2, hp', hh, _⟩ := build_of h0 hmax e hp hz
  refine ⟨_, p, e1, rfl, hh, hp', ?_⟩
  intro r r' i j hr hi hj hlt
  have hil := List.mem_range.1 (hp'.mem_iff.1 (List.mem_of_getElem? hi))
  have hjl := List.mem_range.1 (hp'.mem_iff.1 (List.mem_of_getElem? hj))
  have hij : i ≠ j := by
    rintro rfl
    exact List.lt_irrefl _ hlt
  rw [e2] at hk
  have hk' := (List.pairwise_cons.1 hk).2
  rw [List.pairwise_iff_getElem] at hk'
  obtain ⟨hrl, ei⟩ := List.getElem?_eq_some_iff.1 hi
  obtain ⟨hrl', ej⟩ := List.getElem?_eq_some_iff.1 hj
  have hkey := hk' r r' hrl hrl' hr
  rw [ei, ej] at hkey
  obtain ⟨d, h1, h2, h3, h4, h5, h6⟩ := keys_local hT (by omega) (by omega) hij hkey ((saisStr_lt h (by omega) (by omega)).2 hlt)
  refine ⟨d, h1, (lms_iff h h0 hmax (by omega)).1 h2, (lms_iff h h0 hmax (by omega)).1 h3, ?_⟩
  intro t ht
  have h7 := h6 t ht
  rw [saisStr_ltr h (by omega), saisStr_ltr h (by omega)] at h7
  rw [List.getElem?_eq_getElem (by omega), List.getElem?_eq_getElem (by omega), BitVec.toNat_inj.1 h7]

example := C62_local_partial [98, 97, 110, 97, 110, 97] (by decide) (by decide) (by decide)

/-- The array is correct if valleys with the same letter and the same letter before are in suffix order from left to right.
Missing: texts without this property. -/
theorem C62_exact_partial (str : List Byte) (h : Plain str) (h0 : str ≠ []) (hmax : str.length + 1 < 2 ^ 31)
    (hv : ∀ i j, IsValley str i → IsValley str j → i < j → str[i]? = str[j]? → str[i - 1]? = str[j - 1]? → str.drop i < str.drop j) :
    ∃ o p, build str = some o ∧ o.str = str ∧ Holds o.sa p ∧ IsSuffixArray str p := by
  have hT := saisStr_text h h0 hmax
  have hl := saisStr_length str
  have hord : LmsOrdered (saisStr str) := by
    intro i j hi hj hij he he'
    have hjl := hj.2.1
    by_cases hjn : j < str.length
    · rw [saisStr_lt h (by omega) (by omega)]
      rw [saisStr_ltr h (by omega), saisStr_ltr h (by omega)] at he he'
      refine hv i j ((lms_iff h h0 hmax (by omega)).1 hi) ((lms_iff h h0 hmax hjn).1 hj) hij ?_ ?_
      · rw [List.getElem?_eq_getElem (by omega), List.getElem?_eq_getElem (by omega), BitVec.toNat_inj.1 he]
      · rw [List.getElem?_eq_getElem (by omega), List.getElem?_eq_getElem (by omega), BitVec.toNat_inj.1 he']
    · have h1 := (hT.zero_iff hj.2.1).2 (by omega)
      have h2 := (hT.zero_iff hi.2.1).1 (by omega)
      omega
  obtain ⟨sa, e, hp, hk, hz⟩ := sais_exact _ _ _ rfl hT (.inner hord)
  obtain ⟨v, w, p, la, e1, _, e2, hp', hh, _⟩ := build_of h0 hmax e hp hz
  rw [e2] at hk
  exact ⟨_, p, e1, rfl, hh, hp', tail_order h hp' hk⟩

/-- "banana" has the property: its valleys 1 and 3 have different letters before. -/
example : Plain [98, 97, 110, 97, 110, 97] ∧ IsValley [98, 97, 110, 97, 110, 97] 1 ∧ IsValley [98, 97, 110, 97, 110, 97] 3 ∧
    ∀ i j, IsValley [98, 97, 110, 97, 110, 97] i → IsValley [98, 97, 110, 97, 110, 97] j → i < j →
      ([98, 97, 110, 97, 110, 97] : List Byte)[i]? = ([98, 97, 110, 97, 110, 97] : List Byte)[j]? →
      ([98, 97, 110, 97, 110, 97] : List Byte)[i - 1]? = ([98, 97, 110, 97, 110, 97] : List Byte)[j - 1]? →
      ([98, 97, 110, 97, 110, 97] : List Byte).drop i < ([98, 97, 110, 97, 110, 97] : List Byte).drop j := by
  refine ⟨by decide, by decide, by decide, ?_⟩
  have : ∀ i < 6, IsValley [98, 97, 110, 97, 110, 97] i → i = 1 ∨ i = 3 := by
    decide +kernel
  intro i j hi hj hij _ he
  rcases this i hi.2.1 hi with rfl | rfl <;> rcases this j hj.2.1 hj with rfl | rfl <;> revert hij he <;> decide

/-- The array is correct if it is for the innermost text of the recursion: `Good` follows the names of the LMS substrings down to a text with
the property of `C62_exact_partial`. Missing: texts without this property. -/
theorem C62_inner_partial (str : List Byte) (h : Plain str) (h0 : str ≠ []) (hmax : str.length + 1 < 2 ^ 31) (hg : Good (saisStr str) 0xff) :
    ∃ o p, build str = some o ∧ o.str = str ∧ Holds o.sa p ∧ IsSuffixArray str p := by
  have hT := saisStr_text h h0 hmax
  obtain ⟨sa, e, hp, hk, hz⟩ := sais_exact _ _ _ rfl hT hg
  obtain ⟨v, w, p, la, e1, _, e2, hp', hh, _⟩ := build_of h0 hmax e hp hz
  rw [e2] at hk
  exact ⟨_, p, e1, rfl, hh, hp', tail_order h hp' hk⟩

/-- "mississippi": its four LMS substrings have three names, and the text of the names is 2 2 1 0. -/
example : Good (saisStr [109, 105, 115, 115, 105, 115, 115, 105, 112, 112, 105]) 0xff := by
  refine .outer (sa := Option.get ((inducedSort 0xff (saisStr [109, 105, 115, 115, 105, 115, 115, 105, 112, 112, 105])
    (classify (saisStr [109, 105, 115, 115, 105, 115, 115, 105, 112, 112, 105]))
    (findLMSs (classify (saisStr [109, 105, 115, 115, 105, 115, 115, 105, 112, 112, 105])))).map (·.1)) (by decide +kernel))
    (sub := [2, 2, 1, 0]) (shared := 1) (by decide +kernel) (by decide) (.inner ?_)
  have : ∀ i < 4, ∀ j < 4, IsLms [2, 2, 1, 0] i → IsLms [2, 2, 1, 0] j → i < j → False := by
    decide +kernel
  exact fun i j hi hj hij => (this i hi.2.1 j hj.2.1 hi hj hij).elim

/-- The empty text: the only suffix is never placed and its marker is used as an index. -/
theorem C62_empty_ub : build [] = none := by decide +kernel

/-- A byte with the top bit set is a negative `char`, hence a huge index into the buckets. -/
theorem C62_nonascii_oob (str : List Byte) (h : ∃ b ∈ str, 128 ≤ b.toNat) : build str = none := by
  obtain ⟨b, hb, h128⟩ := h
  have hne : saisStr str ≠ [] := by simp [saisStr]
  have hx : ∃ x ∈ saisStr str, (List.replicate (0xff + 1) 0).length ≤ x := by
    refine ⟨2 ^ 64 - 256 + b.toNat, ?_, by rw [List.length_replicate]; omega⟩
    unfold saisStr
    refine List.mem_append_left _ (List.mem_map.2 ⟨b, hb, ?_⟩)
    rw [if_neg (by omega)]
  have h1 : sais (saisStr str) 0xff = none := by
    rw [sais]
    simp only [classified, if_neg hne, Option.bind_eq_bind, Option.bind_some, inducedSort, induce, makeBuckets, countBuckets_oob _ _ hx,
      Option.bind_none]
  simp only [build, buildSA, h1, Option.bind_eq_bind, Option.bind_none]

example : ∃ b ∈ ([97, 195, 164] : List Byte), 128 ≤ b.toNat := ⟨195, by decide, by decide⟩

/-! ### C63: the LCP array -/

/-- Length of the longest common prefix. -/
def IsLcp (u v : List Byte) (m : Nat) : Prop :=
  (∃ w, w.length = m ∧ w <+: u ∧ w <+: v) ∧ ∀ w, w <+: u → w <+: v → w.length ≤ m

theorem cpl_isLcp (u v : List Byte) : IsLcp u v (cpl u v) := by
  refine ⟨⟨u.take (cpl u v), ?_, cpl_prefix u v⟩, fun w => cpl_max u v w⟩
  rw [List.length_take]
  have := cpl_le_left u v
  omega

/-- Whenever the array of a constructed object is correct, the LCP array is. -/
theorem C63_lcp (str : List Byte) (h0 : str ≠ []) (hmax : str.length + 1 < 2 ^ 31) (o : SufArr) (hb : build str = some o) (p : List Nat)
    (hh : Holds o.sa p) (hs : IsSuffixArray str p) :
    o.lcp.size = str.length ∧ o.lcp.get (str.length - 1) = some 0 ∧
      ∀ r i j : Nat, p[r]? = some i → p[r + 1]? = some j → ∃ m, o.lcp.get r = some m ∧ IsLcp (str.drop i) (str.drop j) m := by
  have hpos : 0 < str.length := List.length_pos_iff.2 h0
  have hlen : p.length = str.length := by rw [hs.1.length_eq, List.length_range]
  have hlcp : buildLCP str o.sa = some o.lcp := by
    simp only [build, Option.bind_eq_bind] at hb
    cases e1 : buildSA str with
    | none => rw [e1] at hb; simp at hb
    | some v =>
      rw [e1] at hb
      simp only [Option.bind_some] at hb
      cases e2 : buildLCP str v with
      | none => rw [e2] at hb; simp at hb
      | some w =>
        rw [e2] at hb
        simp only [Option.bind_some, Option.pure_def, Option.some.injEq] at hb
        rw [← hb]
        exact e2
  obtain ⟨v, e, hsz, hg⟩ := buildLCP_spec ⟨hs.1, hs.2⟩ hpos (by omega) o.sa hh.1 hh.2
  rw [hlcp] at e
  cases e
  refine ⟨by rw [hsz, hlen], ?_, ?_⟩
  · rw [hg _ (by omega)]
    unfold lcpAt
    rw [List.getElem?_eq_none (l := p) (i := str.length - 1 + 1) (by omega)]
    cases p[str.length - 1]? <;> rfl
  · intro r i j hi hj
    obtain ⟨hrl, _⟩ := List.getElem?_eq_some_iff.1 hi
    refine ⟨_, hg r hrl, ?_⟩
    unfold lcpAt
    rw [hi, hj]
    exact cpl_isLcp _ _

/-- "banana" is such a case. -/
example : ∃ o, build [98, 97, 110, 97, 110, 97] = some o ∧ Holds o.sa [5, 3, 1, 0, 4, 2] ∧ IsSuffixArray [98, 97, 110, 97, 110, 97] [5, 3, 1, 0, 4, 2] ∧
    o.lcp.get 1 = some 3 := by
  refine ⟨_, (Option.some_get (x := build [98, 97, 110, 97, 110, 97]) (by decide +kernel)).symm, ⟨by decide +kernel, ?_⟩, ⟨by decide, by decide⟩, by decide +kernel⟩
  have : ∀ i < 6, (Option.get (build [98, 97, 110, 97, 110, 97]) (by decide +kernel)).sa.get i = ([5, 3, 1, 0, 4, 2] : List Nat)[i]? := by
    decide +kernel
  exact this

/-! ### C64: serialisation -/

theorem ofVector_read {l : List Nat} (hl : l ≠ []) (h31 : l.length < 2 ^ 31) (hb : ∀ x ∈ l, x < 2 ^ 63) {v : Fit.FVec} (e : Fit.ofVector l = some v)
    (s : Stream) : Fit.read (v.write ++ s) = some (v, s) := by
  obtain ⟨w, _, p1, p2, p3, p4⟩ := Fit.minimal_spec l hl hb
  obtain ⟨v', e', hv, hel, _⟩ := Fit.init_spec w p1 p2 (.vector l) ⟨hl, p3, p4⟩
  have e'' : Fit.ofVector l = some v' := e'
  rw [e] at e''
  cases e''
  have hsz : v.size = l.length := by
    have := (Fit.wf_shows v w hv).2.1
    rw [hel] at this
    exact this
  refine (Fit.C27_roundtrip w p1 p2 (.vector l) ⟨hl, p3, p4⟩ [] trivial v v e' rfl ?_ s).1
  have : v.size * w ≤ v.size * 63 := Nat.mul_le_mul_left _ p2
  omega

/-- Every constructed object, also one with a wrong array, is read back as written, and what follows in the stream is left. -/
theorem C64_roundtrip (str : List Byte) (h : Plain str) (h0 : str ≠ []) (hmax : str.length + 1 < 2 ^ 31) (s : Stream) :
    ∃ o, build str = some o ∧ read (o.write ++ s) = some (o, s) := by
  have hT := saisStr_text h h0 hmax
  obtain ⟨sa, e, hp, hk, hz⟩ := sais_total _ _ _ rfl hT
  obtain ⟨v, w, p, la, e1, _, e2, hp', hh, hw, hll, ev, ew, hla⟩ := build_of h0 hmax e hp hz
  have hlen : p.length = str.length := by rw [hp'.length_eq, List.length_range]
  have hpos : 0 < str.length := List.length_pos_iff.2 h0
  have hr1 := ofVector_read (l := p) (by rintro rfl; simp at hlen; omega) (by omega) (fun x hx => by
    have := List.mem_range.1 (hp'.mem_iff.1 hx)
    omega) ev
  have hr2 := ofVector_read (l := la) (by rintro rfl; simp at hll; omega) (by omega) (fun x hx => by
    have := hla x hx
    omega) ew
  refine ⟨_, e1, ?_⟩
  simp only [read, SufArr.write, List.append_assoc]
  rw [readString_writeString str (by have : (2 : Nat) ^ 31 < 256 ^ 8 := by decide
                                     omega)]
  simp only [Option.bind_eq_bind, Option.bind_some, hr1, hr2, Option.pure_def]

example : Plain [98, 97, 99, 98, 97, 98] ∧ ([98, 97, 99, 98, 97, 98] : List Byte) ≠ [] := by decide

end Verif.SA
