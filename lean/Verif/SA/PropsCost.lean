/-
Property theorems C73, C74: the work of the constructor of SuffixArray.
-/
import Verif.SA.Cost
import Verif.SA.Props
import Mathlib.Data.List.Nodup

namespace Verif.SA
open Verif.Serial

theorem compareLoopC_spec (str : List Byte) : ∀ (k li ri m cnt : Nat), str.length - li = k →
    (compareLoopC str li ri m cnt).1 = compareLoop str li ri m ∧
      m ≤ (compareLoopC str li ri m cnt).1 ∧ (compareLoopC str li ri m cnt).2 + m ≤ cnt + (compareLoopC str li ri m cnt).1 + 1 := by
  intro k
  induction k with
  | zero =>
    intro li ri m cnt hk
    rw [compareLoop, compareLoopC, dif_neg (by omega), dif_neg (by omega)]
    exact ⟨rfl, Nat.le_refl _, by simp only; omega⟩
  | succ k ih =>
    intro li ri m cnt hk
    rw [compareLoop, compareLoopC]
    split
    · split
      · obtain ⟨h1, h2, h3⟩ := ih (li + 1) (ri + 1) (m + 1) (cnt + 1) (by omega)
        exact ⟨h1, by omega, by omega⟩
      · exact ⟨rfl, Nat.le_refl _, by simp only; omega⟩
    · exact ⟨rfl, Nat.le_refl _, by simp only; omega⟩

theorem lcpValC_fst (str : List Byte) (sa : Fit.FVec) (n i pos prev cnt : Nat) :
    (lcpValC str sa n i pos prev cnt).map (·.1) = lcpVal str sa n i pos prev := by
  unfold lcpValC lcpVal
  split
  · rfl
  · cases sa.get (pos + 1) with
    | none => rfl
    | some ri =>
      simp only [Option.map_some, compareLCP, (compareLoopC_spec str _ _ _ _ _ rfl).1]

theorem lcpLoopC_fst (str : List Byte) (sa : Fit.FVec) (ps : List Nat) : ∀ (r i : Nat) (la : List Nat) (prev cnt : Nat),
    (lcpLoopC str sa ps r i la prev cnt).map (·.1) = lcpLoop str sa ps r i la prev := by
  intro r
  induction r with
  | zero => intros; rfl
  | succ r ih =>
    intro i la prev cnt
    rw [lcpLoopC, lcpLoop]
    cases hp : ps[i]? with
    | none => rfl
    | some pos =>
      have h := lcpValC_fst str sa ps.length i pos prev cnt
      simp only [Option.bind_eq_bind, Option.bind_some]
      cases hv : lcpValC str sa ps.length i pos prev cnt with
      | none => rw [hv] at h; rw [← h]; rfl
      | some x =>
        rw [hv] at h
        rw [← h]
        simp only [Option.map_some, Option.bind_some]
        cases wr la pos x.1 with
        | none => rfl
        | some la' => exact ih _ _ _ _

theorem buildLCPC_fst (str : List Byte) (sa : Fit.FVec) : (buildLCPC str sa).map (·.1) = buildLCP str sa := by
  unfold buildLCPC buildLCP
  cases posLoop sa sa.size 0 (List.replicate sa.size 0) with
  | none => rfl
  | some ps =>
    simp only [Option.bind_eq_bind, Option.bind_some]
    rw [← lcpLoopC_fst str sa ps _ _ _ _ 0]
    cases lcpLoopC str sa ps ps.length 0 (List.replicate sa.size 0) 0 0 with
    | none => rfl
    | some x =>
      simp only [Option.map_some, Option.bind_some]
      cases Fit.ofVector x.1 with
      | none => rfl
      | some v =>
        simp only [Option.bind_some]
        cases x.1[x.1.length / 2]? with
        | none => rfl
        | some _ =>
          simp only [Option.bind_some]
          cases Calc.bitLengthFrequencies x.1 <;> rfl

theorem startLCP_ge {l : Nat} (h : l < 2 ^ 31) : l ≤ startLCP l + 1 := by
  unfold startLCP
  have h1 : (BitVec.ofNat 32 l).toInt = (l : Int) := by
    rw [BitVec.toInt_eq_toNat_cond, BitVec.toNat_ofNat, Nat.mod_eq_of_lt (by omega), if_pos (by omega)]
  simp only [h1]
  split <;> omega

theorem lcpLoopC_bound {str : List Byte} (hmax : str.length < 2 ^ 31) (sa : Fit.FVec) (ps : List Nat) :
    ∀ (r i : Nat) (la : List Nat) (prev cnt : Nat) (la' : List Nat) (k : Nat), r + i = ps.length → prev ≤ str.length →
      lcpLoopC str sa ps r i la prev cnt = some (la', k) →
      k + prev ≤ cnt + 2 * r + str.length * (1 + (ps.drop i).count (ps.length - 1)) := by
  intro r
  induction r with
  | zero =>
    intro i la prev cnt la' k hr hp h
    simp only [lcpLoopC, Option.some.injEq, Prod.mk.injEq] at h
    have : str.length * 1 ≤ str.length * (1 + (ps.drop i).count (ps.length - 1)) := Nat.mul_le_mul_left _ (by omega)
    omega
  | succ r ih =>
    intro i la prev cnt la' k hr hp h
    have hi : i < ps.length := by omega
    rw [List.drop_eq_getElem_cons hi, List.count_cons]
    rw [lcpLoopC] at h
    simp only [List.getElem?_eq_getElem hi, Option.bind_eq_bind, Option.bind_some] at h
    have hstart := startLCP_ge (l := prev) (by omega)
    have hstart2 := startLCP_le prev
    unfold lcpValC at h
    by_cases he : ps[i] = ps.length - 1
    · rw [if_pos he] at h
      simp only [Option.bind_some] at h
      cases hw : wr la ps[i] 0 with
      | none => rw [hw] at h; simp at h
      | some la1 =>
        rw [hw] at h
        simp only [Option.bind_some] at h
        have := ih (i + 1) la1 0 cnt la' k (by omega) (by omega) h
        rw [if_pos (by rw [he]; exact beq_self_eq_true _)]
        rw [← Nat.add_assoc, Nat.mul_add str.length (1 + _) 1, Nat.mul_one]
        omega
    · rw [if_neg he] at h
      cases hg : sa.get (ps[i] + 1) with
      | none => rw [hg] at h; simp at h
      | some ri =>
        rw [hg] at h
        simp only [Option.map_some, Option.bind_some] at h
        obtain ⟨h1, h2, h3⟩ := compareLoopC_spec str _ (i + startLCP prev) (ri + startLCP prev) (startLCP prev) cnt rfl
        have h4 := compareLoop_le str _ (i + startLCP prev) (ri + startLCP prev) (startLCP prev) rfl
        rw [← h1] at h4
        generalize compareLoopC str (i + startLCP prev) (ri + startLCP prev) (startLCP prev) cnt = c at *
        cases hw : wr la ps[i] c.1 with
        | none => rw [hw] at h; simp at h
        | some la1 =>
          rw [hw] at h
          simp only [Option.bind_some] at h
          have := ih (i + 1) la1 c.1 c.2 la' k (by omega) (by omega) h
          rw [if_neg (by simpa using he), Nat.add_zero (List.count _ _)]
          omega

/-- `posInArr` is the inverse of the array. -/
theorem posLoop_inv {p : List Nat} {n : Nat} (hp : p.Perm (List.range n)) (sa : Fit.FVec) (hg : ∀ i, i < p.length → sa.get i = p[i]?) :
    ∀ (r i : Nat) (ps : List Nat), r + i = p.length → ps.length = n → (∀ (j x : Nat), j < i → p[j]? = some x → ps[x]? = some j) →
      ∃ ps', posLoop sa r i ps = some ps' ∧ ps'.length = n ∧ ∀ (j x : Nat), p[j]? = some x → ps'[x]? = some j := by
  intro r
  induction r with
  | zero =>
    intro i ps hr hl hps
    refine ⟨ps, rfl, hl, fun j x hx => hps j x ?_ hx⟩
    obtain ⟨hj, _⟩ := List.getElem?_eq_some_iff.1 hx
    omega
  | succ r ih =>
    intro i ps hr hl hps
    have hi : i < p.length := by omega
    have e : p[i]? = some p[i] := List.getElem?_eq_getElem hi
    have hx : p[i] < n := List.mem_range.1 (hp.mem_iff.1 (List.getElem_mem hi))
    have hnd : p.Nodup := hp.nodup_iff.2 List.nodup_range
    simp only [posLoop, hg i hi, e, Option.bind_eq_bind, Option.bind_some, wr_eq ps p[i] i (by omega)]
    apply ih (i + 1) _ (by omega) (by simp [hl])
    intro j x hj hx'
    rw [List.getElem?_set]
    by_cases hji : j = i
    · subst hji
      rw [e] at hx'
      cases hx'
      rw [if_pos rfl, if_pos (by omega)]
    · have : x ≠ p[i] := by
        rintro rfl
        obtain ⟨hjl, hje⟩ := List.getElem?_eq_some_iff.1 hx'
        exact hji ((List.Nodup.getElem_inj_iff hnd).1 hje)
      rw [if_neg (fun hc => this hc.symm)]
      exact hps j x (by omega) hx'

theorem inv_count {p ps : List Nat} {n : Nat} (hp : p.Perm (List.range n)) (hl : ps.length = n)
    (h : ∀ (j x : Nat), p[j]? = some x → ps[x]? = some j) (a : Nat) : ps.count a ≤ 1 := by
  refine List.nodup_iff_count_le_one.1 ?_ a
  rw [List.nodup_iff_injective_getElem]
  rintro ⟨x, hx⟩ ⟨y, hy⟩ hxy
  simp only at hxy
  have hex : ∀ x, x < n → ∃ j : Nat, p[j]? = some x := fun x hx => List.mem_iff_getElem?.1 (hp.mem_iff.2 (List.mem_range.2 hx))
  obtain ⟨j, hj⟩ := hex x (by omega)
  obtain ⟨k, hk⟩ := hex y (by omega)
  have h1 := h j x hj
  have h2 := h k y hk
  rw [List.getElem?_eq_getElem hx, Option.some.injEq] at h1
  rw [List.getElem?_eq_getElem hy, Option.some.injEq] at h2
  have : j = k := by rw [← h1, ← h2, hxy]
  subst this
  rw [hj, Option.some.injEq] at hk
  exact Fin.ext hk

/-! ### C73: the LCP construction compares at most 4n letters -/

/-- For every non-empty text of bytes 1..127 the constructor compares at most `4n` letters for the LCP array. The counting program computes the
same LCP array as the constructor. -/
theorem C73_lcp_linear (str : List Byte) (h : Plain str) (h0 : str ≠ []) (hmax : str.length + 1 < 2 ^ 31) :
    ∃ o k, build str = some o ∧ buildLCPC str o.sa = some (o.lcp, k) ∧ k ≤ 4 * str.length := by
  have hT := saisStr_text h h0 hmax
  obtain ⟨sa, e, hp, hk, hz⟩ := sais_total _ _ _ rfl hT
  obtain ⟨v, w, p, la, e1, ew, e2, hp', hh, _⟩ := build_of h0 hmax e hp hz
  have hf := buildLCPC_fst str v
  rw [ew] at hf
  obtain ⟨⟨w', k⟩, hc, rfl⟩ := Option.map_eq_some_iff.1 hf
  refine ⟨_, k, e1, hc, ?_⟩
  have hlen : p.length = str.length := by rw [hp'.length_eq, List.length_range]
  obtain ⟨ps, f1, f2, f3⟩ := posLoop_inv hp' v hh.2 p.length 0 (List.replicate v.size 0) (by omega) (by rw [List.length_replicate, hh.1, hlen])
    (by intro j x hj; omega)
  unfold buildLCPC at hc
  rw [hh.1] at f1 hc
  simp only [f1, Option.bind_eq_bind, Option.bind_some] at hc
  cases hl : lcpLoopC str v ps ps.length 0 (List.replicate p.length 0) 0 0 with
  | none => rw [hl] at hc; simp at hc
  | some x =>
    obtain ⟨la', k'⟩ := x
    have hb := lcpLoopC_bound (by omega) v ps ps.length 0 _ 0 0 la' k' (by omega) (by omega) hl
    rw [hl] at hc
    simp only [Option.bind_some] at hc
    have hkk : k' = k := by
      cases hv : Fit.ofVector la' with
      | none => rw [hv] at hc; simp at hc
      | some v' =>
        rw [hv] at hc
        simp only [Option.bind_some] at hc
        cases hm : la'[la'.length / 2]? with
        | none => rw [hm] at hc; simp at hc
        | some _ =>
          rw [hm] at hc
          simp only [Option.bind_some] at hc
          cases hq : Calc.bitLengthFrequencies la' with
          | none => rw [hq] at hc; simp at hc
          | some _ =>
            rw [hq] at hc
            simp only [Option.bind_some, Option.pure_def, Option.some.injEq, Prod.mk.injEq] at hc
            exact hc.2
    have hcnt := inv_count hp' f2 f3 (ps.length - 1)
    rw [List.drop_zero] at hb
    have : str.length * (1 + ps.count (ps.length - 1)) ≤ str.length * 2 := Nat.mul_le_mul_left _ (by omega)
    omega

/-- "banana": 5 comparisons. -/
example : Plain [98, 97, 110, 97, 110, 97] ∧
    ((build [98, 97, 110, 97, 110, 97]).bind (fun o => buildLCPC [98, 97, 110, 97, 110, 97] o.sa)).map (·.2) = some 5 := by
  decide +kernel

/-! ### C74: the recursion of the construction -/

theorem lmsFrom_half : ∀ (ts : List Bool) (i : Nat), 2 * (lmsFrom ts i).length ≤ ts.length ∧
    (ts.head? = some true → 2 * (lmsFrom ts i).length + 1 ≤ ts.length)
  | [], i => by simp [lmsFrom]
  | [_], i => by simp [lmsFrom]
  | t0 :: t1 :: ts, i => by
    obtain ⟨h1, h2⟩ := lmsFrom_half (t1 :: ts) (i + 1)
    rw [lmsFrom]
    simp only [List.length_cons, List.head?_cons, Option.some.injEq] at h1 h2 ⊢
    cases t0 <;> cases t1 <;> simp at * <;> omega

theorem lms_half (str : List Nat) : 2 * (findLMSs (classify str)).length ≤ str.length := by
  have := (lmsFrom_half (classify str) 1).1
  rw [classify_length] at this
  exact this

theorem saisD_spec : ∀ (d : Nat) (str : List Nat) (mx : Nat), Text str mx → str.length < 2 ^ d →
    ∃ sa w, saisD d str mx = some (sa, w) ∧ sais str mx = some sa ∧ w + 1 ≤ 2 * str.length := by
  intro d
  induction d with
  | zero =>
    intro str mx hT h
    have := List.length_pos_iff.2 hT.ne_nil
    omega
  | succ d ih =>
    intro str mx hT h
    obtain ⟨sa, nm, ch, e1, e2, hch, hp, hk, h0, hle, hz, hlt, heq⟩ := inducedSort_spec hT
    have hcl : classified str = some (classify str) := by rw [classified, if_neg hT.ne_nil]
    have hsm := hT.small
    have hpos := List.length_pos_iff.2 hT.ne_nil
    have hguard := sub_length hT.ne_nil nm
    have hhalf := lms_half str
    by_cases hs : (findLMSs (classify str)).length - 1 - ch = 0
    · refine ⟨sa, str.length, ?_, ?_, by omega⟩
      · rw [saisD]
        simp only [hcl, Option.bind_eq_bind, Option.bind_some, e2, if_pos hs, Option.pure_def]
      · rw [sais]
        simp only [hcl, Option.bind_eq_bind, Option.bind_some, e2, if_pos hs, Option.pure_def]
    · have hT' := hT.sub (ch := ch) (by omega) hle hz hlt
      obtain ⟨ssa, w, e3, e3', hw⟩ := ih _ ch hT' (by rw [List.length_map]; rw [Nat.pow_succ] at h; omega)
      obtain ⟨_, q3, hp3, _⟩ := sais_total _ _ _ rfl hT'
      rw [e3'] at q3
      cases q3
      obtain ⟨sa', e4, hp4, hk4, h04⟩ := induce_keys hT (some ssa) (by simpa using hp3)
      rw [List.length_map] at hguard hw
      have hmx : ((findLMSs (classify str)).length + (2 ^ 65 - 1 - ((findLMSs (classify str)).length - 1 - ch))) % 2 ^ 64 = ch := by
        rw [show (findLMSs (classify str)).length + (2 ^ 65 - 1 - ((findLMSs (classify str)).length - 1 - ch)) = ch + 2 ^ 64 + 2 ^ 64 by omega,
          Nat.add_mod_right, Nat.add_mod_right, Nat.mod_eq_of_lt (by omega)]
      refine ⟨sa', str.length + w, ?_, ?_, by omega⟩
      · rw [saisD]
        simp only [hcl, Option.bind_eq_bind, Option.bind_some, e2, if_neg hs, hmx, e3, e4, Option.pure_def]
      · rw [sais]
        simp only [hcl, Option.bind_eq_bind, Option.bind_some, e2, if_neg hs, List.length_map, dif_pos hguard, hmx, e3', e4]

/-- For every non-empty text of `n` bytes 1..127 the construction of the array calls itself at most `d` deep when `n + 1 < 2 ^ d`, so at most
`log2 (n + 1) + 1` deep, and all texts of the recursion together have less than `2 * (n + 1)` entries. -/
theorem C74_depth (str : List Byte) (h : Plain str) (h0 : str ≠ []) (hmax : str.length + 1 < 2 ^ 31) (d : Nat) (hd : str.length + 1 < 2 ^ d) :
    ∃ sa w, saisD d (saisStr str) 0xff = some (sa, w) ∧ sais (saisStr str) 0xff = some sa ∧ w < 2 * (str.length + 1) := by
  have hl := saisStr_length str
  obtain ⟨sa, w, h1, h2, h3⟩ := saisD_spec d _ _ (saisStr_text h h0 hmax) (by rw [hl]; exact hd)
  exact ⟨sa, w, h1, h2, by omega⟩

/-- "mississippi" needs two levels and 12 + 4 entries. -/
example : (saisD 2 (saisStr [109, 105, 115, 115, 105, 115, 115, 105, 112, 112, 105]) 0xff).map (·.2) = some 16 ∧
    saisD 1 (saisStr [109, 105, 115, 115, 105, 115, 115, 105, 112, 112, 105]) 0xff = none := by decide +kernel

end Verif.SA
