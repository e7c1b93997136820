/-
Property theorem C84: the report printed by the constructor of SuffixArray.
-/
import Verif.SA.Props
import Verif.SA.Report

namespace Verif.SA
open Verif.Serial

theorem statLoop_spec : ∀ (l : List Nat) (m : Nat) (s : Int), 0 ≤ s → s + l.sum < 2 ^ 63 →
    statLoop l m s = (l.foldl max m, s + l.sum) := by
  intro l
  induction l with
  | nil => intro m s _ _; simp [statLoop]
  | cons a l ih =>
    intro m s h0 h1
    simp only [List.sum_cons] at h1
    rw [statLoop, BitVec.toInt_ofInt_eq_self (by decide) (by omega) (by omega), ih _ _ (by omega) (by omega), List.foldl_cons, Nat.max_comm, List.sum_cons]
    simp only [Prod.mk.injEq, true_and]
    omega

theorem foldl_max_spec : ∀ (l : List Nat) (m : Nat), (∀ x ∈ l, x ≤ l.foldl max m) ∧ m ≤ l.foldl max m ∧ (l.foldl max m = m ∨ l.foldl max m ∈ l) := by
  intro l
  induction l with
  | nil => intro m; simp
  | cons a l ih =>
    intro m
    obtain ⟨h1, h2, h3⟩ := ih (max m a)
    rw [List.foldl_cons]
    refine ⟨fun x hx => ?_, by omega, ?_⟩
    · rcases List.mem_cons.1 hx with rfl | hx
      · omega
      · exact h1 x hx
    · rcases h3 with h3 | h3
      · rcases Nat.le_total m a with h | h
        · right; rw [h3, Nat.max_eq_right h]; exact List.mem_cons_self
        · left; rw [h3, Nat.max_eq_left h]
      · right; exact List.mem_cons_of_mem _ h3

/-- In a sorted list, the elements below the one at `k` are at most `k`, and more than `k` are not above it. -/
theorem sorted_rank (s : List Nat) (hs : s.Pairwise (· ≤ ·)) (k : Nat) (hk : k < s.length) :
    (s.filter (· < s[k])).length ≤ k ∧ k < (s.filter (· ≤ s[k])).length := by
  constructor
  · have : ((s.drop k).filter (· < s[k])) = [] := by
      rw [List.filter_eq_nil_iff]
      intro x hx
      obtain ⟨i, hi, rfl⟩ := List.getElem_of_mem hx
      rw [List.getElem_drop, decide_eq_true_eq]
      rcases Nat.eq_zero_or_pos i with rfl | hi0
      · simp
      · have := List.pairwise_iff_getElem.1 hs k (k + i) hk (by rw [List.length_drop] at hi; omega) (by omega)
        omega
    have h2 : s.filter (· < s[k]) = (s.take k).filter (· < s[k]) := by
      have h3 := List.filter_append (p := fun x => decide (x < s[k])) (s.take k) (s.drop k)
      rw [List.take_append_drop, this, List.append_nil] at h3
      exact h3
    rw [h2]
    exact Nat.le_trans (List.length_filter_le _ _) (by rw [List.length_take]; omega)
  · have h1 : (s.take (k + 1)).filter (· ≤ s[k]) = s.take (k + 1) := by
      rw [List.filter_eq_self]
      intro x hx
      obtain ⟨i, hi, rfl⟩ := List.getElem_of_mem hx
      rw [List.length_take] at hi
      rw [List.getElem_take, decide_eq_true_eq]
      rcases Nat.eq_or_lt_of_le (show i ≤ k by omega) with rfl | hlt
      · exact Nat.le_refl _
      · exact List.pairwise_iff_getElem.1 hs i k (by omega) hk hlt
    have h2 : ((s.take (k + 1)).filter (· ≤ s[k])).length ≤ (s.filter (· ≤ s[k])).length := ((List.take_sublist _ _).filter _).length_le
    rw [h1, List.length_take] at h2
    omega

/-- The report about any list of numbers. -/
theorem report_spec (la : List Nat) (hne : la ≠ []) (hb : ∀ x ∈ la, x < 2 ^ 31) (hl : la.length < 2 ^ 31) :
    ∃ r, report la = some r ∧ r.number = la.length ∧ r.maxL ∈ la ∧ (∀ x ∈ la, x ≤ r.maxL) ∧ r.sum = la.sum ∧
      r.median ∈ la ∧ (la.filter (· < r.median)).length ≤ la.length / 2 ∧ la.length / 2 < (la.filter (· ≤ r.median)).length ∧
      (∀ v ∈ la, Nat.log2 v + 1 ≤ r.map.length) ∧ ∀ k (h : k < r.map.length), r.map[k] = (la.filter fun v => Nat.log2 v + 1 == k + 1).length := by
  have hp : (la.insertionSort (· ≤ ·)).Perm la := List.perm_insertionSort _ _
  have hpos := List.length_pos_iff.2 hne
  have hlen : (la.insertionSort (· ≤ ·)).length = la.length := hp.length_eq
  have hsorted : (la.insertionSort (· ≤ ·)).Pairwise (· ≤ ·) := by
    exact List.pairwise_insertionSort _ _
  have hsum : ∀ l : List Nat, (∀ x ∈ l, x < 2 ^ 31) → l.sum ≤ 2 ^ 31 * l.length := by
    intro l
    induction l with
    | nil => intro _; simp
    | cons a l ih =>
      intro h
      have := ih (fun x hx => h x (by simp [hx]))
      have := h a (by simp)
      simp only [List.sum_cons, List.length_cons]
      omega
  have hs := hsum la hb
  have hlt : la.sum < 2 ^ 63 := Nat.lt_of_le_of_lt hs (by omega)
  obtain ⟨map, em, m1, _, m3⟩ := Calc.C14_bitLengthFrequencies (la.insertionSort (· ≤ ·)) (fun v hv => by have := hb v (hp.mem_iff.1 hv); omega)
  have hstat := statLoop_spec (la.insertionSort (· ≤ ·)) 0 0 (by decide) (by rw [hp.sum_nat]; omega)
  have hk : (la.insertionSort (· ≤ ·)).length / 2 < (la.insertionSort (· ≤ ·)).length := by omega
  obtain ⟨f1, _, f3⟩ := foldl_max_spec (la.insertionSort (· ≤ ·)) 0
  obtain ⟨r1, r2⟩ := sorted_rank _ hsorted _ hk
  refine ⟨⟨(la.insertionSort (· ≤ ·)).length, (la.insertionSort (· ≤ ·)).foldl max 0, 0 + (la.insertionSort (· ≤ ·)).sum, (la.insertionSort (· ≤ ·))[(la.insertionSort (· ≤ ·)).length / 2], map⟩, ?_, hlen, ?_, ?_, ?_, ?_, ?_,
    ?_, ?_, ?_⟩
  · unfold report
    simp only [hstat, List.getElem?_eq_getElem hk, em, Option.bind_eq_bind, Option.bind_some, Option.pure_def]
  · rcases f3 with f3 | f3
    · obtain ⟨x, hx⟩ := List.exists_mem_of_ne_nil la hne
      have := f1 x (hp.mem_iff.2 hx)
      rw [f3] at this
      have h0 : x = 0 := by omega
      subst h0
      show (la.insertionSort (· ≤ ·)).foldl max 0 ∈ la
      rw [f3]
      exact hx
    · exact hp.mem_iff.1 f3
  · exact fun x hx => f1 x (hp.mem_iff.2 hx)
  · simp only [hp.sum_nat]; omega
  · exact hp.mem_iff.1 (List.getElem_mem _)
  · rw [← (hp.filter _).length_eq, ← hlen]; exact r1
  · rw [← (hp.filter _).length_eq, ← hlen]; exact r2
  · exact fun v hv => m1 v (hp.mem_iff.2 hv)
  · intro k h
    rw [m3 k h, (hp.filter _).length_eq]

/-- `BuildLCP_` with its report, for every permutation. -/
theorem buildLCPR_total {str : List Byte} (h0 : str ≠ []) (hmax : str.length + 1 < 2 ^ 31) {p : List Nat} (hp : p.Perm (List.range str.length))
    {sa : Fit.FVec} (hh : Holds sa p) :
    ∃ v la r, buildLCP str sa = some v ∧ buildLCPR str sa = some (v, r) ∧ report la = some r ∧ Holds v la ∧ la.length = str.length ∧
      ∀ x ∈ la, x ≤ str.length := by
  have hlen : p.length = str.length := by rw [hp.length_eq, List.length_range]
  have hpos : 0 < str.length := List.length_pos_iff.2 h0
  obtain ⟨ps, e1, l1, hps⟩ := posLoop_total (n := str.length) (fun x hx => List.mem_range.1 (hp.mem_iff.1 hx)) hlen sa hh.2 p.length 0
    (List.replicate sa.size 0) (by omega) (by rw [List.length_replicate, hh.1, hlen]) (fun x hx => by
      rw [(List.mem_replicate.1 hx).2]; exact hpos)
  obtain ⟨la, e2, l2, hla⟩ := lcpLoop_total (str := str) hlen sa hh.2 ps l1 hps str.length 0 (List.replicate sa.size 0) 0 (by omega)
    (by rw [List.length_replicate, hh.1, hlen]) (fun x hx => by rw [(List.mem_replicate.1 hx).2]; omega) (by omega)
  have hne : la ≠ [] := by
    rintro rfl
    simp at l2
    omega
  have hb : ∀ x ∈ la, x < 2 ^ 63 := fun x hx => by have := hla x hx; omega
  obtain ⟨v, e3, l3, hv, _⟩ := Fit.C26_ofVector la hne hb
  obtain ⟨m, e4, _⟩ := Calc.C14_bitLengthFrequencies la hb
  obtain ⟨r, e5, _⟩ := report_spec la hne (fun x hx => by have := hla x hx; omega) (by omega)
  refine ⟨v, la, r, ?_, ?_, e5, ⟨l3, hv⟩, l2, hla⟩
  · rw [hh.1, hlen] at e1 e2
    simp only [buildLCP, hh.1, hlen, e1, l1, e2, e3, e4, List.getElem?_eq_getElem (show la.length / 2 < la.length by omega), Option.bind_eq_bind,
      Option.bind_some, Option.pure_def]
  · rw [hh.1, hlen] at e1 e2
    simp only [buildLCPR, hh.1, hlen, e1, l1, e2, e3, e5, Option.bind_eq_bind, Option.bind_some, Option.pure_def]

/-- C84: the report printed by the constructor is about the LCP array `la` of the object: number of elements, largest value, sum (of which the
average is computed), median (at most half of the values are below it, more than half not above it) and, for every number of bits, the number
of values of that many bits. -/
theorem C84_report (str : List Byte) (h : Plain str) (h0 : str ≠ []) (hmax : str.length + 1 < 2 ^ 31) :
    ∃ o r la, build str = some o ∧ buildLCPR str o.sa = some (o.lcp, r) ∧ Holds o.lcp la ∧
      r.number = str.length ∧ r.maxL ∈ la ∧ (∀ x ∈ la, x ≤ r.maxL) ∧ r.sum = la.sum ∧
      r.median ∈ la ∧ (la.filter (· < r.median)).length ≤ str.length / 2 ∧ str.length / 2 < (la.filter (· ≤ r.median)).length ∧
      (∀ v ∈ la, Nat.log2 v + 1 ≤ r.map.length) ∧ ∀ k (h : k < r.map.length), r.map[k] = (la.filter fun v => Nat.log2 v + 1 == k + 1).length := by
  have hT := saisStr_text h h0 hmax
  obtain ⟨sa, e, hp, hk, hz⟩ := sais_total _ _ _ rfl hT
  obtain ⟨v, p, e1, e2, hp', hh, ev⟩ := buildSA_of h0 hmax e hp hz
  obtain ⟨w, la, r, e3, e4, e5, hw, hll, hla⟩ := buildLCPR_total h0 hmax hp' hh
  have hne : la ≠ [] := by
    have := List.length_pos_iff.2 h0
    exact List.length_pos_iff.1 (by omega)
  obtain ⟨r', e5', g⟩ := report_spec la hne (fun x hx => by have := hla x hx; omega) (by omega)
  rw [e5] at e5'
  obtain rfl := Option.some.inj e5'
  refine ⟨⟨str, v, w⟩, r, la, ?_, e4, hw, ?_⟩
  · simp only [build, e1, e3, Option.bind_eq_bind, Option.bind_some, Option.pure_def]
  · rw [hll] at g
    exact g

example := C84_report [98, 97, 110, 97, 110, 97] (by decide) (by decide) (by decide)

/-- What lies between two lists with a common beginning has the same beginning. -/
theorem between_prefix : ∀ (w a b c : List Byte), w <+: a → w <+: c → a < b → b < c → w <+: b := by
  intro w
  induction w with
  | nil => intro a b c _ _ _ _; exact List.nil_prefix
  | cons x w ih =>
    intro a b c ha hc hab hbc
    obtain ⟨a', rfl⟩ := ha
    obtain ⟨c', rfl⟩ := hc
    cases b with
    | nil => exact absurd hab (List.not_lt_nil _)
    | cons y b =>
      rw [List.cons_append, List.cons_lt_cons_iff] at hab hbc
      have hxy : x = y := by
        rcases hab with h | ⟨h, _⟩
        · rcases hbc with h' | ⟨h', _⟩
          · rw [BitVec.lt_def] at h h'
            omega
          · exact h'.symm
        · exact h
      subst hxy
      have hab' : w ++ a' < b := by
        rcases hab with h | ⟨_, h⟩
        · exact absurd h (by rw [BitVec.lt_def]; omega)
        · exact h
      have hbc' : b < w ++ c' := by
        rcases hbc with h | ⟨_, h⟩
        · exact absurd h (by rw [BitVec.lt_def]; omega)
        · exact h
      exact List.prefix_cons_inj x |>.2 (ih _ _ _ (List.prefix_append _ _) (List.prefix_append _ _) hab' hbc')

/-- C84: if the suffix array is right, the largest value in the report is the length of the longest substring that occurs at two places of the
text. -/
theorem C84_longest (str : List Byte) (h : Plain str) (h0 : str ≠ []) (hmax : str.length + 1 < 2 ^ 31) (o : SufArr) (hb : build str = some o)
    (p : List Nat) (hh : Holds o.sa p) (hs : IsSuffixArray str p) :
    ∃ r, buildLCPR str o.sa = some (o.lcp, r) ∧
      (∃ i j, i < j ∧ j + r.maxL ≤ str.length ∧ (str.drop i).take r.maxL = (str.drop j).take r.maxL) ∧
      ∀ m i j, i < j → j + m ≤ str.length → (str.drop i).take m = (str.drop j).take m → m ≤ r.maxL := by
  obtain ⟨o', r, la, hb', e, hL, _, hmem, hall, _⟩ := C84_report str h h0 hmax
  rw [hb] at hb'
  obtain rfl := Option.some.inj hb'
  obtain ⟨hsz, hlast, hlcp⟩ := C63_lcp str h0 hmax o hb p hh hs
  have hpl : p.length = str.length := by rw [hs.1.length_eq, List.length_range]
  have hlal : la.length = str.length := by rw [← hL.1, hsz]
  have hpos := List.length_pos_iff.2 h0
  have hlt : ∀ x ∈ p, x < str.length := fun x hx => List.mem_range.1 (hs.1.mem_iff.1 hx)
  refine ⟨r, e, ?_, ?_⟩
  · obtain ⟨k, hk, hkr⟩ := List.getElem_of_mem hmem
    have hgk : o.lcp.get k = some r.maxL := by rw [hL.2 k hk, List.getElem?_eq_getElem hk, hkr]
    by_cases hk1 : k + 1 < p.length
    · obtain ⟨m, hm, hlm⟩ := hlcp k p[k] p[k + 1] (List.getElem?_eq_getElem (by omega)) (List.getElem?_eq_getElem hk1)
      rw [hgk] at hm
      obtain rfl := Option.some.inj hm
      obtain ⟨⟨w, hw, w1, w2⟩, _⟩ := hlm
      have t1 : (str.drop p[k]).take r.maxL = w := by rw [← hw]; exact (List.prefix_iff_eq_take.1 w1).symm
      have t2 : (str.drop p[k + 1]).take r.maxL = w := by rw [← hw]; exact (List.prefix_iff_eq_take.1 w2).symm
      have u1 := w1.length_le
      have u2 := w2.length_le
      rw [List.length_drop, hw] at u1 u2
      have v1 := hlt _ (List.getElem_mem (l := p) (n := k) (by omega))
      have v2 := hlt _ (List.getElem_mem hk1)
      have hord := List.pairwise_iff_getElem.1 hs.2 k (k + 1) (by omega) hk1 (by omega)
      rcases Nat.lt_trichotomy p[k] p[k + 1] with hc | hc | hc
      · exact ⟨_, _, hc, by omega, by rw [t1, t2]⟩
      · rw [hc] at hord
        exact absurd hord (List.lt_irrefl _)
      · exact ⟨_, _, hc, by omega, by rw [t1, t2]⟩
    · have : k = str.length - 1 := by omega
      rw [this, hlast] at hgk
      rw [← Option.some.inj hgk]
      exact ⟨0, 1, by omega, by omega, by simp⟩
  · intro m i j hij hjm heq
    rcases Nat.eq_zero_or_pos m with rfl | hm0
    · omega
    -- the ranks of the two suffixes
    obtain ⟨ri, hri, hpi⟩ := List.getElem_of_mem (hs.1.mem_iff.2 (List.mem_range.2 (show i < str.length by omega)))
    obtain ⟨rj, hrj, hpj⟩ := List.getElem_of_mem (hs.1.mem_iff.2 (List.mem_range.2 (show j < str.length by omega)))
    have w1 : (str.drop i).take m <+: str.drop i := List.take_prefix _ _
    have w2 : (str.drop i).take m <+: str.drop j := by rw [heq]; exact List.take_prefix _ _
    have hwl : ((str.drop i).take m).length = m := by rw [List.length_take, List.length_drop]; omega
    generalize (str.drop i).take m = w at w1 w2 hwl
    have key : ∀ ra rb, ra < rb → ∀ (hra : ra < p.length) (hrb : rb < p.length), w <+: str.drop p[ra] → w <+: str.drop p[rb] → m ≤ r.maxL := by
      intro ra rb hab hra hrb q1 q2
      have hn : w <+: str.drop p[ra + 1] := by
        rcases Nat.eq_or_lt_of_le (show ra + 1 ≤ rb by omega) with e | hlt2
        · subst e; exact q2
        · exact between_prefix w _ _ _ q1 q2 (List.pairwise_iff_getElem.1 hs.2 ra (ra + 1) hra (by omega) (by omega))
            (List.pairwise_iff_getElem.1 hs.2 (ra + 1) rb (by omega) hrb hlt2)
      obtain ⟨l, hl, hll⟩ := hlcp ra p[ra] p[ra + 1] (List.getElem?_eq_getElem hra) (List.getElem?_eq_getElem (by omega))
      have := hll.2 w q1 hn
      rw [hL.2 ra (by omega)] at hl
      have := hall l (List.mem_of_getElem? hl)
      omega
    rcases Nat.lt_trichotomy ri rj with hc | hc | hc
    · exact key ri rj hc hri hrj (by rw [hpi]; exact w1) (by rw [hpj]; exact w2)
    · subst hc
      omega
    · exact key rj ri hc hrj hri (by rw [hpj]; exact w2) (by rw [hpi]; exact w1)

/-- "banana": the LCP array is 1 3 0 0 2 0, "ana" occurs twice. -/
example : ((build [98, 97, 110, 97, 110, 97]).bind fun o => buildLCPR [98, 97, 110, 97, 110, 97] o.sa).map (·.2) = some ⟨6, 3, 6, 1, [4, 2]⟩ := by
  decide +kernel

end Verif.SA
