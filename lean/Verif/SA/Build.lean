/-
From byte strings to texts with a terminator; the constructor as a whole.
-/
import Verif.SA.Exact2
import Verif.SA.Lcp
import Verif.Serial.Props

namespace Verif.SA
open Verif.Serial

/-- Byte strings for which `SaisStr_` makes a text. -/
def Plain (str : List Byte) : Prop := ∀ b ∈ str, 0 < b.toNat ∧ b.toNat < 128

theorem saisStr_eq {str : List Byte} (h : Plain str) : saisStr str = str.map BitVec.toNat ++ [0] := by
  unfold saisStr
  congr 1
  apply List.map_congr_left
  intro b hb
  rw [if_pos (h b hb).2]

theorem saisStr_length (str : List Byte) : (saisStr str).length = str.length + 1 := by
  simp [saisStr]

theorem saisStr_ltr {str : List Byte} (h : Plain str) {i : Nat} (hi : i < str.length) : ltr (saisStr str) i = str[i].toNat := by
  rw [saisStr_eq h, ltr, List.getD_eq_getElem?_getD, List.getElem?_append_left (by rw [List.length_map]; exact hi), List.getElem?_map,
    List.getElem?_eq_getElem hi]
  rfl

theorem saisStr_text {str : List Byte} (h : Plain str) (h0 : str ≠ []) (hmax : str.length + 1 < 2 ^ 31) : Text (saisStr str) 0xff := by
  have hl := saisStr_length str
  have hp : 0 < str.length := List.length_pos_iff.2 h0
  constructor
  · omega
  · rw [hl, Nat.add_sub_cancel, saisStr_eq h, ltr]
    simp
  · intro i hi
    rw [hl] at hi
    rw [saisStr_ltr h (by omega)]
    exact (h _ (List.getElem_mem _)).1
  · intro x hx
    rw [saisStr_eq h, List.mem_append] at hx
    rcases hx with hx | hx
    · obtain ⟨b, hb, rfl⟩ := List.mem_map.1 hx
      have := (h b hb).2
      omega
    · rw [List.mem_singleton.1 hx]
      omega
  · omega

theorem enc_lt : ∀ (u v : List Byte), Plain u → Plain v →
    (u.map BitVec.toNat ++ [0] < v.map BitVec.toNat ++ [0] ↔ u < v) := by
  intro u
  induction u with
  | nil =>
    intro v _ hv
    cases v with
    | nil => simp
    | cons b v =>
      have := (hv b (by simp)).1
      simp only [List.map_nil, List.nil_append, List.map_cons, List.cons_append, List.cons_lt_cons_iff]
      simp [this]
  | cons a u ih =>
    intro v hu hv
    cases v with
    | nil =>
      have := (hu a (by simp)).1
      simp only [List.map_nil, List.nil_append, List.map_cons, List.cons_append, List.cons_lt_cons_iff]
      simp
    | cons b v =>
      have hi := ih v (fun x hx => hu x (by simp [hx])) (fun x hx => hv x (by simp [hx]))
      simp only [List.map_cons, List.cons_append, List.cons_lt_cons_iff, hi, BitVec.lt_def, BitVec.toNat_inj]

theorem saisStr_lt {str : List Byte} (h : Plain str) {i j : Nat} (hi : i ≤ str.length) (hj : j ≤ str.length) :
    (saisStr str).drop i < (saisStr str).drop j ↔ str.drop i < str.drop j := by
  rw [saisStr_eq h]
  have hd : ∀ i, i ≤ str.length → (str.map BitVec.toNat ++ [0]).drop i = (str.drop i).map BitVec.toNat ++ [0] := by
    intro i hi
    rw [List.drop_append_of_le_length (by rw [List.length_map]; exact hi), List.map_drop]
  rw [hd i hi, hd j hj]
  exact enc_lt _ _ (fun b hb => h b (List.mem_of_mem_drop hb)) (fun b hb => h b (List.mem_of_mem_drop hb))

/-- The types are the comparisons of neighbouring suffixes. -/
theorem typ_iff {str : List Nat} {mx : Nat} (hT : Text str mx) : ∀ (m i : Nat), str.length - i = m → i + 1 < str.length →
    (typ str i = true ↔ str.drop i < str.drop (i + 1)) := by
  intro m
  induction m with
  | zero => intro i hm hi; omega
  | succ m ih =>
    intro i hm hi
    have hpos := hT.pos i hi
    rw [classify_step str i hi, drop_cons (i := i) (by omega), drop_cons (i := i + 1) hi, List.cons_lt_cons_iff]
    by_cases he : ltr str i = ltr str (i + 1)
    · rw [if_pos he]
      have hi2 : i + 1 + 1 < str.length := by
        apply Decidable.byContradiction
        intro hc
        have := (hT.zero_iff hi).2 (by omega)
        omega
      rw [ih (i + 1) (by omega) hi2]
      constructor
      · intro h
        right
        refine ⟨he, ?_⟩
        rw [← drop_cons hi]
        exact h
      · rintro (h | h)
        · omega
        · rw [drop_cons hi]
          exact h.2
    · rw [if_neg he, decide_eq_true_eq]
      constructor
      · exact Or.inl
      · rintro (h | h)
        · exact h
        · exact absurd h.1 he

/-- A position between a larger suffix before and a larger suffix behind. -/
def IsValley (str : List Byte) (i : Nat) : Prop :=
  0 < i ∧ i < str.length ∧ str.drop i < str.drop (i - 1) ∧ str.drop i < str.drop (i + 1)

theorem lms_iff {str : List Byte} (h : Plain str) (h0 : str ≠ []) (hmax : str.length + 1 < 2 ^ 31) {i : Nat} (hi : i < str.length) :
    IsLms (saisStr str) i ↔ IsValley str i := by
  have hT := saisStr_text h h0 hmax
  have hl := saisStr_length str
  unfold IsLms IsValley
  by_cases hi0 : 0 < i
  · have h1 := typ_iff hT _ (i - 1) rfl (by omega)
    have h2 := typ_iff hT _ i rfl (by omega)
    rw [show i - 1 + 1 = i by omega] at h1
    rw [saisStr_lt h (by omega) (by omega)] at h1 h2
    have h3 : typ (saisStr str) (i - 1) = false ↔ str.drop i < str.drop (i - 1) := by
      rw [← Bool.not_eq_true, h1]
      constructor
      · intro hn
        apply Decidable.byContradiction
        intro hc
        have := List.le_antisymm hn hc
        have := congrArg List.length this
        simp only [List.length_drop] at this
        omega
      · intro hlt hc
        exact List.lt_irrefl _ (List.lt_trans hlt hc)
    rw [h3, h2]
    constructor
    · rintro ⟨h4, _, h5⟩; exact ⟨h4, hi, h5⟩
    · rintro ⟨h4, _, h5⟩; exact ⟨h4, by omega, h5⟩
  · constructor
    · intro hc; exact absurd hc.1 hi0
    · intro hc; exact absurd hc.1 hi0

/-- An array holds a list. -/
def Holds (v : Fit.FVec) (p : List Nat) : Prop := v.size = p.length ∧ ∀ i, i < p.length → v.get i = p[i]?

theorem buildSA_of {str : List Byte} (h0 : str ≠ []) (hmax : str.length + 1 < 2 ^ 31) {sa : List Nat}
    (e : sais (saisStr str) 0xff = some sa) (hp : sa.Perm (List.range (saisStr str).length))
    (hz : sa[0]? = some ((saisStr str).length - 1)) :
    ∃ v p, buildSA str = some v ∧ sa = str.length :: p ∧ p.Perm (List.range str.length) ∧ Holds v p ∧ Fit.ofVector p = some v := by
  have hl := saisStr_length str
  cases sa with
  | nil => simp at hz
  | cons x p =>
    simp only [List.getElem?_cons_zero, Option.some.injEq, hl, Nat.add_sub_cancel] at hz
    subst hz
    rw [hl, List.range_succ] at hp
    have hp' : p.Perm (List.range str.length) := (hp.trans (List.perm_append_singleton _ _)).cons_inv
    have hlen : p.length = str.length := by rw [hp'.length_eq, List.length_range]
    obtain ⟨v, e2, h1, h2, _⟩ := Fit.C26_ofVector p (by
      rintro rfl
      exact h0 (List.length_eq_zero_iff.1 hlen.symm)) (fun x hx => by
      have := List.mem_range.1 (hp'.mem_iff.1 hx)
      omega)
    refine ⟨v, p, ?_, rfl, hp', ⟨h1, h2⟩, e2⟩
    simp only [buildSA, e, Option.bind_eq_bind, Option.bind_some, e2]

theorem compareLoop_le (str : List Byte) : ∀ (m li ri k : Nat), str.length - li = m → compareLoop str li ri k ≤ k + (str.length - li) := by
  intro m
  induction m with
  | zero =>
    intro li ri k hm
    rw [compareLoop]
    split
    · omega
    · omega
  | succ m ih =>
    intro li ri k hm
    rw [compareLoop]
    split
    · split
      · have := ih (li + 1) (ri + 1) (k + 1) (by omega)
        omega
      · omega
    · omega

theorem compareLCP_le (str : List Byte) (li ri k : Nat) (hk : k ≤ str.length) : compareLCP str li ri k ≤ str.length := by
  unfold compareLCP
  have := compareLoop_le str _ (li + k) (ri + k) k rfl
  omega

theorem posLoop_total {p : List Nat} {n : Nat} (hlt : ∀ x ∈ p, x < n) (hn : p.length = n) (sa : Fit.FVec)
    (hg : ∀ i, i < p.length → sa.get i = p[i]?) :
    ∀ (r i : Nat) (ps : List Nat), r + i = p.length → ps.length = n → (∀ x ∈ ps, x < n) →
      ∃ ps', posLoop sa r i ps = some ps' ∧ ps'.length = n ∧ ∀ x ∈ ps', x < n := by
  intro r
  induction r with
  | zero => intro i ps _ hl hx; exact ⟨ps, rfl, hl, hx⟩
  | succ r ih =>
    intro i ps hr hl hx
    have hi : i < p.length := by omega
    have he : sa.get i = some p[i] := by rw [hg i hi, List.getElem?_eq_getElem hi]
    have hpi := hlt _ (List.getElem_mem hi)
    obtain ⟨ps', e, h⟩ := ih (i + 1) (ps.set p[i] i) (by omega) (by simp [hl]) (fun x hx' => by
      rcases List.mem_or_eq_of_mem_set hx' with h | h
      · exact hx x h
      · omega)
    refine ⟨ps', ?_, h⟩
    simp only [posLoop, he, Option.bind_eq_bind, Option.bind_some, wr_eq ps p[i] i (by omega), e]

theorem lcpLoop_total {str : List Byte} {p : List Nat} {n : Nat} (hn : p.length = n) (sa : Fit.FVec)
    (hg : ∀ i, i < p.length → sa.get i = p[i]?) (ps : List Nat) (hpl : ps.length = n) (hps : ∀ x ∈ ps, x < n) :
    ∀ (r i : Nat) (la : List Nat) (prev : Nat), r + i = n → la.length = n → (∀ x ∈ la, x ≤ str.length) → prev ≤ str.length →
      ∃ la', lcpLoop str sa ps r i la prev = some la' ∧ la'.length = n ∧ ∀ x ∈ la', x ≤ str.length := by
  intro r
  induction r with
  | zero => intro i la prev _ hl hx _; exact ⟨la, rfl, hl, hx⟩
  | succ r ih =>
    intro i la prev hr hl hx hprev
    have hi : i < ps.length := by omega
    have hpi := hps _ (List.getElem_mem hi)
    have hv : ∃ c, lcpVal str sa ps.length i ps[i] prev = some c ∧ c ≤ str.length := by
      unfold lcpVal
      split
      · exact ⟨0, rfl, by omega⟩
      · rename_i hne
        rw [hg (ps[i] + 1) (by omega), List.getElem?_eq_getElem (by omega)]
        refine ⟨_, rfl, compareLCP_le str _ _ _ ?_⟩
        have := startLCP_le prev
        omega
    obtain ⟨c, hc, hcl⟩ := hv
    obtain ⟨la', e, h⟩ := ih (i + 1) (la.set ps[i] c) c (by omega) (by simp [hl]) (fun x hx' => by
      rcases List.mem_or_eq_of_mem_set hx' with h | h
      · exact hx x h
      · omega) hcl
    refine ⟨la', ?_, h⟩
    simp only [lcpLoop, List.getElem?_eq_getElem hi, hc, Option.bind_eq_bind, Option.bind_some, wr_eq la ps[i] c (by omega), e]

/-- `BuildLCP_` succeeds for every permutation. -/
theorem buildLCP_total {str : List Byte} (h0 : str ≠ []) (hmax : str.length + 1 < 2 ^ 31) {p : List Nat} (hp : p.Perm (List.range str.length))
    {sa : Fit.FVec} (hh : Holds sa p) :
    ∃ v la, buildLCP str sa = some v ∧ Holds v la ∧ la.length = str.length ∧ Fit.ofVector la = some v ∧ ∀ x ∈ la, x ≤ str.length := by
  have hlen : p.length = str.length := by rw [hp.length_eq, List.length_range]
  have hpos : 0 < str.length := List.length_pos_iff.2 h0
  obtain ⟨ps, e1, l1, hps⟩ := posLoop_total (n := str.length) (fun x hx => List.mem_range.1 (hp.mem_iff.1 hx)) hlen sa hh.2 p.length 0
    (List.replicate sa.size 0) (by omega) (by rw [List.length_replicate, hh.1, hlen]) (fun x hx => by
      rw [(List.mem_replicate.1 hx).2]; exact hpos)
  obtain ⟨la, e2, l2, hla⟩ := lcpLoop_total (str := str) hlen sa hh.2 ps l1 hps str.length 0 (List.replicate sa.size 0) 0 (by omega)
    (by rw [List.length_replicate, hh.1, hlen]) (fun x hx => by rw [(List.mem_replicate.1 hx).2]; omega) (by omega)
  have hne : la ≠ [] := by
    rintro rfl
    simp at l2
    omega
  have hb : ∀ x ∈ la, x < 2 ^ 63 := fun x hx => by have := hla x hx; omega
  obtain ⟨v, e3, l3, hv, _⟩ := Fit.C26_ofVector la hne hb
  obtain ⟨m, e4, _⟩ := Calc.C14_bitLengthFrequencies la hb
  refine ⟨v, la, ?_, ⟨l3, hv⟩, l2, e3, hla⟩
  rw [hh.1, hlen] at e1 e2
  simp only [buildLCP, hh.1, hlen, e1, l1, e2, e3, e4, List.getElem?_eq_getElem (show la.length / 2 < la.length by omega), Option.bind_eq_bind,
    Option.bind_some, Option.pure_def]

theorem build_of {str : List Byte} (h0 : str ≠ []) (hmax : str.length + 1 < 2 ^ 31) {sa : List Nat}
    (e : sais (saisStr str) 0xff = some sa) (hp : sa.Perm (List.range (saisStr str).length))
    (hz : sa[0]? = some ((saisStr str).length - 1)) :
    ∃ v w p la, build str = some ⟨str, v, w⟩ ∧ buildLCP str v = some w ∧ sa = str.length :: p ∧ p.Perm (List.range str.length) ∧ Holds v p ∧
      Holds w la ∧ la.length = str.length ∧ Fit.ofVector p = some v ∧ Fit.ofVector la = some w ∧ ∀ x ∈ la, x ≤ str.length := by
  obtain ⟨v, p, e1, e2, hp', hh, ev⟩ := buildSA_of h0 hmax e hp hz
  obtain ⟨w, la, e3, hw, hll, ew, hla⟩ := buildLCP_total h0 hmax hp' hh
  refine ⟨v, w, p, la, ?_, e3, e2, hp', hh, hw, hll, ev, ew, hla⟩
  simp only [build, e1, e3, Option.bind_eq_bind, Option.bind_some, Option.pure_def]

theorem countBuckets_oob : ∀ (str cs : List Nat), (∃ x ∈ str, cs.length ≤ x) → countBuckets str cs = none := by
  intro str
  induction str with
  | nil => rintro cs ⟨x, hx, _⟩; simp at hx
  | cons s str ih =>
    rintro cs ⟨x, hx, hle⟩
    rw [countBuckets]
    by_cases hs : s < cs.length
    · rw [List.getElem?_eq_getElem hs]
      simp only [Option.bind_eq_bind, Option.bind_some, wr_eq cs s _ hs]
      rcases List.mem_cons.1 hx with rfl | hx
      · omega
      · exact ih _ ⟨x, hx, by rw [List.length_set]; exact hle⟩
    · rw [List.getElem?_eq_none (by omega)]
      rfl

/-- The suffix order on a list that a text's array gives. -/
theorem tail_order {str : List Byte} (h : Plain str) {p : List Nat} (hp : p.Perm (List.range str.length))
    (hpw : (str.length :: p).Pairwise (fun i j => (saisStr str).drop i < (saisStr str).drop j)) :
    p.Pairwise (fun i j => str.drop i < str.drop j) := by
  refine (List.Pairwise.and_mem.1 (List.pairwise_cons.1 hpw).2).imp ?_
  rintro i j ⟨hi, hj, hlt⟩
  have hi' := List.mem_range.1 (hp.mem_iff.1 hi)
  have hj' := List.mem_range.1 (hp.mem_iff.1 hj)
  exact (saisStr_lt h (by omega) (by omega)).1 hlt

end Verif.SA
