/-
Facts about the construction of the LCP array.
-/
import Verif.SA.Model
import Verif.Fit.Props
import Verif.Calc.Props
import Verif.Pigeon

namespace Verif.SA
open Verif.Serial

/-- Length of the longest common prefix. -/
def cpl : List Byte → List Byte → Nat
  | a :: u, b :: v => if a = b then cpl u v + 1 else 0
  | _, _ => 0

theorem cpl_le_left : ∀ u v, cpl u v ≤ u.length := by
  intro u
  induction u with
  | nil => intro v; simp [cpl]
  | cons a u ih =>
    intro v
    cases v with
    | nil => simp [cpl]
    | cons b v =>
      rw [cpl]
      split
      · have := ih v; simp only [List.length_cons]; omega
      · omega

theorem cpl_prefix : ∀ u v, u.take (cpl u v) <+: u ∧ u.take (cpl u v) <+: v := by
  intro u
  induction u with
  | nil => intro v; simp [cpl]
  | cons a u ih =>
    intro v
    cases v with
    | nil => simp [cpl]
    | cons b v =>
      rw [cpl]
      split
      · rename_i h
        subst h
        simp only [List.take_succ_cons, List.cons_prefix_cons, true_and]
        exact ih v
      · simp

theorem cpl_max : ∀ u v w, w <+: u → w <+: v → w.length ≤ cpl u v := by
  intro u
  induction u with
  | nil => intro v w h _; simp [List.prefix_nil.1 h]
  | cons a u ih =>
    intro v w h1 h2
    cases w with
    | nil => simp
    | cons c w =>
      cases v with
      | nil => simp at h2
      | cons b v =>
        obtain ⟨rfl, h1'⟩ := List.cons_prefix_cons.1 h1
        obtain ⟨rfl, h2'⟩ := List.cons_prefix_cons.1 h2
        have := ih v w h1' h2'
        simp only [cpl, if_pos, List.length_cons]
        omega

theorem cpl_sandwich : ∀ u v w : List Byte, u < v → v < w → cpl u w ≤ cpl u v := by
  intro u
  induction u with
  | nil => intro v w _ _; simp [cpl]
  | cons a u ih =>
    intro v w h1 h2
    cases v with
    | nil => simp at h1
    | cons b v =>
      cases w with
      | nil => simp at h2
      | cons c w =>
        rw [List.cons_lt_cons_iff] at h1 h2
        simp only [cpl]
        by_cases hac : a = c
        · subst hac
          have hab : a = b := by
            rcases h1 with h1 | h1
            · rcases h2 with h2 | h2
              · exact absurd (BitVec.lt_trans h1 h2) (BitVec.lt_irrefl _)
              · exact h2.1.symm
            · exact h1.1
          subst hab
          have h1' : u < v := by
            rcases h1 with h1 | h1
            · exact absurd h1 (BitVec.lt_irrefl _)
            · exact h1.2
          have h2' : v < w := by
            rcases h2 with h2 | h2
            · exact absurd h2 (BitVec.lt_irrefl _)
            · exact h2.2
          have := ih v w h1' h2'
          simp only [if_pos]
          omega
        · rw [if_neg hac]; omega

theorem compareLoop_spec (str : List Byte) : ∀ (k li ri m : Nat), str.length - li = k →
    compareLoop str li ri m = m + cpl (str.drop li) (str.drop ri) := by
  intro k
  induction k with
  | zero =>
    intro li ri m hk
    rw [compareLoop, dif_neg (by omega), List.drop_eq_nil_of_le (by omega), cpl]
    · rfl
    · simp
  | succ k ih =>
    intro li ri m hk
    have hl : li < str.length := by omega
    rw [compareLoop]
    by_cases hr : ri < str.length
    · rw [dif_pos (by omega), List.drop_eq_getElem_cons hl, List.drop_eq_getElem_cons hr, cpl]
      split
      · rw [ih (li + 1) (ri + 1) (m + 1) (by omega)]; omega
      · rfl
    · rw [dif_neg (by omega), List.drop_eq_nil_of_le (as := str) (i := ri) (by omega)]
      cases str.drop li <;> simp [cpl]

theorem cpl_add (str : List Byte) : ∀ (s i j : Nat), s ≤ cpl (str.drop i) (str.drop j) →
    s + cpl (str.drop (i + s)) (str.drop (j + s)) = cpl (str.drop i) (str.drop j) := by
  intro s
  induction s with
  | zero => intro i j _; simp
  | succ s ih =>
    intro i j h
    have h1 : i < str.length := by
      apply Decidable.byContradiction
      intro hc
      rw [List.drop_eq_nil_of_le (by omega)] at h
      simp [cpl] at h
    have h2 : j < str.length := by
      apply Decidable.byContradiction
      intro hc
      rw [List.drop_eq_nil_of_le (as := str) (i := j) (by omega), List.drop_eq_getElem_cons h1] at h
      simp [cpl] at h
    rw [List.drop_eq_getElem_cons h1, List.drop_eq_getElem_cons h2] at h ⊢
    rw [cpl] at h ⊢
    split at h
    · rename_i he
      rw [if_pos he]
      have := ih (i + 1) (j + 1) (by omega)
      rw [show i + 1 + s = i + (s + 1) by omega, show j + 1 + s = j + (s + 1) by omega] at this
      omega
    · omega

theorem compareLCP_spec (str : List Byte) (i j s : Nat) (h : s ≤ cpl (str.drop i) (str.drop j)) :
    compareLCP str i j s = cpl (str.drop i) (str.drop j) := by
  rw [compareLCP, compareLoop_spec str _ _ _ _ rfl, cpl_add str s i j h]

theorem startLCP_le (l : Nat) : startLCP l ≤ l - 1 := by
  unfold startLCP
  simp only
  split
  · rename_i h
    have h1 : (BitVec.ofNat 32 l).toInt ≤ ((BitVec.ofNat 32 l).toNat : Int) := by
      rw [BitVec.toInt_eq_toNat_cond]
      split <;> omega
    rw [BitVec.toNat_ofNat] at h1
    have h2 : l % 2 ^ 32 ≤ l := Nat.mod_le _ _
    omega
  · omega

/-- The suffix array as a list, correct for the text. -/
structure Sorted (str : List Byte) (p : List Nat) : Prop where
  perm : p.Perm (List.range str.length)
  sorted : p.Pairwise (fun i j => str.drop i < str.drop j)

theorem Sorted.length {str : List Byte} {p : List Nat} (h : Sorted str p) : p.length = str.length := by
  rw [h.perm.length_eq, List.length_range]

theorem Sorted.lt {str : List Byte} {p : List Nat} (h : Sorted str p) {i x : Nat} (hi : p[i]? = some x) : x < str.length :=
  List.mem_range.1 (h.perm.mem_iff.1 (List.mem_of_getElem? hi))

theorem Sorted.nodup {str : List Byte} {p : List Nat} (h : Sorted str p) : p.Nodup := h.perm.nodup_iff.2 List.nodup_range

theorem Sorted.surj {str : List Byte} {p : List Nat} (h : Sorted str p) {x : Nat} (hx : x < str.length) : ∃ i : Nat, p[i]? = some x :=
  List.mem_iff_getElem?.1 (h.perm.mem_iff.2 (List.mem_range.2 hx))

theorem Sorted.inj {str : List Byte} {p : List Nat} (h : Sorted str p) {i j x : Nat} (hi : p[i]? = some x) (hj : p[j]? = some x) : i = j := by
  obtain ⟨h1, e1⟩ := List.getElem?_eq_some_iff.1 hi
  exact (List.getElem?_inj h1 h.nodup).1 (hi.trans hj.symm)

theorem Sorted.order {str : List Byte} {p : List Nat} (h : Sorted str p) {i j x y : Nat} (hi : p[i]? = some x) (hj : p[j]? = some y) (hij : i < j) :
    str.drop x < str.drop y := by
  obtain ⟨h1, e1⟩ := List.getElem?_eq_some_iff.1 hi
  obtain ⟨h2, e2⟩ := List.getElem?_eq_some_iff.1 hj
  have := List.pairwise_iff_getElem.1 h.sorted i j h1 h2 hij
  rw [e1, e2] at this
  exact this

theorem lt_asymm' {u v : List Byte} (h1 : u < v) (h2 : v < u) : False := List.lt_irrefl u (List.lt_trans h1 h2)

theorem Sorted.order_iff {str : List Byte} {p : List Nat} (h : Sorted str p) {i j x y : Nat} (hi : p[i]? = some x) (hj : p[j]? = some y)
    (hxy : str.drop x < str.drop y) : i < j := by
  rcases Nat.lt_trichotomy i j with h1 | h1 | h1
  · exact h1
  · subst h1
    rw [hi] at hj
    cases hj
    exact absurd hxy (List.lt_irrefl _)
  · exact absurd (h.order hj hi h1) (fun h2 => lt_asymm' hxy h2)

theorem posLoop_spec {str : List Byte} {p : List Nat} (h : Sorted str p) (sa : Fit.FVec) (hg : ∀ i, i < p.length → sa.get i = p[i]?) :
    ∀ (r i : Nat) (ps : List Nat), r + i = p.length → ps.length = p.length → (∀ (j x : Nat), j < i → p[j]? = some x → ps[x]? = some j) →
      ∃ ps', posLoop sa r i ps = some ps' ∧ ps'.length = p.length ∧ ∀ (j x : Nat), p[j]? = some x → ps'[x]? = some j := by
  intro r
  induction r with
  | zero =>
    intro i ps hr hl hps
    refine ⟨ps, rfl, hl, fun j x hx => hps j x ?_ hx⟩
    obtain ⟨hj, _⟩ := List.getElem?_eq_some_iff.1 hx
    omega
  | succ r ih =>
    intro i ps hr hl hps
    have hi : i < p.length := by omega
    have e : p[i]? = some p[i] := List.getElem?_eq_getElem hi
    have hx : p[i] < str.length := h.lt e
    have hlen := h.length
    simp only [posLoop, hg i hi, e, Option.bind_eq_bind, Option.bind_some, wr_eq ps p[i] i (by omega)]
    apply ih (i + 1) _ (by omega) (by simp [hl])
    intro j x hj hx'
    rw [List.getElem?_set]
    by_cases hji : j = i
    · subst hji
      rw [e] at hx'
      cases hx'
      rw [if_pos rfl, if_pos (by omega)]
    · have : x ≠ p[i] := by
        rintro rfl
        exact hji (h.inj hx' e)
      rw [if_neg (fun hc => this hc.symm)]
      exact hps j x (by omega) hx'

/-- The value at a rank. -/
def lcpAt (str : List Byte) (p : List Nat) (r : Nat) : Nat :=
  match p[r]?, p[r + 1]? with
  | some x, some y => cpl (str.drop x) (str.drop y)
  | _, _ => 0

theorem lcpAt_lt (str : List Byte) (p : List Nat) (r : Nat) : lcpAt str p r ≤ str.length := by
  unfold lcpAt
  split
  · refine Nat.le_trans (cpl_le_left _ _) ?_
    rw [List.length_drop]
    omega
  · omega

/-- The bound of Kasai et al. -/
theorem lcpAt_next {str : List Byte} {p : List Nat} (h : Sorted str p) {r r' i : Nat} (hr : p[r]? = some i) (hr' : p[r']? = some (i + 1)) :
    lcpAt str p r - 1 ≤ lcpAt str p r' := by
  by_cases hle : lcpAt str p r ≤ 1
  · omega
  have hle' : 1 < lcpAt str p r := by omega
  unfold lcpAt at hle'
  rw [hr] at hle'
  cases hy : p[r + 1]? with
  | none => rw [hy] at hle'; simp at hle'
  | some j =>
    rw [hy] at hle'
    simp only at hle'
    have hval : lcpAt str p r = cpl (str.drop i) (str.drop j) := by unfold lcpAt; rw [hr, hy]
    have hij := h.order hr hy (by omega)
    have hi := h.lt hr
    have hj := h.lt hy
    rw [List.drop_eq_getElem_cons hi, List.drop_eq_getElem_cons hj] at hle' hij
    rw [cpl] at hle'
    split at hle'
    · rename_i he
      rw [he, List.cons_lt_cons_iff] at hij
      have hij' : str.drop (i + 1) < str.drop (j + 1) := by
        rcases hij with h1 | h1
        · exact absurd h1 (BitVec.lt_irrefl _)
        · exact h1.2
      have hv2 : lcpAt str p r = cpl (str.drop (i + 1)) (str.drop (j + 1)) + 1 := by
        rw [hval, List.drop_eq_getElem_cons hi, List.drop_eq_getElem_cons hj, cpl, if_pos he]
      have hj1 : j + 1 < str.length := by
        apply Decidable.byContradiction
        intro hc
        rw [List.drop_eq_nil_of_le (as := str) (i := j + 1) (by omega)] at hij'
        simp at hij'
      obtain ⟨q, hq⟩ := h.surj hj1
      have hrq := h.order_iff hr' hq hij'
      obtain ⟨hql, _⟩ := List.getElem?_eq_some_iff.1 hq
      have hk : p[r' + 1]? = some (p[r' + 1]'(by omega)) := List.getElem?_eq_getElem (by omega)
      have hfin : lcpAt str p r' = cpl (str.drop (i + 1)) (str.drop (p[r' + 1]'(by omega))) := by
        unfold lcpAt
        rw [hr', hk]
      rw [hfin, hv2, Nat.add_sub_cancel]
      by_cases hqr : q = r' + 1
      · subst hqr
        rw [Option.some.inj (hk.symm.trans hq)]
      · exact cpl_sandwich _ _ _ (h.order hr' hk (by omega)) (h.order hk hq (by omega))
    · omega

theorem lcpLoop_spec {str : List Byte} {p : List Nat} (h : Sorted str p) (sa : Fit.FVec) (hg : ∀ i, i < p.length → sa.get i = p[i]?)
    (ps : List Nat) (hps : ps.length = p.length) (hpos : ∀ (j x : Nat), p[j]? = some x → ps[x]? = some j) :
    ∀ (r i : Nat) (la : List Nat) (prev : Nat), r + i = p.length → la.length = p.length →
      (∀ (j x : Nat), p[j]? = some x → x < i → la[j]? = some (lcpAt str p j)) →
      (prev = 0 ∨ ∃ j i', i = i' + 1 ∧ p[j]? = some i' ∧ prev = lcpAt str p j) →
      ∃ la', lcpLoop str sa ps r i la prev = some la' ∧ la'.length = p.length ∧ ∀ j, j < p.length → la'[j]? = some (lcpAt str p j) := by
  intro r
  have hlen := h.length
  induction r with
  | zero =>
    intro i la prev hr hl hla _
    refine ⟨la, rfl, hl, fun j hj => ?_⟩
    have e : p[j]? = some p[j] := List.getElem?_eq_getElem hj
    exact hla j _ e (by have := h.lt e; omega)
  | succ r ih =>
    intro i la prev hr hl hla hprev
    obtain ⟨pos, hp⟩ := h.surj (x := i) (by omega)
    have hp' := hpos pos i hp
    obtain ⟨hpl, _⟩ := List.getElem?_eq_some_iff.1 hp
    have hcase : lcpVal str sa ps.length i pos prev = some (lcpAt str p pos) := by
      unfold lcpVal
      split
      · rename_i he
        unfold lcpAt
        rw [hp, List.getElem?_eq_none (l := p) (i := pos + 1) (by omega)]
      · rename_i he
        have hk : p[pos + 1]? = some (p[pos + 1]'(by omega)) := List.getElem?_eq_getElem (by omega)
        have hval : lcpAt str p pos = cpl (str.drop i) (str.drop (p[pos + 1]'(by omega))) := by
          unfold lcpAt
          rw [hp, hk]
        simp only [hg (pos + 1) (by omega), hk, Option.map_some]
        rw [hval, compareLCP_spec]
        rw [← hval]
        have hs := startLCP_le prev
        rcases hprev with rfl | ⟨j, i', rfl, hj, rfl⟩
        · omega
        · have := lcpAt_next h hj hp
          omega
    simp only [lcpLoop, hp', hcase, Option.bind_eq_bind, Option.bind_some, wr_eq la pos _ (show pos < la.length by omega)]
    apply ih (i + 1) _ _ (by omega) (by simp [hl])
    · intro j x hx hxi
      rw [List.getElem?_set]
      by_cases hj : pos = j
      · subst hj
        rw [if_pos rfl, if_pos (by omega)]
      · rw [if_neg hj]
        apply hla j x hx
        apply Nat.lt_of_le_of_ne (by omega)
        rintro rfl
        exact hj (h.inj hp hx)
    · exact Or.inr ⟨pos, i, rfl, hp, rfl⟩

theorem buildLCP_spec {str : List Byte} {p : List Nat} (h : Sorted str p) (h0 : 0 < str.length) (hmax : str.length < 2 ^ 63) (sa : Fit.FVec)
    (hsz : sa.size = p.length) (hg : ∀ i, i < p.length → sa.get i = p[i]?) :
    ∃ v, buildLCP str sa = some v ∧ v.size = p.length ∧ ∀ j, j < p.length → v.get j = some (lcpAt str p j) := by
  have hlen := h.length
  obtain ⟨ps, e1, l1, hps⟩ := posLoop_spec h sa hg p.length 0 (List.replicate sa.size 0) (by omega) (by simp [hsz]) (by intro j x hj; omega)
  obtain ⟨la, e2, l2, hla⟩ := lcpLoop_spec h sa hg ps l1 hps p.length 0 (List.replicate sa.size 0) 0 (by omega) (by simp [hsz])
    (by intro j x _ hx; omega) (Or.inl rfl)
  have hne : la ≠ [] := by
    rintro rfl
    simp at l2
    omega
  have hb : ∀ x ∈ la, x < 2 ^ 63 := by
    intro x hx
    obtain ⟨j, hj⟩ := List.mem_iff_getElem?.1 hx
    obtain ⟨hjl, _⟩ := List.getElem?_eq_some_iff.1 hj
    rw [hla j (by omega)] at hj
    cases hj
    have := lcpAt_lt str p j
    omega
  obtain ⟨v, e3, l3, hv, _⟩ := Fit.C26_ofVector la hne hb
  obtain ⟨m, e4, _⟩ := Calc.C14_bitLengthFrequencies la hb
  refine ⟨v, ?_, by rw [l3, l2], fun j hj => by rw [hv j (by omega), hla j hj]⟩
  rw [hsz] at e1 e2
  simp only [buildLCP, hsz, e1, l1, e2, e3, e4, List.getElem?_eq_getElem (show la.length / 2 < la.length by omega), Option.bind_eq_bind,
    Option.bind_some, Option.pure_def]

end Verif.SA
