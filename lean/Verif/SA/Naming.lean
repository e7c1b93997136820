/-
The names of the LMS substrings in `InducedSort_`.
-/
import Verif.SA.Key

namespace Verif.SA

theorem isLms_spec {str : List Nat} {id : Nat} (h0 : id ≠ 0) (h : id < str.length) : isLms (classify str) id = some (decide (IsLms str id)) := by
  have hcl := classify_length str
  have e1 : (classify str)[id - 1]? = some (typ str (id - 1)) := getD_some _ _ _ (by omega)
  have e2 : (classify str)[id]? = some (typ str id) := getD_some _ _ _ (by omega)
  unfold isLms
  rw [e1, e2]
  by_cases h1 : typ str (id - 1) = true
  · rw [h1]
    have : ¬ IsLms str id := fun hc => by
      rw [hc.2.2.1] at h1
      cases h1
    simp [this]
  · have h1' : typ str (id - 1) = false := by simpa using h1
    rw [h1']
    by_cases h2 : typ str id = true
    · have : IsLms str id := ⟨by omega, h, h1', h2⟩
      simp only [h2, this, decide_true]
    · have : ¬ IsLms str id := fun hc => h2 hc.2.2.2
      have h2' : typ str id = false := by simpa using h2
      simp only [h2', this, decide_false]

theorem list_lt_of {a b : List Nat} (h1 : ¬ b < a) (h2 : a ≠ b) : a < b := by
  apply Decidable.byContradiction
  intro h3
  exact h2 (List.le_antisymm h1 h3)

structure NInv (str done sub : List Nat) (ch last : Nat) : Prop where
  len : sub.length = str.length
  val : ∀ i, i < str.length → ¬ (i ∈ done ∧ IsLms str i) → sub[i]? = some kInf
  le : ∀ i, i ∈ done → IsLms str i → ∃ c, sub[i]? = some c ∧ c ≤ ch
  lt : ∀ i j, i ∈ done → j ∈ done → IsLms str i → IsLms str j → keyc str true i < keyc str true j →
    ∀ c d, sub[i]? = some c → sub[j]? = some d → c < d
  eq : ∀ i j, i ∈ done → j ∈ done → IsLms str i → IsLms str j → keyc str true i = keyc str true j → sub[i]? = sub[j]?
  lastm : last ∈ done ∧ IsLms str last ∧ sub[last]? = some ch
  top : ∀ i, i ∈ done → IsLms str i → ¬ keyc str true last < keyc str true i
  cnt : ch + 1 ≤ (done.filter (fun i => decide (IsLms str i))).length
  zero : str.length - 1 ∈ done ∧ sub[str.length - 1]? = some 0
  sharp : ∀ i j, i ∈ done → j ∈ done → IsLms str i → IsLms str j → i ≠ j → keyc str true i = keyc str true j →
    ch + 2 ≤ (done.filter (fun i => decide (IsLms str i))).length

theorem ninv_skip {str done sub : List Nat} {ch last id : Nat} (h : NInv str done sub ch last) (hid : ¬ IsLms str id) :
    NInv str (done ++ [id]) sub ch last := by
  have hm : ∀ i, i ∈ done ++ [id] → IsLms str i → i ∈ done := by
    intro i hi hl
    rcases List.mem_append.1 hi with hi | hi
    · exact hi
    · rw [List.mem_singleton.1 hi] at hl
      exact absurd hl hid
  refine ⟨h.len, ?_, ?_, ?_, ?_, ?_, ?_, ?_, ?_, ?_⟩
  · intro i hi hn
    exact h.val i hi (fun hc => hn ⟨List.mem_append_left _ hc.1, hc.2⟩)
  · intro i hi hl
    exact h.le i (hm i hi hl) hl
  · intro i j hi hj hl hl'
    exact h.lt i j (hm i hi hl) (hm j hj hl') hl hl'
  · intro i j hi hj hl hl'
    exact h.eq i j (hm i hi hl) (hm j hj hl') hl hl'
  · exact ⟨List.mem_append_left _ h.lastm.1, h.lastm.2⟩
  · intro i hi hl
    exact h.top i (hm i hi hl) hl
  · rw [List.filter_append, List.length_append]
    have := h.cnt
    omega
  · exact ⟨List.mem_append_left _ h.zero.1, h.zero.2⟩
  · intro i j hi hj hl hl' hij hk
    have := h.sharp i j (hm i hi hl) (hm j hj hl') hl hl' hij hk
    rw [List.filter_append, List.length_append]
    omega

theorem ninv_add {str done sub : List Nat} {ch last id : Nat} (h : NInv str done sub ch last) (hid : IsLms str id) (hnew : id ∉ done) (e : Bool)
    (he0 : e = false → keyc str true last ≠ keyc str true id) (he1 : e = true → keyc str true last = keyc str true id)
    (hR : ∀ i ∈ done, ¬ keyc str true id < keyc str true i) :
    NInv str (done ++ [id]) (sub.set id (if e then ch else ch + 1)) (if e then ch else ch + 1) id := by
  have hlt := hid.2.1
  have hlen := h.len
  have hmem : ∀ i, i ∈ done ++ [id] ↔ i ∈ done ∨ i = id := by simp
  have hne : ∀ i, i ∈ done → i ≠ id := by
    rintro i hi rfl
    exact hnew hi
  have hold : ∀ i, i ≠ id → ∀ x, (sub.set id x)[i]? = sub[i]? := by
    intro i hi x
    rw [List.getElem?_set, if_neg (fun e => hi e.symm)]
  have hself : ∀ x, (sub.set id x)[id]? = some x := by
    intro x
    rw [List.getElem?_set, if_pos rfl, if_pos (by omega)]
  have hch : ch ≤ if e then ch else ch + 1 := by split <;> omega
  have hlast := h.lastm
  -- comparison of the new key
  have hkey : e = false → keyc str true last < keyc str true id := fun h0 => list_lt_of (hR last hlast.1) (he0 h0)
  refine ⟨by rw [List.length_set, hlen], ?_, ?_, ?_, ?_, ⟨by simp, hid, hself _⟩, ?_, ?_, ?_, ?_⟩
  · intro i hi hn
    have hi' : i ≠ id := by
      rintro rfl
      exact hn ⟨by simp, hid⟩
    rw [hold i hi', h.val i hi (fun hc => hn ⟨List.mem_append_left _ hc.1, hc.2⟩)]
  · intro i hi hl
    rcases (hmem i).1 hi with hi | rfl
    · obtain ⟨c, hc, hle⟩ := h.le i hi hl
      exact ⟨c, by rw [hold i (hne i hi), hc], by omega⟩
    · exact ⟨_, hself _, Nat.le_refl _⟩
  · intro i j hi hj hl hl' hk c d hc hd
    replace hi := (hmem i).1 hi
    replace hj := (hmem j).1 hj
    rcases hi with hi | hi <;> rcases hj with hj | hj
    · rw [hold i (hne i hi)] at hc
      rw [hold j (hne j hj)] at hd
      exact h.lt i j hi hj hl hl' hk c d hc hd
    · rw [hold i (hne i hi)] at hc
      rw [hj, hself] at hd
      rw [hj] at hk
      cases hd
      cases e with
      | true =>
        simp only [if_true]
        rw [← he1 rfl] at hk
        exact h.lt i last hi hlast.1 hl hlast.2.1 hk c ch hc hlast.2.2
      | false =>
        obtain ⟨c', hc', hle⟩ := h.le i hi hl
        rw [hc] at hc'
        cases hc'
        simp only [Bool.false_eq_true, if_false]
        omega
    · rw [hi] at hk
      exact absurd hk (hR j hj)
    · rw [hi, hj] at hk
      exact absurd hk (List.lt_irrefl _)
  · have hone : ∀ i, i ∈ done → IsLms str i → keyc str true i = keyc str true id → (sub.set id (if e then ch else ch + 1))[i]? =
        (sub.set id (if e then ch else ch + 1))[id]? := by
      intro i hi hl hk
      rw [hold i (hne i hi), hself]
      cases e with
      | true =>
        simp only [if_true]
        rw [h.eq i last hi hlast.1 hl hlast.2.1 (hk.trans (he1 rfl).symm), hlast.2.2]
      | false =>
        exact absurd (by rw [hk]; exact hkey rfl) (h.top i hi hl)
    intro i j hi hj hl hl' hk
    replace hi := (hmem i).1 hi
    replace hj := (hmem j).1 hj
    rcases hi with hi | hi <;> rcases hj with hj | hj
    · rw [hold i (hne i hi), hold j (hne j hj)]
      exact h.eq i j hi hj hl hl' hk
    · rw [hj] at hk ⊢
      exact hone i hi hl hk
    · rw [hi] at hk ⊢
      exact (hone j hj hl' hk.symm).symm
    · rw [hi, hj]
  · intro i hi hl
    rcases (hmem i).1 hi with hi | rfl
    · exact hR i hi
    · exact List.lt_irrefl _
  · rw [List.filter_append, List.length_append]
    have h1 := h.cnt
    have h2 : ([id].filter (fun i => decide (IsLms str i))).length = 1 := by simp [hid]
    rw [h2]
    split <;> omega
  · exact ⟨List.mem_append_left _ h.zero.1, by rw [hold _ (hne _ h.zero.1), h.zero.2]⟩
  · intro i j hi hj hl hl' hij hk
    rw [List.filter_append, List.length_append]
    have h1 := h.cnt
    have h2 : ([id].filter (fun i => decide (IsLms str i))).length = 1 := by simp [hid]
    rw [h2]
    cases e with
    | true =>
      simp only [if_true]
      omega
    | false =>
      simp only [Bool.false_eq_true, if_false]
      have hout : ∀ i, i ∈ done → IsLms str i → keyc str true i ≠ keyc str true id := by
        intro i hi hl hk
        exact absurd (by rw [hk]; exact hkey rfl) (h.top i hi hl)
      replace hi := (hmem i).1 hi
      replace hj := (hmem j).1 hj
      rcases hi with hi | hi <;> rcases hj with hj | hj
      · have := h.sharp i j hi hj hl hl' hij hk
        omega
      · rw [hj] at hk
        exact absurd hk (hout i hi hl)
      · rw [hi] at hk
        exact absurd hk.symm (hout j hj hl')
      · omega

theorem nameLoop_spec {str : List Nat} {mx : Nat} (hT : Text str mx) : ∀ (ids done sub : List Nat) (ch last : Nat),
    (done ++ ids).Nodup → (∀ i ∈ done ++ ids, i < str.length) → (done ++ ids).Pairwise (fun i j => ¬ keyc str true j < keyc str true i) →
    NInv str done sub ch last →
    ∃ sub' ch' last', nameLoop str (classify str) ids (sub, ch, last) = some (sub', ch') ∧ NInv str (done ++ ids) sub' ch' last' := by
  intro ids
  induction ids with
  | nil =>
    intro done sub ch last _ _ _ h
    refine ⟨sub, ch, last, rfl, ?_⟩
    rw [List.append_nil]
    exact h
  | cons id ids ih =>
    intro done sub ch last hnd hlt hpw h
    have hre : done ++ id :: ids = (done ++ [id]) ++ ids := by simp
    have hidl : id < str.length := hlt id (by simp)
    have hnew : id ∉ done := by
      intro hc
      exact (List.nodup_append.1 hnd).2.2 id hc id (by simp) rfl
    have hR : ∀ i ∈ done, ¬ keyc str true id < keyc str true i := fun i hi => (List.pairwise_append.1 hpw).2.2 i hi id (by simp)
    rw [hre] at hnd hlt hpw ⊢
    by_cases h0 : id = 0
    · obtain ⟨s', c', l', e, hI⟩ := ih (done ++ [id]) sub ch last hnd hlt hpw (ninv_skip h (by rw [h0]; simp [IsLms]))
      refine ⟨s', c', l', ?_, hI⟩
      rw [nameLoop, if_pos h0, e]
    · by_cases hl : IsLms str id
      · have hlast : last > 0 := h.lastm.2.1.1
        obtain ⟨b, eb, hb0, hb1⟩ := eqLoop_spec hT _ last id true rfl (by
          rintro rfl
          exact hnew h.lastm.1) h.lastm.2.1.2.1 hidl
        obtain ⟨s', c', l', e, hI⟩ := ih (done ++ [id]) (sub.set id (if b then ch else ch + 1)) (if b then ch else ch + 1) id hnd hlt hpw
          (ninv_add h hl hnew b hb0 (fun hbt => hb1 hbt (hR _ h.lastm.1)) hR)
        refine ⟨s', c', l', ?_, hI⟩
        rw [nameLoop, if_neg h0, isLms_spec h0 hidl]
        simp only [Option.bind_eq_bind, Option.bind_some, hl, decide_true, if_true, sameName, if_pos hlast, equalLMSs, eb,
          wr_eq sub id (if b = true then ch else ch + 1) (by rw [h.len]; exact hidl)]
        exact e
      · obtain ⟨s', c', l', e, hI⟩ := ih (done ++ [id]) sub ch last hnd hlt hpw (ninv_skip h hl)
        refine ⟨s', c', l', ?_, hI⟩
        rw [nameLoop, if_neg h0, isLms_spec h0 hidl]
        simp only [Option.bind_eq_bind, Option.bind_some, hl, decide_false, Bool.false_eq_true, if_false]
        exact e

/-- All names, from the empty array on. -/
theorem nameLoop_all {str : List Nat} {mx : Nat} (hT : Text str mx) {sa : List Nat} (hp : sa.Perm (List.range str.length))
    (hpw : sa.Pairwise (fun i j => ¬ keyc str true j < keyc str true i)) (h0 : sa[0]? = some (str.length - 1)) :
    ∃ sub ch last, nameLoop str (classify str) sa (List.replicate str.length kInf, 0, 0) = some (sub, ch) ∧ NInv str sa sub ch last := by
  have h2 := hT.two
  have hlms := hT.last_lms
  cases sa with
  | nil => simp at h0
  | cons x ids =>
    simp only [List.getElem?_cons_zero, Option.some.injEq] at h0
    subst h0
    have hnd := hp.nodup_iff.2 List.nodup_range
    have hlt : ∀ i ∈ (str.length - 1) :: ids, i < str.length := fun i hi => List.mem_range.1 (hp.mem_iff.1 hi)
    have hini : NInv str [str.length - 1] ((List.replicate str.length kInf).set (str.length - 1) 0) 0 (str.length - 1) := by
      have hself : ((List.replicate str.length kInf).set (str.length - 1) 0)[str.length - 1]? = some 0 := by
        rw [List.getElem?_set, if_pos rfl, if_pos (by rw [List.length_replicate]; omega)]
      refine ⟨by simp, ?_, ?_, ?_, ?_, ⟨by simp, hlms, hself⟩, ?_, ?_, ⟨by simp, hself⟩, ?_⟩
      · intro i hi hn
        have : i ≠ str.length - 1 := by
          rintro rfl
          exact hn ⟨by simp, hlms⟩
        rw [List.getElem?_set, if_neg (fun e => this e.symm)]
        simp [hi]
      · intro i hi _
        rw [List.mem_singleton.1 hi]
        exact ⟨0, hself, Nat.le_refl _⟩
      · intro i j hi hj _ _ hk
        rw [List.mem_singleton.1 hi, List.mem_singleton.1 hj] at hk
        exact absurd hk (List.lt_irrefl _)
      · intro i j hi hj _ _ _
        rw [List.mem_singleton.1 hi, List.mem_singleton.1 hj]
      · intro i hi _
        rw [List.mem_singleton.1 hi]
        exact List.lt_irrefl _
      · simp [hlms]
      · intro i j hi hj _ _ hij
        exact absurd ((List.mem_singleton.1 hi).trans (List.mem_singleton.1 hj).symm) hij
    obtain ⟨s', c', l', e, hI⟩ := nameLoop_spec hT ids [str.length - 1] _ 0 (str.length - 1) hnd hlt hpw hini
    refine ⟨s', c', l', ?_, hI⟩
    rw [nameLoop, if_neg (by omega), isLms_spec (by omega) (by omega)]
    simp only [Option.bind_eq_bind, Option.bind_some, hlms, decide_true, if_true, sameName, gt_iff_lt, Nat.lt_irrefl, if_false]
    rw [wr_eq _ _ _ (by rw [List.length_replicate]; omega)]
    exact e

end Verif.SA
