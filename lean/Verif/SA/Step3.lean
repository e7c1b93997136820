/-
Step 3 of `Induce_`: the S positions.
-/
import Verif.SA.Step2

namespace Verif.SA

/-- S positions other than the terminator. -/
def isS (str : List Nat) (j : Nat) : Bool := decide (j + 1 < str.length) && typ str j

theorem isS_iff {str : List Nat} {j : Nat} : isS str j = true ↔ j + 1 < str.length ∧ typ str j = true := by
  unfold isS
  simp

/-- Number of S positions with a letter. -/
def nS (str : List Nat) (c : Nat) : Nat := cp str.length (fun j => isS str j && decide (ltr str j = c))

theorem nL_nS (str : List Nat) (c : Nat) : nL str c + nS str c ≤ cnt str c := by
  apply cp_add_le
  intro i hi
  simp only [Bool.and_eq_true, decide_eq_true_eq, isL_iff, and_imp]
  constructor
  · intro _ h3 h4
    refine ⟨h4, ?_⟩
    rw [isS, h3]
    simp
  · intro _ h5
    exact h5

theorem idx_zero (str : List Nat) : idx str 0 = 0 := by
  unfold idx cp
  rw [List.length_eq_zero_iff, List.filter_eq_nil_iff]
  intro a _
  simp

theorem Text.zero_iff {str : List Nat} {mx : Nat} (hT : Text str mx) {j : Nat} (hj : j < str.length) : ltr str j = 0 ↔ j = str.length - 1 := by
  constructor
  · intro h
    apply Decidable.byContradiction
    intro hc
    have := hT.pos j (by omega)
    omega
  · rintro rfl
    exact hT.last

theorem Text.cnt_zero {str : List Nat} {mx : Nat} (hT : Text str mx) : 1 ≤ cnt str 0 := by
  have := hT.two
  apply cp_ge _ _ 1 (fun _ => str.length - 1)
  · intro i _
    exact ⟨by omega, decide_eq_true hT.last⟩
  · intro i j _ _ _; omega

theorem Text.idx_pos {str : List Nat} {mx : Nat} (hT : Text str mx) {c : Nat} (hc : 0 < c) : 1 ≤ idx str c := by
  have := idx_lt str hc
  have := hT.cnt_zero
  omega

theorem Text.cnt_zero' {str : List Nat} {mx : Nat} (hT : Text str mx) : cnt str 0 = 1 := by
  have h1 := hT.cnt_zero
  have h2 : cnt str 0 ≤ 1 := by
    apply cp_le _ _ 1 (fun _ => some (str.length - 1))
    intro i hi h
    exact ⟨0, by omega, by rw [(hT.zero_iff hi).1 (of_decide_eq_true h)]⟩
  omega

theorem Text.isS_pos {str : List Nat} {mx : Nat} (hT : Text str mx) {j : Nat} (h : isS str j = true) : 0 < ltr str j := by
  exact hT.pos j (isS_iff.1 h).1

/-- The successor of an S position. -/
theorem Text.isS_next {str : List Nat} {mx : Nat} (hT : Text str mx) {j : Nat} (h : isS str j = true) :
    (isL str (j + 1) = true ∧ ltr str j < ltr str (j + 1)) ∨ (isS str (j + 1) = true ∧ ltr str j ≤ ltr str (j + 1)) := by
  obtain ⟨h1, h2⟩ := isS_iff.1 h
  have h3 := typS h1 h2
  have h4 := hT.isS_pos h
  by_cases ht : typ str (j + 1) = true
  · right
    refine ⟨isS_iff.2 ⟨?_, ht⟩, by omega⟩
    apply Decidable.byContradiction
    intro hc
    have := (hT.zero_iff h1).2 (by omega)
    omega
  · left
    refine ⟨isL_iff.2 ⟨h1, by simpa using ht⟩, ?_⟩
    rcases h3 with h3 | h3
    · exact h3
    · exact absurd h3.2 ht

/-- What steps 2 and 3-a leave: the L positions and the terminator. -/
structure Ls (str : List Nat) (R : Nat → Nat → Prop) (A : Nat → Option Nat) : Prop where
  mem : ∀ u j, A u = some j →
    (isL str j = true ∧ idx str (ltr str j) ≤ u ∧ u < idx str (ltr str j) + nL str (ltr str j)) ∨ (j = str.length - 1 ∧ u = 0)
  all : ∀ j, isL str j = true → ∃ u, A u = some j
  zero : A 0 = some (str.length - 1)
  inj : ∀ u v j, A u = some j → A v = some j → u = v
  sorted : ∀ u v i j, u < v → A u = some i → A v = some j → R i j

def setS (str : List Nat) (R : Nat → Nat → Prop) (A : Nat → Option Nat) : Setup :=
  ⟨str.length, ltr str, isS str, fun c => str.length - (idx str c + cnt str c), fun u => if u < str.length then A (str.length - 1 - u) else none,
    fun i j => R j i⟩

theorem setS_ok {str : List Nat} {mx : Nat} (hT : Text str mx) {R : Nat → Nat → Prop}
    (hbase : ∀ i j, i < str.length → j < str.length → ltr str i < ltr str j → R i j)
    (hbase' : ∀ i j, i < str.length → j < str.length → ltr str i = ltr str j → typ str i = false → typ str j = true → R i j)
    (hstep : ∀ i j, typ str i = true → typ str j = true → i + 1 < str.length → j + 1 < str.length → ltr str i = ltr str j →
      R (i + 1) (j + 1) → R i j)
    {A : Nat → Option Nat} (h : Ls str R A) : (setS str R A).Ok := by
  have h2n := hT.two
  have hN : ∀ c, (setS str R A).N c = nS str c := fun c => rfl
  have hB : ∀ c, (setS str R A).B c = str.length - (idx str c + cnt str c) := fun c => rfl
  have hAt : ∀ u j, (setS str R A).A0 u = some j → u < str.length ∧ A (str.length - 1 - u) = some j := by
    intro u j hu
    have hu' : (if u < str.length then A (str.length - 1 - u) else none) = some j := hu
    split at hu'
    · rename_i h1; exact ⟨h1, hu'⟩
    · cases hu'
  have hnS : ∀ c, 0 < nS str c → 0 < c := by
    intro c hc
    apply Decidable.byContradiction
    intro h0
    have : nS str c ≤ 0 := by
      apply cp_le _ _ 0 (fun _ => none)
      intro i hi hp
      simp only [Bool.and_eq_true, decide_eq_true_eq] at hp
      have := hT.isS_pos hp.1
      omega
    omega
  have hsum := nL_nS str
  have hle := idx_le str
  constructor
  · intro u j hu
    obtain ⟨h1, h3⟩ := hAt u j hu
    refine ⟨h1, ?_⟩
    rcases h.mem _ _ h3 with ⟨h4, _⟩ | ⟨h4, _⟩
    · refine ⟨(isL_iff.1 h4).1, ?_⟩
      show isS str j = false
      rw [isS, (isL_iff.1 h4).2]
      simp
    · refine ⟨by show j < str.length; omega, ?_⟩
      show isS str j = false
      rw [isS, decide_eq_false (by omega)]
      rfl
  · intro u v j hu hv
    obtain ⟨h1, h3⟩ := hAt u j hu
    obtain ⟨h1', h3'⟩ := hAt v j hv
    have := h.inj _ _ _ h3 h3'
    omega
  · intro j hj
    have := (isS_iff.1 hj).1
    show j < str.length
    omega
  · intro c u h1 h2
    rw [hN] at h2
    rw [hB] at h1 h2
    have := hsum c
    have := hle c
    cases hA : (setS str R A).A0 u with
    | none => rfl
    | some j =>
      obtain ⟨h3, h4⟩ := hAt u j hA
      have hc := hnS c (by omega)
      have := hT.idx_pos hc
      rcases h.mem _ _ h4 with ⟨_, h5, h6⟩ | ⟨_, h5⟩
      · have := nL_le str (ltr str j)
        rcases Nat.lt_trichotomy (ltr str j) c with hl | hl | hl
        · have := idx_lt str hl; omega
        · subst hl; omega
        · have := idx_lt str hl; omega
      · omega
  · intro c hc
    rw [hN, hB]
    have := hsum c
    have := hle c
    show _ ≤ str.length
    omega
  · intro c c' hc _ _
    rw [hN, hN, hB, hB]
    have := hsum c
    have := hle c
    have := hsum c'
    have := hle c'
    rcases Nat.lt_or_gt_of_ne hc with hl | hl
    · have := idx_lt str hl; omega
    · have := idx_lt str hl; omega
  · intro u j hu hj
    rw [hB]
    obtain ⟨h3, h4⟩ := hAt u _ hu
    show u < str.length - (idx str (ltr str j) + cnt str (ltr str j))
    rcases h.mem _ _ h4 with ⟨h5, h6, h7⟩ | ⟨h5, _⟩
    · rcases hT.isS_next hj with ⟨_, h8⟩ | ⟨h8, _⟩
      · have := idx_lt str h8
        have := hle (ltr str (j + 1))
        have := nL_le str (ltr str (j + 1))
        omega
      · have := (isL_iff.1 h5).2
        rw [(isS_iff.1 h8).2] at this
        cases this
    · rcases hT.isS_next hj with ⟨h8, _⟩ | ⟨h8, _⟩
      · have := (isL_next h8).1
        omega
      · have := (isS_iff.1 h8).1
        omega
  · intro j hj hj' hne
    rw [hN, hB, hB]
    show str.length - (idx str (ltr str (j + 1)) + cnt str (ltr str (j + 1))) + nS str (ltr str (j + 1)) ≤
      str.length - (idx str (ltr str j) + cnt str (ltr str j))
    have hne' : ltr str j ≠ ltr str (j + 1) := hne
    have hlt : ltr str j < ltr str (j + 1) := by
      rcases hT.isS_next hj with ⟨_, h8⟩ | ⟨_, h8⟩ <;> omega
    have := idx_lt str hlt
    have := hle (ltr str (j + 1))
    have := hsum (ltr str (j + 1))
    omega
  · intro j hj
    rcases hT.isS_next hj with ⟨h8, _⟩ | ⟨h8, _⟩
    · right
      obtain ⟨u, hu⟩ := h.all _ h8
      have hul : u < str.length := by
        rcases h.mem _ _ hu with ⟨_, h6, h7⟩ | ⟨_, h7⟩
        · have := hle (ltr str (j + 1))
          have := nL_le str (ltr str (j + 1))
          omega
        · omega
      refine ⟨str.length - 1 - u, ?_⟩
      show (if str.length - 1 - u < str.length then A (str.length - 1 - (str.length - 1 - u)) else none) = _
      rw [if_pos (by omega), show str.length - 1 - (str.length - 1 - u) = u by omega, hu]
    · exact Or.inl h8
  · intro u v i j huv hu hv
    obtain ⟨h1, h3⟩ := hAt u i hu
    obtain ⟨h1', h3'⟩ := hAt v j hv
    exact h.sorted _ _ _ _ (by omega) h3' h3
  · intro i j hi hj hs hR
    exact hstep j i (isS_iff.1 hj).2 (isS_iff.1 hi).2 (isS_iff.1 hj).1 (isS_iff.1 hi).1 (Eq.symm hs) hR
  · intro i j hi hj hlt
    have h1 := (isS_iff.1 hi).1
    have h3 := (isS_iff.1 hj).1
    apply hbase j i (by omega) (by omega)
    rw [hB, hB] at hlt
    have hlt' : str.length - (idx str (ltr str i) + cnt str (ltr str i)) < str.length - (idx str (ltr str j) + cnt str (ltr str j)) := hlt
    rw [← idx_succ, ← idx_succ] at hlt'
    apply Decidable.byContradiction
    intro hc
    have := idx_mono str (show ltr str i + 1 ≤ ltr str j + 1 by omega)
    omega
  · intro u i j hu hj hlt
    obtain ⟨h1, h3⟩ := hAt u i hu
    rw [hB] at hlt
    have hlt' : u < str.length - (idx str (ltr str j) + cnt str (ltr str j)) := hlt
    have h5 := (isS_iff.1 hj).1
    have h6 := hle (ltr str j)
    rcases h.mem _ _ h3 with ⟨h7, h8, h9⟩ | ⟨h7, h8⟩
    · apply hbase j i (by omega) (isL_iff.1 h7).1
      apply Decidable.byContradiction
      intro hc
      have := idx_mono str (show ltr str i + 1 ≤ ltr str j + 1 by omega)
      rw [idx_succ, idx_succ] at this
      have := nL_le str (ltr str i)
      omega
    · have := hT.idx_pos (hT.isS_pos hj)
      omega
  · intro u i j hu hj hle'
    obtain ⟨h1, h3⟩ := hAt u i hu
    rw [hN, hB] at hle'
    have hle'' : str.length - (idx str (ltr str j) + cnt str (ltr str j)) + nS str (ltr str j) ≤ u := hle'
    have h5 := (isS_iff.1 hj).1
    have h6 := hle (ltr str j)
    have h6' := hsum (ltr str j)
    show R i j
    rcases h.mem _ _ h3 with ⟨h7, h8, h9⟩ | ⟨h7, h8⟩
    · rcases Nat.lt_trichotomy (ltr str i) (ltr str j) with hl | hl | hl
      · exact hbase i j (isL_iff.1 h7).1 (by omega) hl
      · exact hbase' i j (isL_iff.1 h7).1 (by omega) hl (isL_iff.1 h7).2 (isS_iff.1 hj).2
      · have := idx_lt str hl
        omega
    · apply hbase i j (by omega) (by omega)
      rw [h7, hT.last]
      exact hT.isS_pos hj

/-- The array read from the back. -/
def Shows' (n : Nat) (sa : List Nat) (A : Nat → Option Nat) : Prop := sa.length = n ∧ ∀ u, u < n → sa[n - 1 - u]? = some ((A u).getD kInf)

theorem Shows'.set {n : Nat} {sa : List Nat} {A : Nat → Option Nat} (h : Shows' n sa A) (p j : Nat) (hp : p < n) :
    Shows' n (sa.set (n - 1 - p) j) (fun u => if u = p then some j else A u) := by
  refine ⟨by simp [h.1], fun u hu => ?_⟩
  rw [List.getElem?_set]
  by_cases hpu : u = p
  · subst hpu
    rw [if_pos rfl, if_pos (by rw [h.1]; omega)]
    simp
  · rw [if_neg (by omega), h.2 u hu]
    simp only [if_neg hpu]

/-- The buckets during step 3. -/
def Bk3 (str : List Nat) (mx : Nat) (k : Nat → Nat) (bs : List Bucket) : Prop :=
  bs.length = mx + 1 ∧ ∀ c, c ≤ mx → ∃ sp, bs[c]? = some ⟨idx str c, cnt str c, idx str c + nL str c, sp⟩ ∧
    (k c < nS str c → sp + 1 + k c = idx str c + cnt str c)

theorem scanStep_S {str : List Nat} {mx : Nat} (hT : Text str mx) {R : Nat → Nat → Prop} {A0 : Nat → Option Nat} (hok : (setS str R A0).Ok)
    {t : Nat} (ht : t < str.length) {A : Nat → Option Nat} {k : Nat → Nat} (hI : (setS str R A0).Inv t A k) {bs : List Bucket} {sa : List Nat}
    (hb : Bk3 str mx k bs) (hsa : Shows' str.length sa A) :
    ∃ bs' sa' A' k', scanStep str (classify str) true (str.length - 1 - t) (bs, sa) = some (bs', sa') ∧ (setS str R A0).Inv (t + 1) A' k' ∧
      Bk3 str mx k' bs' ∧ Shows' str.length sa' A' := by
  have hsmall := hT.small
  have hcl := classify_length str
  cases hA : A t with
  | none =>
    refine ⟨bs, sa, A, k, ?_, Setup.Inv.next_skip hI (fun j hj => by rw [hA] at hj; cases hj), hb, hsa⟩
    simp [scanStep, hsa.2 t ht, hA]
  | some id =>
    have hid : id < str.length := (hI.lt t id hA).2
    cases id with
    | zero =>
      refine ⟨bs, sa, A, k, ?_, Setup.Inv.next_skip hI (fun j hj => by rw [hA] at hj; cases hj), hb, hsa⟩
      simp [scanStep, hsa.2 t ht, hA]
    | succ j =>
      have hne : ¬ (j + 1 = kInf ∨ j + 1 = 0) := by
        unfold kInf
        omega
      have hty : (classify str)[j]? = some (typ str j) := getD_some _ _ _ (by omega)
      have hlj : str[j]? = some (ltr str j) := getD_some _ _ _ (by omega)
      by_cases hp : typ str j = true
      · have hP : isS str j = true := isS_iff.2 ⟨hid, hp⟩
        obtain ⟨_, hroom⟩ := Setup.Inv.room hok hI hA hP
        obtain ⟨h1, h2, h3, h4⟩ := Setup.Inv.next_put hok hI hA hP
        have hroom' : k (ltr str j) < nS str (ltr str j) := hroom
        obtain ⟨sp, hbk, hsp⟩ := hb.2 _ (hT.ltr_le j)
        have hnl := nL_nS str (ltr str j)
        have hle := idx_le str (ltr str j)
        have hspv := hsp hroom'
        have hput := put_S (sa := sa) (id := j) hbk (by simp only; omega) (by simp only; omega) (by simp only [hsa.1]; omega)
        have hslot : sp = str.length - 1 - (str.length - (idx str (ltr str j) + cnt str (ltr str j)) + k (ltr str j)) := by omega
        refine ⟨bs.set (ltr str j) ⟨idx str (ltr str j), cnt str (ltr str j), idx str (ltr str j) + nL str (ltr str j), dec64 sp⟩,
          sa.set (str.length - 1 - (str.length - (idx str (ltr str j) + cnt str (ltr str j)) + k (ltr str j))) j, _, _, ?_, h4, ?_,
          hsa.set _ _ h3⟩
        · simp only [scanStep, hsa.2 t ht, hA, Option.getD_some, Option.bind_eq_bind, Option.bind_some, if_neg hne, Nat.add_sub_cancel, hty, hp,
            ne_eq, not_true_eq_false, if_false, hlj, hput, Option.pure_def]
          rw [← hslot]
        · refine ⟨by simp [hb.1], fun c hc => ?_⟩
          by_cases hcc : c = ltr str j
          · subst hcc
            refine ⟨dec64 sp, ?_, ?_⟩
            · rw [List.getElem?_set, if_pos rfl, if_pos (by rw [hb.1]; omega)]
            · show (if ltr str j = ltr str j then k (ltr str j) + 1 else _) < _ →
                dec64 sp + 1 + (if ltr str j = ltr str j then k (ltr str j) + 1 else _) = _
              rw [if_pos rfl]
              intro hlt
              rw [dec64_pos (by omega) (by omega)]
              omega
          · obtain ⟨sp', hb', hsp'⟩ := hb.2 c hc
            refine ⟨sp', ?_, ?_⟩
            · rw [List.getElem?_set, if_neg (fun e => hcc e.symm), hb']
            · show (if c = ltr str j then _ else k c) < _ → sp' + 1 + (if c = ltr str j then _ else k c) = _
              rw [if_neg hcc]
              exact hsp'
      · have hp' : typ str j = false := by simpa using hp
        refine ⟨bs, sa, A, k, ?_, Setup.Inv.next_skip hI (fun j' hj => ?_), hb, hsa⟩
        · simp only [scanStep, hsa.2 t ht, hA, Option.getD_some, Option.bind_eq_bind, Option.bind_some, if_neg hne, Nat.add_sub_cancel, hty, hp']
          simp
        · rw [hA] at hj
          cases hj
          show isS str j = false
          rw [isS, hp']
          simp

theorem scanS_spec {str : List Nat} {mx : Nat} (hT : Text str mx) {R : Nat → Nat → Prop} {A0 : Nat → Option Nat} (hok : (setS str R A0).Ok) :
    ∀ (r t : Nat) (A : Nat → Option Nat) (k : Nat → Nat) (bs : List Bucket) (sa : List Nat), r + t = str.length → (setS str R A0).Inv t A k →
      Bk3 str mx k bs → Shows' str.length sa A →
      ∃ bs' sa' A' k', scanS str (classify str) r (bs, sa) = some (bs', sa') ∧ (setS str R A0).Inv str.length A' k' ∧ Bk3 str mx k' bs' ∧
        Shows' str.length sa' A' := by
  intro r
  induction r with
  | zero =>
    intro t A k bs sa hr hI hb hsa
    rw [show t = str.length by omega] at hI
    exact ⟨bs, sa, A, k, rfl, hI, hb, hsa⟩
  | succ r ih =>
    intro t A k bs sa hr hI hb hsa
    obtain ⟨bs1, sa1, A1, k1, e1, hI1, hb1, hsa1⟩ := scanStep_S hT hok (by omega) hI hb hsa
    obtain ⟨bs2, sa2, A2, k2, e2, h2⟩ := ih (t + 1) A1 k1 bs1 sa1 (by omega) hI1 hb1 hsa1
    rw [show str.length - 1 - t = r by omega] at e1
    refine ⟨bs2, sa2, A2, k2, ?_, h2⟩
    simp only [scanS, e1, Option.bind_eq_bind, Option.bind_some, e2]

end Verif.SA
