/-
Step 2 of `Induce_`: the L positions.
-/
import Verif.SA.Step1

namespace Verif.SA

/-- L positions. -/
def isL (str : List Nat) (j : Nat) : Bool := decide (j < str.length) && !typ str j

theorem isL_iff {str : List Nat} {j : Nat} : isL str j = true ↔ j < str.length ∧ typ str j = false := by
  unfold isL
  simp

theorem isL_false {str : List Nat} {j : Nat} (h : typ str j = true) : isL str j = false := by
  rw [isL, h]
  simp

/-- Number of L positions with a letter. -/
def nL (str : List Nat) (c : Nat) : Nat := cp str.length (fun j => isL str j && decide (ltr str j = c))

theorem isL_next {str : List Nat} {j : Nat} (h : isL str j = true) : j + 1 < str.length ∧
    (ltr str (j + 1) < ltr str j ∨ (ltr str (j + 1) = ltr str j ∧ typ str (j + 1) = false)) := by
  obtain ⟨h1, h2⟩ := isL_iff.1 h
  have h3 : j + 1 < str.length := by
    apply Decidable.byContradiction
    intro hc
    have := classify_last str (by omega)
    rw [show str.length - 1 = j by omega, h2] at this
    cases this
  exact ⟨h3, typL h3 h2⟩

theorem mc_nL (str : List Nat) (q : List Nat) (hn : q.Nodup) (hq : ∀ i ∈ q, i < str.length ∧ typ str i = true) (c : Nat) :
    mc str q c + nL str c ≤ cnt str c := by
  have h1 := mc_le str q hn (typ str) hq c
  have h2 : cp str.length (fun i => typ str i && decide (ltr str i = c)) + nL str c ≤ cnt str c := by
    apply cp_add_le
    intro i hi
    simp only [Bool.and_eq_true, decide_eq_true_eq, isL_iff, and_imp]
    constructor
    · intro h3 h4
      refine ⟨h4, ?_⟩
      rw [isL_false h3]
      rfl
    · intro _ _ h5
      exact h5
  omega

theorem nL_le (str : List Nat) (c : Nat) : nL str c ≤ cnt str c := by
  have := mc_nL str [] List.nodup_nil (by simp) c
  omega

/-- What step 1 leaves: exactly the LMS positions. -/
def setL (str : List Nat) (R : Nat → Nat → Prop) (A : Nat → Option Nat) : Setup := ⟨str.length, ltr str, isL str, idx str, A, R⟩

theorem setL_ok {str : List Nat} {mx : Nat} {R : Nat → Nat → Prop}
    (hbase : ∀ i j, i < str.length → j < str.length → ltr str i < ltr str j → R i j)
    (hbase' : ∀ i j, i < str.length → j < str.length → ltr str i = ltr str j → typ str i = false → typ str j = true → R i j)
    (hstep : ∀ i j, typ str i = false → typ str j = false → i + 1 < str.length → j + 1 < str.length → ltr str i = ltr str j →
      R (i + 1) (j + 1) → R i j)
    {q : List Nat} (hq : ∀ i, i ∈ q ↔ IsLms str i) (hn : q.Nodup) {A : Nat → Option Nat} {bs : List Bucket} (h : St1 str mx R q A bs) :
    (setL str R A).Ok := by
  have hlms : ∀ u i, A u = some i → IsLms str i := fun u i hu => (hq i).1 (h.mem u i hu).1
  have hmc := mc_nL str q hn (fun i hi => ⟨((hq i).1 hi).2.1, ((hq i).1 hi).2.2.2⟩)
  have hNL : ∀ c, (setL str R A).N c = nL str c := fun c => rfl
  -- an entry lies in its bucket, behind the place for the L positions
  have hin : ∀ u i, A u = some i → idx str (ltr str i) + nL str (ltr str i) ≤ u ∧ u < idx str (ltr str i) + cnt str (ltr str i) := by
    intro u i hu
    obtain ⟨h1, h2, h3⟩ := h.mem u i hu
    have := hmc (ltr str i)
    omega
  constructor
  · intro u j hu
    obtain ⟨h1, h2, h3, h4⟩ := hlms u j hu
    have := (hin u j hu).2
    have := idx_le str (ltr str j)
    refine ⟨by show u < str.length; omega, h2, ?_⟩
    show isL str j = false
    exact isL_false h4
  · exact h.inj
  · intro j hj
    exact (isL_iff.1 hj).1
  · intro c u h1 h2
    rw [hNL] at h2
    simp only [setL] at h1 h2 ⊢
    cases hA : A u with
    | none => rfl
    | some i =>
      have h3 := hin u i hA
      have := nL_le str c
      rcases Nat.lt_trichotomy (ltr str i) c with hl | hl | hl
      · have := idx_lt str hl; omega
      · subst hl; omega
      · have := idx_lt str hl; omega
  · intro c _
    rw [hNL]
    have := nL_le str c
    have := idx_le str c
    show idx str c + nL str c ≤ str.length
    omega
  · intro c c' hc _ _
    rw [hNL, hNL]
    have := nL_le str c
    have := nL_le str c'
    show idx str c + nL str c ≤ idx str c' ∨ idx str c' + nL str c' ≤ idx str c
    rcases Nat.lt_or_gt_of_ne hc with hl | hl
    · have := idx_lt str hl; omega
    · have := idx_lt str hl; omega
  · intro u j hu hj
    have h1 := hin u _ hu
    obtain ⟨h2, h3⟩ := isL_next hj
    have h4 := (hlms u _ hu).2.2.2
    rcases h3 with h3 | h3
    · have := idx_lt str h3
      show u < idx str (ltr str j)
      omega
    · rw [h3.2] at h4; cases h4
  · intro j hj hj' hne
    rw [hNL]
    obtain ⟨h2, h3⟩ := isL_next hj
    have := nL_le str (ltr str (j + 1))
    show idx str (ltr str (j + 1)) + nL str (ltr str (j + 1)) ≤ idx str (ltr str j)
    rcases h3 with h3 | h3
    · have := idx_lt str h3
      omega
    · exact absurd h3.1.symm hne
  · intro j hj
    obtain ⟨h2, _⟩ := isL_next hj
    obtain ⟨h3, h4⟩ := isL_iff.1 hj
    by_cases ht : typ str (j + 1) = true
    · right
      exact h.all (j + 1) ((hq _).2 ⟨by omega, h2, h4, ht⟩)
    · left
      exact isL_iff.2 ⟨h2, by simpa using ht⟩
  · exact h.sorted
  · intro i j hi hj hs hR
    exact hstep i j (isL_iff.1 hi).2 (isL_iff.1 hj).2 (isL_next hi).1 (isL_next hj).1 hs hR
  · intro i j hi hj hlt
    apply hbase i j (isL_iff.1 hi).1 (isL_iff.1 hj).1
    apply Decidable.byContradiction
    intro hc
    have : idx str (ltr str j) ≤ idx str (ltr str i) := idx_mono str (by omega)
    have hlt' : idx str (ltr str i) < idx str (ltr str j) := hlt
    omega
  · intro u i j hu hj hlt
    apply hbase i j (hlms u i hu).2.1 (isL_iff.1 hj).1
    apply Decidable.byContradiction
    intro hc
    have : idx str (ltr str j) ≤ idx str (ltr str i) := idx_mono str (by omega)
    have hlt' : u < idx str (ltr str j) := hlt
    have := hin u i hu
    omega
  · intro u i j hu hj hle
    rw [hNL] at hle
    have hle' : idx str (ltr str j) + nL str (ltr str j) ≤ u := hle
    have h1 := hin u i hu
    rcases Nat.lt_trichotomy (ltr str i) (ltr str j) with hl | hl | hl
    · have := idx_lt str hl; omega
    · exact hbase' j i (isL_iff.1 hj).1 (hlms u i hu).2.1 hl.symm (isL_iff.1 hj).2 (hlms u i hu).2.2.2
    · exact hbase j i (isL_iff.1 hj).1 (hlms u i hu).2.1 hl

/-- The buckets during step 2. -/
def Bk2 (str : List Nat) (mx : Nat) (k : Nat → Nat) (bs : List Bucket) : Prop :=
  bs.length = mx + 1 ∧ ∀ c, c ≤ mx → ∃ sp, bs[c]? = some ⟨idx str c, cnt str c, idx str c + k c, sp⟩ ∧
    (0 < nL str c → idx str c + nL str c ≤ sp + 1)

theorem bk2_init {str : List Nat} {mx : Nat} {R : Nat → Nat → Prop} {q : List Nat} (hq : ∀ i, i ∈ q ↔ IsLms str i) (hn : q.Nodup)
    {A : Nat → Option Nat} {bs : List Bucket} (h : St1 str mx R q A bs) : Bk2 str mx (fun _ => 0) bs := by
  have hmc := mc_nL str q hn (fun i hi => ⟨((hq i).1 hi).2.1, ((hq i).1 hi).2.2.2⟩)
  refine ⟨h.len, fun c hc => ?_⟩
  obtain ⟨sp, hb, hsp⟩ := h.bk c hc
  refine ⟨sp, hb, fun h0 => ?_⟩
  have := hmc c
  have := hsp (by omega)
  omega

theorem scanStep_L {str : List Nat} {mx : Nat} (hT : Text str mx) {R : Nat → Nat → Prop} {A0 : Nat → Option Nat} (hok : (setL str R A0).Ok)
    {t : Nat} (ht : t < str.length) {A : Nat → Option Nat} {k : Nat → Nat} (hI : (setL str R A0).Inv t A k) {bs : List Bucket} {sa : List Nat}
    (hb : Bk2 str mx k bs) (hsa : Shows str.length sa A) :
    ∃ bs' sa' A' k', scanStep str (classify str) false t (bs, sa) = some (bs', sa') ∧ (setL str R A0).Inv (t + 1) A' k' ∧ Bk2 str mx k' bs' ∧
      Shows str.length sa' A' := by
  have hsmall := hT.small
  have hcl := classify_length str
  cases hA : A t with
  | none =>
    refine ⟨bs, sa, A, k, ?_, Setup.Inv.next_skip hI (fun j hj => by rw [hA] at hj; cases hj), hb, hsa⟩
    simp [scanStep, hsa.2 t ht, hA]
  | some id =>
    have hid : id < str.length := (hI.lt t id hA).2
    cases id with
    | zero =>
      refine ⟨bs, sa, A, k, ?_, Setup.Inv.next_skip hI (fun j hj => by rw [hA] at hj; cases hj), hb, hsa⟩
      simp [scanStep, hsa.2 t ht, hA]
    | succ j =>
      have hne : ¬ (j + 1 = kInf ∨ j + 1 = 0) := by
        unfold kInf
        omega
      have hty : (classify str)[j]? = some (typ str j) := getD_some _ _ _ (by omega)
      have hlj : str[j]? = some (ltr str j) := getD_some _ _ _ (by omega)
      by_cases hp : typ str j = true
      · refine ⟨bs, sa, A, k, ?_, Setup.Inv.next_skip hI (fun j' hj => ?_), hb, hsa⟩
        · simp only [scanStep, hsa.2 t ht, hA, Option.getD_some, Option.bind_eq_bind, Option.bind_some, if_neg hne, Nat.add_sub_cancel, hty, hp]
          simp
        · rw [hA] at hj
          cases hj
          show isL str j = false
          exact isL_false hp
      · have hp' : typ str j = false := by simpa using hp
        have hP : isL str j = true := isL_iff.2 ⟨by omega, hp'⟩
        obtain ⟨_, hroom⟩ := Setup.Inv.room hok hI hA hP
        obtain ⟨h1, h2, h3, h4⟩ := Setup.Inv.next_put hok hI hA hP
        have hroom' : k (ltr str j) < nL str (ltr str j) := hroom
        obtain ⟨sp, hbk, hsp⟩ := hb.2 _ (hT.ltr_le j)
        have hnl := nL_le str (ltr str j)
        have h3' : idx str (ltr str j) + k (ltr str j) < str.length := h3
        have hspv := hsp (by omega)
        have hput := put_L (sa := sa) (id := j) hbk (by simp only; omega) (by simp only; omega) (by simp only [hsa.1]; omega)
        refine ⟨bs.set (ltr str j) ⟨idx str (ltr str j), cnt str (ltr str j), idx str (ltr str j) + k (ltr str j) + 1, sp⟩,
          sa.set (idx str (ltr str j) + k (ltr str j)) j, _, _, ?_, h4, ?_, hsa.set _ _⟩
        · simp only [scanStep, hsa.2 t ht, hA, Option.getD_some, Option.bind_eq_bind, Option.bind_some, if_neg hne, Nat.add_sub_cancel, hty, hp',
            ne_eq, not_true_eq_false, if_false, hlj, hput, Option.pure_def]
        · refine ⟨by simp [hb.1], fun c hc => ?_⟩
          by_cases hcc : c = ltr str j
          · subst hcc
            refine ⟨sp, ?_, hsp⟩
            rw [List.getElem?_set, if_pos rfl, if_pos (by rw [hb.1]; omega)]
            show _ = some (Bucket.mk _ _ (idx str (ltr str j) + if ltr str j = ltr str j then k (ltr str j) + 1 else _) sp)
            rw [if_pos rfl]
            rfl
          · obtain ⟨sp', hb', hsp'⟩ := hb.2 c hc
            refine ⟨sp', ?_, hsp'⟩
            rw [List.getElem?_set, if_neg (fun e => hcc e.symm), hb']
            show _ = some (Bucket.mk _ _ (idx str c + if c = ltr str j then _ else k c) sp')
            rw [if_neg hcc]

theorem scanL_spec {str : List Nat} {mx : Nat} (hT : Text str mx) {R : Nat → Nat → Prop} {A0 : Nat → Option Nat} (hok : (setL str R A0).Ok) :
    ∀ (r t : Nat) (A : Nat → Option Nat) (k : Nat → Nat) (bs : List Bucket) (sa : List Nat), r + t = str.length → (setL str R A0).Inv t A k →
      Bk2 str mx k bs → Shows str.length sa A →
      ∃ bs' sa' A' k', scanL str (classify str) r t (bs, sa) = some (bs', sa') ∧ (setL str R A0).Inv str.length A' k' ∧ Bk2 str mx k' bs' ∧
        Shows str.length sa' A' := by
  intro r
  induction r with
  | zero =>
    intro t A k bs sa hr hI hb hsa
    rw [show t = str.length by omega] at hI
    exact ⟨bs, sa, A, k, rfl, hI, hb, hsa⟩
  | succ r ih =>
    intro t A k bs sa hr hI hb hsa
    obtain ⟨bs1, sa1, A1, k1, e1, hI1, hb1, hsa1⟩ := scanStep_L hT hok (by omega) hI hb hsa
    obtain ⟨bs2, sa2, A2, k2, e2, h2⟩ := ih (t + 1) A1 k1 bs1 sa1 (by omega) hI1 hb1 hsa1
    refine ⟨bs2, sa2, A2, k2, ?_, h2⟩
    simp only [scanL, e1, Option.bind_eq_bind, Option.bind_some, e2]

end Verif.SA
