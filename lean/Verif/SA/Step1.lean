/-
Step 1 of `Induce_`: the LMS positions at the ends of the buckets.
-/
import Verif.SA.Basic

namespace Verif.SA

/-- A text with its terminator. -/
structure Text (str : List Nat) (mx : Nat) : Prop where
  two : 2 ≤ str.length
  last : ltr str (str.length - 1) = 0
  pos : ∀ i, i + 1 < str.length → 0 < ltr str i
  le : ∀ x ∈ str, x ≤ mx
  small : str.length < 2 ^ 64 - 1

theorem Text.ltr_le {str : List Nat} {mx : Nat} (h : Text str mx) (i : Nat) : ltr str i ≤ mx := by
  by_cases hi : i < str.length
  · exact h.le _ (List.mem_of_getElem? (getD_some str i 0 hi))
  · rw [ltr, List.getD_eq_getElem?_getD, List.getElem?_eq_none (by omega)]
    simp

theorem typL {str : List Nat} {i : Nat} (hi : i + 1 < str.length) (h : typ str i = false) :
    ltr str (i + 1) < ltr str i ∨ (ltr str (i + 1) = ltr str i ∧ typ str (i + 1) = false) := by
  rw [classify_step str i hi] at h
  split at h
  · rename_i he
    exact Or.inr ⟨he.symm, h⟩
  · simp only [decide_eq_false_iff_not] at h
    omega

theorem typS {str : List Nat} {i : Nat} (hi : i + 1 < str.length) (h : typ str i = true) :
    ltr str i < ltr str (i + 1) ∨ (ltr str (i + 1) = ltr str i ∧ typ str (i + 1) = true) := by
  rw [classify_step str i hi] at h
  split at h
  · rename_i he
    exact Or.inr ⟨he.symm, h⟩
  · simp only [decide_eq_true_eq] at h
    omega

theorem dec64_pos {x : Nat} (h0 : 0 < x) (h : x < 2 ^ 64) : dec64 x = x - 1 := by
  unfold dec64
  rw [show x + (2 ^ 64 - 1) = x - 1 + 2 ^ 64 by omega, Nat.add_mod_right, Nat.mod_eq_of_lt (by omega)]

theorem put_L {bs : List Bucket} {sa : List Nat} {c id : Nat} {b : Bucket} (hb : bs[c]? = some b) (h0 : b.count ≠ 0) (h1 : b.lPos ≤ b.sPos)
    (h2 : b.lPos < sa.length) :
    putBucket bs sa false c id = some (bs.set c { b with lPos := b.lPos + 1 }, sa.set b.lPos id, b.lPos) := by
  obtain ⟨hc, _⟩ := List.getElem?_eq_some_iff.1 hb
  have hf : b.full = false := by
    unfold Bucket.full
    simp [h0]
    omega
  simp only [putBucket, hb, Option.bind_eq_bind, Option.bind_some, hf, Bool.false_eq_true, if_false, Bool.not_false, if_true,
    wr_eq sa b.lPos id h2, wr_eq bs c _ hc, Option.pure_def]

theorem put_S {bs : List Bucket} {sa : List Nat} {c id : Nat} {b : Bucket} (hb : bs[c]? = some b) (h0 : b.count ≠ 0) (h1 : b.lPos ≤ b.sPos)
    (h2 : b.sPos < sa.length) :
    putBucket bs sa true c id = some (bs.set c { b with sPos := dec64 b.sPos }, sa.set b.sPos id, b.sPos) := by
  obtain ⟨hc, _⟩ := List.getElem?_eq_some_iff.1 hb
  have hf : b.full = false := by
    unfold Bucket.full
    simp [h0]
    omega
  simp only [putBucket, hb, Option.bind_eq_bind, Option.bind_some, hf, Bool.false_eq_true, if_false, Bool.not_true,
    wr_eq sa b.sPos id h2, wr_eq bs c _ hc, Option.pure_def]

/-- The array shows the partial map `A`. -/
def Shows (n : Nat) (sa : List Nat) (A : Nat → Option Nat) : Prop := sa.length = n ∧ ∀ u, u < n → sa[u]? = some ((A u).getD kInf)

theorem Shows.set {n : Nat} {sa : List Nat} {A : Nat → Option Nat} (h : Shows n sa A) (p j : Nat) :
    Shows n (sa.set p j) (fun u => if u = p then some j else A u) := by
  refine ⟨by simp [h.1], fun u hu => ?_⟩
  rw [List.getElem?_set]
  by_cases hp : p = u
  · subst hp
    rw [if_pos rfl, if_pos (by rw [h.1]; omega)]
    simp
  · have hp' : ¬ u = p := fun e => hp e.symm
    rw [if_neg hp, h.2 u hu]
    simp only [if_neg hp']

/-- Number of inserted positions with a letter. -/
def mc (str q : List Nat) (c : Nat) : Nat := (q.filter (fun i => decide (ltr str i = c))).length

theorem mc_cons (str q : List Nat) (i c : Nat) : mc str (i :: q) c = mc str q c + if ltr str i = c then 1 else 0 := by
  unfold mc
  rw [List.filter_cons]
  by_cases h : ltr str i = c
  · rw [if_pos (decide_eq_true h), if_pos h, List.length_cons]
  · rw [if_neg (fun e => h (of_decide_eq_true e)), if_neg h]
    rfl

theorem mc_le (str q : List Nat) (hn : q.Nodup) (p : Nat → Bool) (hq : ∀ i ∈ q, i < str.length ∧ p i = true) (c : Nat) :
    mc str q c ≤ cp str.length (fun i => p i && decide (ltr str i = c)) := by
  apply nodup_subset _ _ (hn.filter _)
  intro x hx
  obtain ⟨h1, h2⟩ := List.mem_filter.1 hx
  have := hq x h1
  exact List.mem_filter.2 ⟨List.mem_range.2 this.1, by rw [this.2, h2]; rfl⟩

structure St1 (str : List Nat) (mx : Nat) (R : Nat → Nat → Prop) (q : List Nat) (A : Nat → Option Nat) (bs : List Bucket) : Prop where
  len : bs.length = mx + 1
  bk : ∀ c, c ≤ mx → ∃ sp, bs[c]? = some ⟨idx str c, cnt str c, idx str c, sp⟩ ∧
    (mc str q c < cnt str c → sp + 1 + mc str q c = idx str c + cnt str c)
  mle : ∀ c, mc str q c ≤ cnt str c
  mem : ∀ u i, A u = some i → i ∈ q ∧ idx str (ltr str i) + cnt str (ltr str i) ≤ u + mc str q (ltr str i) ∧
    u < idx str (ltr str i) + cnt str (ltr str i)
  all : ∀ i, i ∈ q → ∃ u, A u = some i
  inj : ∀ u v i, A u = some i → A v = some i → u = v
  sorted : ∀ u v i j, u < v → A u = some i → A v = some j → R i j

theorem st1_init {str : List Nat} {mx : Nat} (hT : Text str mx) (R : Nat → Nat → Prop) {bs : List Bucket} (hl : bs.length = mx + 1)
    (hb : ∀ c, c ≤ mx → bs[c]? = some ⟨idx str c, cnt str c, idx str c, dec64 (idx str c + cnt str c)⟩) : St1 str mx R [] (fun _ => none) bs where
  len := hl
  bk := fun c hc => by
    refine ⟨_, hb c hc, fun h => ?_⟩
    have := idx_le str c
    have := hT.small
    simp only [mc, List.filter_nil, List.length_nil] at h ⊢
    rw [dec64_pos (by omega) (by omega)]
    omega
  mle := fun c => by simp [mc]
  mem := fun u i h => by cases h
  all := fun i h => by simp at h
  inj := fun u v i h => by cases h
  sorted := fun u v i j _ h => by cases h

theorem st1_put {str : List Nat} {mx : Nat} (hT : Text str mx) {R : Nat → Nat → Prop}
    (hbase : ∀ i j, i < str.length → j < str.length → ltr str i < ltr str j → R i j)
    {q : List Nat} {A : Nat → Option Nat} {bs : List Bucket} {sa : List Nat} (h : St1 str mx R q A bs) (hsa : Shows str.length sa A)
    (hq : ∀ i ∈ q, i < str.length) (id : Nat) (hid : id < str.length) (hn : (id :: q).Nodup)
    (hR : ∀ i ∈ q, ltr str id = ltr str i → R id i) :
    ∃ bs' p, putBucket bs sa true (ltr str id) id = some (bs', sa.set p id, p) ∧ p < str.length ∧ A p = none ∧
      St1 str mx R (id :: q) (fun u => if u = p then some id else A u) bs' := by
  have hc := hT.ltr_le id
  obtain ⟨sp, hb, hsp⟩ := h.bk _ hc
  have hroom : mc str (id :: q) (ltr str id) ≤ cnt str (ltr str id) := by
    have := mc_le str (id :: q) hn (fun _ => true) (fun i hi => by
      rcases List.mem_cons.1 hi with rfl | hi
      · exact ⟨hid, rfl⟩
      · exact ⟨hq i hi, rfl⟩) (ltr str id)
    simpa [cnt] using this
  have hmc := mc_cons str q id
  have hroom' : mc str q (ltr str id) < cnt str (ltr str id) := by
    have := hmc (ltr str id)
    rw [if_pos rfl] at this
    omega
  have hsp' := hsp hroom'
  have hE := idx_le str (ltr str id)
  have hsmall := hT.small
  have hp : sp < str.length := by omega
  have hnone : A sp = none := by
    cases hA : A sp with
    | none => rfl
    | some i =>
      obtain ⟨h1, h2, h3⟩ := h.mem sp i hA
      rcases Nat.lt_trichotomy (ltr str i) (ltr str id) with hl | hl | hl
      · have := idx_lt str hl; omega
      · rw [hl] at h2; omega
      · have := idx_lt str hl
        have := h.mle (ltr str i)
        omega
  have hnid : ∀ u, A u ≠ some id := fun u hu => (List.nodup_cons.1 hn).1 (h.mem u id hu).1
  refine ⟨_, sp, put_S hb (by simp only; omega) (by simp only; omega) (by rw [hsa.1]; exact hp), hp, hnone, ?_⟩
  constructor
  · simp [h.len]
  · intro c hcm
    by_cases hcc : ltr str id = c
    · subst hcc
      refine ⟨dec64 sp, ?_, ?_⟩
      · rw [List.getElem?_set, if_pos rfl, if_pos (by rw [h.len]; omega)]
      · intro hlt
        have := hmc (ltr str id)
        rw [if_pos rfl] at this
        rw [dec64_pos (by omega) (by omega)]
        omega
    · obtain ⟨sp', hb', hsp''⟩ := h.bk c hcm
      refine ⟨sp', ?_, ?_⟩
      · rw [List.getElem?_set, if_neg hcc, hb']
      · rw [hmc c, if_neg hcc]
        exact hsp''
  · intro c
    have := h.mle c
    have h2 := hmc c
    by_cases hcc : ltr str id = c
    · subst hcc; exact hroom
    · rw [if_neg hcc] at h2; omega
  · intro u i hu
    by_cases hup : u = sp
    · rw [if_pos hup] at hu
      cases hu
      have := hmc (ltr str id)
      rw [if_pos rfl] at this
      exact ⟨by simp, by omega, by omega⟩
    · rw [if_neg hup] at hu
      obtain ⟨h1, h2, h3⟩ := h.mem u i hu
      have := hmc (ltr str i)
      exact ⟨by simp [h1], by omega, h3⟩
  · intro i hi
    rcases List.mem_cons.1 hi with rfl | hi
    · exact ⟨sp, by simp⟩
    · obtain ⟨u, hu⟩ := h.all i hi
      refine ⟨u, ?_⟩
      rw [if_neg (by rintro rfl; rw [hnone] at hu; cases hu), hu]
  · intro u v i hu hv
    by_cases hup : u = sp <;> by_cases hvp : v = sp
    · omega
    · rw [if_pos hup] at hu; rw [if_neg hvp] at hv
      cases hu
      exact absurd hv (hnid v)
    · rw [if_neg hup] at hu; rw [if_pos hvp] at hv
      cases hv
      exact absurd hu (hnid u)
    · rw [if_neg hup] at hu; rw [if_neg hvp] at hv
      exact h.inj u v i hu hv
  · intro u v i j huv hu hv
    by_cases hup : u = sp <;> by_cases hvp : v = sp
    · omega
    · rw [if_pos hup] at hu; rw [if_neg hvp] at hv
      cases hu
      obtain ⟨h1, h2, h3⟩ := h.mem v j hv
      rcases Nat.lt_trichotomy (ltr str id) (ltr str j) with hl | hl | hl
      · exact hbase _ _ hid (hq j h1) hl
      · exact hR j h1 hl
      · have := idx_lt str hl; omega
    · rw [if_neg hup] at hu; rw [if_pos hvp] at hv
      cases hv
      obtain ⟨h1, h2, h3⟩ := h.mem u i hu
      rcases Nat.lt_trichotomy (ltr str i) (ltr str id) with hl | hl | hl
      · exact hbase _ _ (hq i h1) hid hl
      · rw [hl] at h2; omega
      · have := idx_lt str hl
        have := h.mle (ltr str i)
        omega
    · rw [if_neg hup] at hu; rw [if_neg hvp] at hv
      exact h.sorted u v i j huv hu hv

theorem putLms_spec {str : List Nat} {mx : Nat} (hT : Text str mx) {R : Nat → Nat → Prop}
    (hbase : ∀ i j, i < str.length → j < str.length → ltr str i < ltr str j → R i j)
    (lms : List Nat) (hlms : ∀ i ∈ lms, i < str.length) (hnl : lms.Nodup) :
    ∀ (is done : List Nat) (bs : List Bucket) (sa poss : List Nat) (A : Nat → Option Nat),
      St1 str mx R (done.map (fun i => lms.getD i 0)) A bs → Shows str.length sa A → poss.length = lms.length →
      (∀ i ∈ done, ∃ p, poss[i]? = some p ∧ p < str.length ∧ A p = some (lms.getD i 0)) → (is.reverse ++ done).Nodup →
      (∀ i ∈ is.reverse ++ done, i < lms.length) →
      ((is.reverse ++ done).map (fun i => lms.getD i 0)).Pairwise (fun i j => ltr str i = ltr str j → R i j) →
      ∃ bs' sa' poss' A', putLms str lms is (bs, sa, poss) = some (bs', sa', poss') ∧
        St1 str mx R ((is.reverse ++ done).map (fun i => lms.getD i 0)) A' bs' ∧ Shows str.length sa' A' ∧ poss'.length = lms.length ∧
        ∀ i ∈ is.reverse ++ done, ∃ p, poss'[i]? = some p ∧ p < str.length ∧ A' p = some (lms.getD i 0) := by
  intro is
  induction is with
  | nil =>
    intro done bs sa poss A h1 h2 h3 h4 _ _ _
    exact ⟨bs, sa, poss, A, rfl, h1, h2, h3, h4⟩
  | cons i is ih =>
    intro done bs sa poss A h1 h2 h3 h4 hnd hlt hpw
    have hre : (i :: is).reverse ++ done = is.reverse ++ (i :: done) := by simp
    rw [hre] at hnd hlt hpw ⊢
    have hi : i < lms.length := hlt i (by simp)
    have hdone : ∀ x ∈ i :: done, x < lms.length := fun x hx => hlt x (List.mem_append_right _ hx)
    have hnd' : (i :: done).Nodup := (List.nodup_append.1 hnd).2.1
    have hmap : ((i :: done).map (fun i => lms.getD i 0)).Nodup := by
      rw [List.Nodup, List.pairwise_map]
      refine (List.Pairwise.and_mem.1 hnd').imp ?_
      rintro a b ⟨ha, hb, hab⟩ e
      have ha' := getD_some lms a 0 (hdone a ha)
      have hb' := getD_some lms b 0 (hdone b hb)
      rw [e, ← hb'] at ha'
      exact hab ((List.getElem?_inj (hdone a ha) hnl).1 ha')
    have hid : lms.getD i 0 < str.length := hlms _ (List.mem_of_getElem? (getD_some lms i 0 hi))
    rw [List.map_append] at hpw
    have hpw' := (List.pairwise_append.1 hpw).2.1
    rw [List.map_cons, List.pairwise_cons] at hpw'
    obtain ⟨bs1, p, e1, hp, hnone, hs1⟩ := st1_put hT hbase h1 h2 (fun x hx => by
      obtain ⟨y, hy, rfl⟩ := List.mem_map.1 hx
      exact hlms _ (List.mem_of_getElem? (getD_some lms y 0 (hdone y (by simp [hy]))))) (lms.getD i 0) hid hmap hpw'.1
    have hw : i < poss.length := by omega
    have hstep : putLms str lms (i :: is) (bs, sa, poss) = putLms str lms is (bs1, sa.set p (lms.getD i 0), poss.set i p) := by
      simp only [putLms, getD_some lms i 0 hi, getD_some str (lms.getD i 0) 0 hid, Option.bind_eq_bind, Option.bind_some, e1,
        wr_eq poss i p hw]
    rw [hstep]
    apply ih (i :: done) bs1 _ _ _ hs1 (h2.set p _) (by simp [h3]) ?_ hnd hlt (by rw [List.map_append]; exact hpw)
    intro x hx
    by_cases hxi : x = i
    · subst hxi
      refine ⟨p, ?_, hp, by simp⟩
      rw [List.getElem?_set, if_pos rfl, if_pos hw]
    · obtain ⟨p', e', hp', hA⟩ := h4 x ((List.mem_cons.1 hx).resolve_left hxi)
      refine ⟨p', ?_, hp', ?_⟩
      · rw [List.getElem?_set, if_neg (fun e => hxi e.symm), e']
      · rw [if_neg (by rintro rfl; rw [hnone] at hA; cases hA), hA]

end Verif.SA
