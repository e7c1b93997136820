/-
`Induce_` as a whole.
-/
import Mathlib.Data.List.Perm.Subperm
import Verif.SA.Step3

namespace Verif.SA

/-- What was there at the start stays. -/
theorem Setup.Inv.keep {S : Setup} (h : S.Ok) {t : Nat} {A : Nat → Option Nat} {k : Nat → Nat} (hI : S.Inv t A k) {u j : Nat}
    (hu : S.A0 u = some j) : A u = some j := by
  rw [hI.out, hu]
  rintro c ⟨h1, h2⟩
  have := hI.le c
  rw [h.free c u h1 (by omega)] at hu
  cases hu

theorem removeLms_spec : ∀ (ps sa : List Nat), (∀ p ∈ ps, p < sa.length) →
    ∃ sa', removeLms ps sa = some sa' ∧ sa'.length = sa.length ∧
      ∀ u, u < sa.length → sa'[u]? = if u ∈ ps ∧ u ≠ 0 then some kInf else sa[u]? := by
  intro ps
  induction ps with
  | nil => intro sa _; exact ⟨sa, rfl, rfl, fun u _ => by simp⟩
  | cons p ps ih =>
    intro sa h
    by_cases hp : p = 0
    · obtain ⟨sa', e, hl, hg⟩ := ih sa (fun q hq => h q (by simp [hq]))
      refine ⟨sa', by rw [removeLms, if_pos hp, e], hl, fun u hu => ?_⟩
      rw [hg u hu]
      by_cases hu0 : u = 0
      · simp [hu0]
      · simp [hu0, hp]
    · have hpl := h p (by simp)
      obtain ⟨sa', e, hl, hg⟩ := ih (sa.set p kInf) (fun q hq => by rw [List.length_set]; exact h q (by simp [hq]))
      rw [List.length_set] at hl hg
      refine ⟨sa', by rw [removeLms, if_neg hp, wr_eq sa p kInf hpl]; exact e, hl, fun u hu => ?_⟩
      rw [hg u hu, List.getElem?_set]
      by_cases hpu : p = u
      · subst hpu
        simp [hp, hpl]
      · have : ¬ u = p := fun e => hpu e.symm
        simp [hpu, this]

theorem Text.last_lms {str : List Nat} {mx : Nat} (hT : Text str mx) : IsLms str (str.length - 1) := by
  have h2 := hT.two
  refine ⟨by omega, by omega, ?_, classify_last str (by omega)⟩
  have h3 := hT.pos (str.length - 1 - 1) (by omega)
  have h4 := hT.last
  rw [classify_step str _ (by omega), show str.length - 1 - 1 + 1 = str.length - 1 by omega, h4, if_neg (by omega)]
  simp

/-- `Induce_` sorts all positions if the LMS positions are given in order: `R1` is the order up to step 2 and `R2` the one after step 3. -/
theorem induce_spec {str : List Nat} {mx : Nat} (hT : Text str mx) {R1 R2 : Nat → Nat → Prop}
    (hb1 : ∀ i j, i < str.length → j < str.length → ltr str i < ltr str j → R1 i j)
    (hb1' : ∀ i j, i < str.length → j < str.length → ltr str i = ltr str j → typ str i = false → typ str j = true → R1 i j)
    (hs1 : ∀ i j, typ str i = false → typ str j = false → i + 1 < str.length → j + 1 < str.length → ltr str i = ltr str j →
      R1 (i + 1) (j + 1) → R1 i j)
    (hb2 : ∀ i j, i < str.length → j < str.length → ltr str i < ltr str j → R2 i j)
    (hb2' : ∀ i j, i < str.length → j < str.length → ltr str i = ltr str j → typ str i = false → typ str j = true → R2 i j)
    (hs2 : ∀ i j, typ str i = true → typ str j = true → i + 1 < str.length → j + 1 < str.length → ltr str i = ltr str j →
      R2 (i + 1) (j + 1) → R2 i j)
    (h12 : ∀ i j, i < str.length → j < str.length → typ str i = false → typ str j = false → R1 i j → R2 i j)
    (order : Option (List Nat))
    (hperm : (order.getD (List.range (findLMSs (classify str)).length)).Perm (List.range (findLMSs (classify str)).length))
    (hpw : ((order.getD (List.range (findLMSs (classify str)).length)).map (fun i => (findLMSs (classify str)).getD i 0)).Pairwise
      (fun i j => ltr str i = ltr str j → R1 i j)) :
    ∃ sa, induce mx str (classify str) (findLMSs (classify str)) order = some sa ∧ sa.Perm (List.range str.length) ∧ sa.Pairwise R2 ∧
      sa[0]? = some (str.length - 1) := by
  have h2n := hT.two
  have hsmall := hT.small
  generalize hq0 : order.getD (List.range (findLMSs (classify str)).length) = o at hperm hpw
  generalize hlmsd : findLMSs (classify str) = lms at hperm hpw hq0
  have hmem : ∀ i, i ∈ lms ↔ IsLms str i := by rw [← hlmsd]; exact mem_lms str
  have hlsorted : lms.Pairwise (· < ·) := by rw [← hlmsd]; exact lmsFrom_sorted _ _
  have hlnd : lms.Nodup := hlsorted.imp (fun h => by omega)
  have hond : o.Nodup := hperm.nodup_iff.2 List.nodup_range
  have holt : ∀ i, i ∈ o ↔ i < lms.length := fun i => by rw [hperm.mem_iff, List.mem_range]
  obtain ⟨bs0, e0, hl0, hb0⟩ := makeBuckets_spec str mx hT.le
  -- step 1
  obtain ⟨bs1, sa1, poss, A1, e1, hS1, hsa1, hpl, hposs⟩ := putLms_spec hT hb1 lms (fun i hi => ((hmem i).1 hi).2.1) hlnd o.reverse [] bs0
    (List.replicate str.length kInf) (List.replicate lms.length 0) (fun _ => none) (st1_init hT R1 hl0 hb0)
    ⟨by simp, fun u hu => by simp [hu]⟩ (by simp) (by simp) (by simpa using hond) (by simpa using fun i hi => (holt i).1 hi)
    (by simpa using hpw)
  simp only [List.reverse_reverse, List.append_nil] at hS1 hposs
  -- all LMS positions are inserted
  have hq : ∀ i, i ∈ o.map (fun i => lms.getD i 0) ↔ IsLms str i := by
    intro i
    rw [← hmem i]
    constructor
    · intro hi
      obtain ⟨y, hy, rfl⟩ := List.mem_map.1 hi
      exact List.mem_of_getElem? (getD_some lms y 0 ((holt y).1 hy))
    · intro hi
      obtain ⟨y, hy, e⟩ := List.mem_iff_getElem.1 hi
      refine List.mem_map.2 ⟨y, (holt y).2 hy, ?_⟩
      rw [List.getD_eq_getElem?_getD, List.getElem?_eq_getElem hy, e]
      rfl
  have hqn : (o.map (fun i => lms.getD i 0)).Nodup := by
    rw [List.Nodup, List.pairwise_map]
    refine (List.Pairwise.and_mem.1 hond).imp ?_
    rintro a b ⟨ha, hb, hab⟩ e
    have ha' := getD_some lms a 0 ((holt a).1 ha)
    have hb' := getD_some lms b 0 ((holt b).1 hb)
    rw [e, ← hb'] at ha'
    exact hab ((List.getElem?_inj ((holt a).1 ha) hlnd).1 ha')
  -- step 2
  have hokL := setL_ok hb1 hb1' hs1 hq hqn hS1
  obtain ⟨bs2, sa2, A2, k2, e2, hI2, hbk2, hsa2⟩ := scanL_spec hT hokL str.length 0 A1 (fun _ => 0) bs1 sa1 (by omega) (Setup.inv_init hokL)
    (bk2_init hq hqn hS1) hsa1
  have hfull2 : ∀ c, k2 c = nL str c := fun c => Setup.Inv.full hokL hI2 c
  have hkeep2 : ∀ u j, A1 u = some j → A2 u = some j := fun u j hu => Setup.Inv.keep hokL hI2 hu
  -- the positions of the LMS entries
  have hpos : ∀ u j, A1 u = some j → u ∈ poss := by
    intro u j hu
    obtain ⟨y, hy, e⟩ := List.mem_map.1 (hS1.mem u j hu).1
    obtain ⟨p, hp, _, hA⟩ := hposs y hy
    rw [show lms.getD y 0 = j from e] at hA
    rw [hS1.inj u p j hu hA]
    exact List.mem_of_getElem? hp
  have hpos' : ∀ u, u ∈ poss → ∃ j, A1 u = some j ∧ typ str j = true ∧ u < str.length := by
    intro u hu
    obtain ⟨y, hy, e⟩ := List.mem_iff_getElem.1 hu
    obtain ⟨p, hp, hlt, hA⟩ := hposs y ((holt y).2 (by omega))
    rw [List.getElem?_eq_getElem hy] at hp
    cases hp
    rw [e] at hA hlt
    exact ⟨_, hA, ((hq _).1 (hS1.mem _ _ hA).1).2.2.2, hlt⟩
  -- step 3-a
  obtain ⟨sa3, e3, hl3, hg3⟩ := removeLms_spec poss sa2 (fun p hp => by
    obtain ⟨_, _, _, h⟩ := hpos' p hp
    rw [hsa2.1]; exact h)
  rw [hsa2.1] at hl3 hg3
  let A3 : Nat → Option Nat := fun u => if u ∈ poss ∧ u ≠ 0 then none else A2 u
  have hA3 : ∀ u j, A3 u = some j → ¬ (u ∈ poss ∧ u ≠ 0) ∧ A2 u = some j := by
    intro u j hu
    by_cases hc : u ∈ poss ∧ u ≠ 0
    · simp only [A3, if_pos hc] at hu; cases hu
    · simp only [A3, if_neg hc] at hu; exact ⟨hc, hu⟩
  have hLs : Ls str R2 A3 := by
    have hm : ∀ u j, A3 u = some j →
        (isL str j = true ∧ idx str (ltr str j) ≤ u ∧ u < idx str (ltr str j) + nL str (ltr str j)) ∨ (j = str.length - 1 ∧ u = 0) := by
      intro u j hu
      obtain ⟨h1, h2⟩ := hA3 u j hu
      rcases Setup.Inv.origin hokL hI2 h2 with ⟨h3, h4, h5⟩ | ⟨_, h4⟩
      · left
        refine ⟨h3, h4, ?_⟩
        rw [← hfull2]
        exact h5
      · right
        have h5 := hpos u j h4
        have h6 : u = 0 := by
          apply Decidable.byContradiction
          intro hc
          exact h1 ⟨h5, hc⟩
        refine ⟨?_, h6⟩
        obtain ⟨h7, h8, h9⟩ := hS1.mem u j h4
        have h10 := ((hq j).1 h7).2.1
        apply (hT.zero_iff h10).1
        apply Decidable.byContradiction
        intro hc
        have := hT.idx_pos (show 0 < ltr str j by omega)
        have := hS1.mle (ltr str j)
        omega
    constructor
    · exact hm
    · intro j hj
      obtain ⟨u, hu⟩ := Setup.Inv.all hokL hI2 j hj
      refine ⟨u, ?_⟩
      have : ¬ (u ∈ poss ∧ u ≠ 0) := by
        rintro ⟨h1, _⟩
        obtain ⟨j', h2, h3, _⟩ := hpos' u h1
        rw [hkeep2 u j' h2] at hu
        cases hu
        rw [(isL_iff.1 hj).2] at h3
        cases h3
      simp only [A3, if_neg this, hu]
    · obtain ⟨u, hu⟩ := hS1.all _ ((hq _).2 hT.last_lms)
      have h1 := (hS1.mem _ _ hu).2.2
      rw [hT.last, idx_zero, hT.cnt_zero'] at h1
      have h0 : u = 0 := by omega
      subst h0
      simp only [A3, ne_eq, not_true_eq_false, and_false, if_false]
      exact hkeep2 _ _ hu
    · intro u v j hu hv
      exact hI2.inj u v j (hA3 u j hu).2 (hA3 v j hv).2
    · intro u v i j huv hu hv
      have hR := hI2.sorted u v i j huv (hA3 u i hu).2 (hA3 v j hv).2
      rcases hm v j hv with ⟨h1, h2, h3⟩ | ⟨_, h1⟩
      · rcases hm u i hu with ⟨h4, h5, h6⟩ | ⟨h4, _⟩
        · exact h12 i j (isL_iff.1 h4).1 (isL_iff.1 h1).1 (isL_iff.1 h4).2 (isL_iff.1 h1).2 hR
        · apply hb2 i j (by omega) (isL_iff.1 h1).1
          rw [h4, hT.last]
          have := (isL_next h1).1
          exact hT.pos j this
      · omega
  -- step 3-b
  have hokS := setS_ok hT hb2 hb2' hs2 hLs
  have hbk3 : Bk3 str mx (fun _ => 0) (bs2.map (fun b => { b with sPos := dec64 (b.index + b.count) })) := by
    refine ⟨by simp [hbk2.1], fun c hc => ?_⟩
    obtain ⟨sp, hb, _⟩ := hbk2.2 c hc
    refine ⟨dec64 (idx str c + cnt str c), ?_, fun h0 => ?_⟩
    · rw [List.getElem?_map, hb, ← hfull2]
      rfl
    · have := nL_nS str c
      have := idx_le str c
      rw [dec64_pos (by omega) (by omega)]
      simp only at h0 ⊢
      omega
  have hsa3 : Shows' str.length sa3 (setS str R2 A3).A0 := by
    refine ⟨hl3, fun u hu => ?_⟩
    rw [hg3 _ (by omega), hsa2.2 _ (by omega)]
    show _ = some ((if u < str.length then A3 (str.length - 1 - u) else none).getD kInf)
    rw [if_pos hu]
    show _ = some (Option.getD (if _ then none else _) kInf)
    split
    · rfl
    · rfl
  obtain ⟨bs4, sa4, A4, k4, e4, hI4, hbk4, hsa4⟩ := scanS_spec hT hokS str.length 0 _ (fun _ => 0) _ sa3 (by omega) (Setup.inv_init hokS) hbk3 hsa3
  -- every position occurs
  have hkeep4 : ∀ u j, u < str.length → A3 u = some j → A4 (str.length - 1 - u) = some j := by
    intro u j hu hj
    apply Setup.Inv.keep hokS hI4
    show (if str.length - 1 - u < str.length then A3 (str.length - 1 - (str.length - 1 - u)) else none) = _
    rw [if_pos (by omega), show str.length - 1 - (str.length - 1 - u) = u by omega, hj]
  have hall : ∀ j, j < str.length → j ∈ sa4 := by
    intro j hj
    have hex : ∃ u, A4 u = some j := by
      by_cases hz : j = str.length - 1
      · subst hz
        exact ⟨_, hkeep4 0 _ (by omega) hLs.zero⟩
      · by_cases ht : typ str j = true
        · exact Setup.Inv.all hokS hI4 j (isS_iff.2 ⟨by omega, ht⟩)
        · obtain ⟨u, hu⟩ := hLs.all j (isL_iff.2 ⟨hj, by simpa using ht⟩)
          exact ⟨_, hkeep4 u _ (hI2.lt u _ (hA3 u j hu).2).1 hu⟩
    obtain ⟨u, hu⟩ := hex
    have := hsa4.2 u (hI4.lt u j hu).1
    rw [hu] at this
    exact List.mem_of_getElem? this
  have hpermF : sa4.Perm (List.range str.length) := by
    have h1 : (List.range str.length).Subperm sa4 := List.nodup_range.subperm (fun j hj => hall j (List.mem_range.1 hj))
    exact (h1.perm_of_length_le (by rw [hsa4.1, List.length_range]; exact Nat.le_refl _)).symm
  have hval : ∀ p (hp : p < sa4.length), A4 (str.length - 1 - p) = some sa4[p] := by
    intro p hp
    have hp' : p < str.length := by rw [← hsa4.1]; exact hp
    have h1 := hsa4.2 (str.length - 1 - p) (by omega)
    rw [show str.length - 1 - (str.length - 1 - p) = p by omega, List.getElem?_eq_getElem hp] at h1
    have h2 : sa4[p] < str.length := List.mem_range.1 (hpermF.mem_iff.1 (List.getElem_mem hp))
    cases hA : A4 (str.length - 1 - p) with
    | none =>
      rw [hA] at h1
      simp only [Option.getD_none, Option.some.injEq] at h1
      rw [h1] at h2
      unfold kInf at h2
      omega
    | some j =>
      rw [hA] at h1
      simp only [Option.getD_some] at h1
      rw [h1]
  refine ⟨sa4, ?_, hpermF, ?_, ?_⟩
  · cases order with
    | none =>
      simp only [Option.getD_none] at hq0
      rw [← hq0] at e1
      simp only [induce, e0, Option.bind_eq_bind, Option.bind_some, e1, hsa1.1, e2, e3, hl3, e4, Option.pure_def]
    | some o' =>
      simp only [Option.getD_some] at hq0
      rw [← hq0] at e1
      simp only [induce, e0, Option.bind_eq_bind, Option.bind_some, e1, hsa1.1, e2, e3, hl3, e4, Option.pure_def]
  · rw [List.pairwise_iff_getElem]
    intro p q hp hq' hpq
    have hq'' : q < str.length := by rw [← hsa4.1]; exact hq'
    exact hI4.sorted (str.length - 1 - q) (str.length - 1 - p) _ _ (by omega) (hval q hq') (hval p hp)
  · have h1 := hsa4.2 (str.length - 1) (by omega)
    rw [show str.length - 1 - (str.length - 1) = 0 by omega] at h1
    rw [h1, show A4 (str.length - 1) = some (str.length - 1) from hkeep4 0 _ (by omega) hLs.zero]
    rfl

end Verif.SA
