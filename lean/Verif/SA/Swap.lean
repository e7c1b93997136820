/-
The suffixes that `Sais_` puts in the wrong order are those of `Swapped`.
-/
import Verif.SA.Order
import Mathlib.Data.List.Nodup

namespace Verif.SA

/-! ### Numbers of the valleys -/

theorem filter_nth (P : Nat → Bool) : ∀ (n p : Nat), p < n → P p = true → ((List.range n).filter P)[((List.range p).filter P).length]? = some p
  | 0, p, h, _ => by omega
  | n + 1, p, h, hp => by
    rw [List.range_succ, List.filter_append]
    by_cases hpn : p = n
    · subst hpn
      rw [List.getElem?_append_right (Nat.le_refl _), Nat.sub_self]
      simp [hp]
    · have := filter_nth P n p (by omega) hp
      rw [List.getElem?_append_left (List.getElem?_eq_some_iff.1 this).1, this]

theorem lms_filter {str : List Nat} {mx : Nat} (hT : Text str mx) :
    findLMSs (classify str) = (List.range str.length).filter (fun q => decide (Valley str q)) := by
  rw [lms_eq_filter]
  apply List.filter_congr
  intro i _
  simp only [valley_iff hT]

theorem nth_num {T : List Nat} {p : Nat} (h : Valley T p) : ((List.range T.length).filter (fun q => decide (Valley T q)))[num T p]? = some p :=
  filter_nth _ _ _ h.2.1 (decide_eq_true h)

theorem num_lt {T : List Nat} {p : Nat} (h : Valley T p) : num T p < num T T.length := (List.getElem?_eq_some_iff.1 (nth_num h)).1

theorem num_inj {T : List Nat} {p q : Nat} (h : Valley T p) (h' : Valley T q) (e : num T p = num T q) : p = q := by
  have h1 := nth_num h
  rw [e, nth_num h'] at h1
  exact (Option.some.inj h1).symm

theorem num_surj {T : List Nat} {a : Nat} (h : a < num T T.length) : ∃ p, Valley T p ∧ num T p = a ∧
    ((List.range T.length).filter (fun q => decide (Valley T q)))[a]? = some p := by
  have h1 := List.getElem?_eq_getElem (l := (List.range T.length).filter (fun q => decide (Valley T q))) h
  have hm := List.mem_of_getElem? h1
  have hv := of_decide_eq_true (List.mem_filter.1 hm).2
  refine ⟨_, hv, ?_, h1⟩
  have hnd : ((List.range T.length).filter (fun q => decide (Valley T q))).Nodup := List.nodup_range.filter _
  have h2 := nth_num hv
  rw [List.getElem?_eq_getElem (num_lt hv)] at h2
  exact (hnd.getElem_inj_iff).1 (Option.some.inj h2)

/-! ### Texts with the same order of the letters -/

/-- The letters of the two texts are in the same order. -/
def Iso (s s' : List Nat) : Prop := s.length = s'.length ∧ ∀ a b, a < s.length → b < s.length → (ltr s a < ltr s b ↔ ltr s' a < ltr s' b)

theorem Iso.symm {s s' : List Nat} (h : Iso s s') : Iso s' s :=
  ⟨h.1.symm, fun a b ha hb => (h.2 a b (by rw [h.1]; exact ha) (by rw [h.1]; exact hb)).symm⟩

theorem Iso.eq {s s' : List Nat} (h : Iso s s') {a b : Nat} (ha : a < s.length) (hb : b < s.length) : ltr s a = ltr s b ↔ ltr s' a = ltr s' b := by
  have h1 := h.2 a b ha hb
  have h2 := h.2 b a hb ha
  constructor
  · intro e
    apply Nat.le_antisymm
    · exact Nat.not_lt.1 (fun hc => by have := h2.2 hc; omega)
    · exact Nat.not_lt.1 (fun hc => by have := h1.2 hc; omega)
  · intro e
    apply Nat.le_antisymm
    · exact Nat.not_lt.1 (fun hc => by have := h2.1 hc; omega)
    · exact Nat.not_lt.1 (fun hc => by have := h1.1 hc; omega)

theorem Iso.get {s s' : List Nat} (h : Iso s s') (a b : Nat) : s[a]? = s[b]? ↔ s'[a]? = s'[b]? := by
  have hl := h.1
  by_cases ha : a < s.length
  · by_cases hb : b < s.length
    · rw [get_of_ltr ha hb, get_of_ltr (by omega) (by omega), h.eq ha hb]
    · rw [List.getElem?_eq_none (l := s) (i := b) (by omega), List.getElem?_eq_none (l := s') (i := b) (by omega), List.getElem?_eq_getElem ha,
        List.getElem?_eq_getElem (by omega : a < s'.length)]
      simp
  · by_cases hb : b < s.length
    · rw [List.getElem?_eq_none (l := s) (i := a) (by omega), List.getElem?_eq_none (l := s') (i := a) (by omega), List.getElem?_eq_getElem hb,
        List.getElem?_eq_getElem (by omega : b < s'.length)]
      simp
    · rw [List.getElem?_eq_none (l := s) (i := a) (by omega), List.getElem?_eq_none (l := s') (i := a) (by omega),
        List.getElem?_eq_none (l := s) (i := b) (by omega), List.getElem?_eq_none (l := s') (i := b) (by omega)]

theorem Iso.drop_to {s s' : List Nat} (h : Iso s s') : ∀ (m a b : Nat), s.length - a = m → s.drop a < s.drop b → s'.drop a < s'.drop b := by
  have hl := h.1
  intro m
  induction m with
  | zero =>
    intro a b hm hlt
    have hb : b < s.length := by
      apply Nat.not_le.1
      intro hc
      rw [List.drop_eq_nil_of_le hc] at hlt
      exact List.not_lt_nil _ hlt
    rw [List.drop_eq_nil_of_le (by omega), drop_cons (by omega : b < s'.length)]
    exact List.nil_lt_cons _ _
  | succ m ih =>
    intro a b hm hlt
    have hb : b < s.length := by
      apply Nat.not_le.1
      intro hc
      rw [List.drop_eq_nil_of_le hc] at hlt
      exact List.not_lt_nil _ hlt
    rw [drop_cons (by omega : a < s.length), drop_cons hb, List.cons_lt_cons_iff] at hlt
    rw [drop_cons (by omega : a < s'.length), drop_cons (by omega : b < s'.length), List.cons_lt_cons_iff]
    rcases hlt with hlt | ⟨he, hlt⟩
    · exact .inl ((h.2 a b (by omega) hb).1 hlt)
    · exact .inr ⟨(h.eq (by omega) hb).1 he, ih (a + 1) (b + 1) (by omega) hlt⟩

theorem Iso.drop {s s' : List Nat} (h : Iso s s') (a b : Nat) : s.drop a < s.drop b ↔ s'.drop a < s'.drop b :=
  ⟨h.drop_to _ a b rfl, h.symm.drop_to _ a b rfl⟩

theorem Iso.valley {s s' : List Nat} (h : Iso s s') (i : Nat) : Valley s i ↔ Valley s' i := by
  unfold Valley
  rw [h.drop, h.drop, h.1]

theorem Iso.run {s s' : List Nat} (h : Iso s s') (i j e : Nat) : Run s i j e ↔ Run s' i j e := by
  unfold Run
  simp only [h.valley, h.get]

theorem Iso.distinct {s s' : List Nat} (h : Iso s s') : Distinct s ↔ Distinct s' := by
  unfold Distinct
  simp only [h.valley, h.run]

theorem Iso.num {s s' : List Nat} (h : Iso s s') (p : Nat) : num s p = num s' p := by
  unfold Verif.SA.num
  simp only [h.valley]

theorem Iso.names {s s' sub : List Nat} (h : Iso s s') : Names s sub ↔ Names s' sub := by
  unfold Names
  simp only [h.valley, h.num, h.run, h.drop, h.1]

theorem Iso.swapped {s : List Nat} {i j : Nat} (hs : Swapped s i j) : ∀ s', Iso s s' → Swapped s' i j := by
  induction hs with
  | flat h1 h2 h3 h4 =>
    intro s' h
    exact .flat (h.distinct.1 h1) ((h.run _ _ _).1 h2) h3 ((h.drop _ _).1 h4)
  | deep h1 h2 h3 _ ih =>
    intro s' h
    refine .deep (fun hc => h1 (h.distinct.2 hc)) ((h.run _ _ _).1 h2) (h.names.1 h3) ?_
    rw [← h.num, ← h.num]
    exact ih _ ⟨rfl, fun _ _ _ _ => Iff.rfl⟩

theorem names_iso {T sub sub' : List Nat} (h : Names T sub) (h' : Names T sub') : Iso sub sub' := by
  have hf : ∀ sub sub', Names T sub → Names T sub' → ∀ a b, a < num T T.length → b < num T T.length → ltr sub a < ltr sub b → ltr sub' a < ltr sub' b := by
    intro sub sub' h h' a b ha hb hlt
    obtain ⟨p, hp, rfl, _⟩ := num_surj ha
    obtain ⟨q, hq, rfl, _⟩ := num_surj hb
    have g := h.2 p q hp hq
    have g' := h'.2 p q hp hq
    have l1 := h.1
    have l2 := h'.1
    have hdr := g.2 _ _ (getD_some sub _ 0 (by omega)) (getD_some sub _ 0 (by omega)) hlt
    rcases Nat.lt_trichotomy (ltr sub' (num T p)) (ltr sub' (num T q)) with hc | hc | hc
    · exact hc
    · have h1 := g'.1.1 ((get_of_ltr (by omega) (by omega)).2 hc)
      have h2 := (get_of_ltr (by omega) (by omega)).1 (g.1.2 h1)
      omega
    · have := (h'.2 q p hq hp).2 _ _ (getD_some sub' _ 0 (by omega)) (getD_some sub' _ 0 (by omega)) hc
      exact absurd (List.lt_trans hdr this) (List.lt_irrefl _)
  refine ⟨h.1.trans h'.1.symm, fun a b ha hb => ?_⟩
  rw [h.1] at ha hb
  exact ⟨hf _ _ h h' a b ha hb, hf _ _ h' h a b ha hb⟩

/-! ### The construction -/

theorem sais_swapped : ∀ (m : Nat) (str : List Nat) (mx : Nat), str.length = m → Text str mx →
    ∃ sa, sais str mx = some sa ∧ sa.Perm (List.range str.length) ∧ sa[0]? = some (str.length - 1) ∧
      ∀ i j, Swapped str i j ↔ [i, j].Sublist sa ∧ str.drop j < str.drop i := by
  intro m
  induction m using Nat.strongRecOn with
  | ind m ih =>
    intro str mx hm hT
    obtain ⟨sa, nm, ch, e1, e2, hch, hp, hk, h0, hle, hz, hlt, heq, hsharp⟩ := inducedSort_sharp hT
    have hcl : classified str = some (classify str) := by rw [classified, if_neg hT.ne_nil]
    have hsm := hT.small
    have hguard := sub_length hT.ne_nil nm
    have hlf := lms_filter hT
    have hsort : (findLMSs (classify str)).Pairwise (· < ·) := lmsFrom_sorted _ _
    have hll : (findLMSs (classify str)).length = num str str.length := by rw [hlf]; rfl
    have hnth : ∀ a, a < (findLMSs (classify str)).length → Valley str ((findLMSs (classify str)).getD a 0) ∧ num str ((findLMSs (classify str)).getD a 0) = a := by
      intro a ha
      obtain ⟨p, h1, h2, h3⟩ := num_surj (T := str) (a := a) (by omega)
      rw [← hlf, getD_some _ a 0 ha] at h3
      rw [Option.some.inj h3]
      exact ⟨h1, h2⟩
    have hnum : ∀ p, Valley str p → (findLMSs (classify str)).getD (num str p) 0 = p := by
      intro p hv
      have := nth_num hv
      rw [← hlf, getD_some _ _ 0 (by have := num_lt hv; omega)] at this
      exact Option.some.inj this
    have hkn : ∀ p q, Valley str p → Valley str q → nm p = nm q → keyc str true p = keyc str true q := by
      intro p q hv hv' hn
      rw [← valley_iff hT] at hv hv'
      apply Decidable.byContradiction
      intro hc
      by_cases hl : keyc str true q < keyc str true p
      · have := hlt _ _ hv' hv hl
        omega
      · have := hlt _ _ hv hv' (list_lt_of hl hc)
        omega
    by_cases hs : (findLMSs (classify str)).length - 1 - ch = 0
    · have hd : Distinct str := by
        intro i j e hi hj hij hr
        have := hsharp i j ((valley_iff hT _).2 hi) ((valley_iff hT _).2 hj) hij (key_of_run hT hr).1
        omega
      obtain ⟨sa', e1', hp', hk', _⟩ := induce_ranked (mx := mx) hT id none (List.Perm.refl _) (by
        refine (List.Pairwise.and_mem.1 (List.pairwise_lt_range (n := (findLMSs (classify str)).length))).imp ?_
        rintro a b ⟨ha, hb, hab⟩
        rw [List.mem_range] at ha hb
        have h1 := List.pairwise_iff_getElem.1 hsort a b ha hb hab
        have hg : ∀ x (hx : x < (findLMSs (classify str)).length), (findLMSs (classify str)).getD x 0 = (findLMSs (classify str))[x] := by
          intro x hx
          have := getD_some (findLMSs (classify str)) x 0 hx
          rw [List.getElem?_eq_getElem hx] at this
          exact (Option.some.inj this).symm
        rw [hg a ha, hg b hb]
        exact h1)
      rw [e1] at e1'
      obtain rfl := Option.some.inj e1'
      refine ⟨sa, ?_, hp, h0, ?_⟩
      · rw [sais]
        simp only [hcl, Option.bind_eq_bind, Option.bind_some, e2, if_pos hs, Option.pure_def]
      · intro i j
        rw [ranked_wrong hT hp hk hk' (fun p q _ _ h => h)]
        constructor
        · intro h
          cases h with
          | flat h1 h2 h3 h4 =>
            refine ⟨_, h2, ?_, h4⟩
            simp only [id]
            omega
          | deep h1 => exact absurd hd h1
        · rintro ⟨e, h1, h2, h3⟩
          simp only [id] at h2
          exact .flat hd h1 (by omega) h3
    · have hT' := hT.sub (ch := ch) (by omega) hle hz hlt
      have hnd : ¬ Distinct str := by
        intro hd
        have hnd : ((findLMSs (classify str)).map nm).Nodup := by
          rw [List.Nodup, List.pairwise_map]
          refine (List.Pairwise.and_mem.1 hsort).imp ?_
          rintro a b ⟨ha, hb, hab⟩ hn
          have ha' := (valley_iff hT _).1 ((mem_lms str a).1 ha)
          have hb' := (valley_iff hT _).1 ((mem_lms str b).1 hb)
          obtain ⟨e, _, hr⟩ := run_of_key hT (by omega) ha'.2.1 hb'.2.1 (hkn a b ha' hb' hn)
          exact hd a b e ha' hb' (by omega) hr
        have := nodup_bound (ch + 1) _ hnd (by
          intro x hx
          obtain ⟨i, hi, rfl⟩ := List.mem_map.1 hx
          have := hle i ((mem_lms str i).1 hi)
          omega)
        rw [List.length_map] at this
        omega
      have hget : ∀ p, Valley str p → ((findLMSs (classify str)).map nm)[num str p]? = some (nm p) := by
        intro p hv
        rw [List.getElem?_map, hlf, nth_num hv]
        rfl
      have hnames : Names str ((findLMSs (classify str)).map nm) := by
        refine ⟨by rw [List.length_map, hll], ?_⟩
        intro i j hi hj
        rw [hget i hi, hget j hj]
        refine ⟨?_, ?_⟩
        · rw [Option.some.injEq]
          constructor
          · intro hn
            by_cases hij : i = j
            · exact .inl hij
            · obtain ⟨e, _, hr⟩ := run_of_key hT hij hi.2.1 hj.2.1 (hkn i j hi hj hn)
              exact .inr ⟨e, hr⟩
          · rintro (rfl | ⟨e, hr⟩)
            · rfl
            · exact heq _ _ ((valley_iff hT _).2 hi) ((valley_iff hT _).2 hj) (key_of_run hT hr).1
        · intro x y hx hy hxy
          obtain rfl := Option.some.inj hx
          obtain rfl := Option.some.inj hy
          refine drop_of_key hT _ i j true rfl hi.2.1 hj.2.1 (list_lt_of ?_ ?_)
          · intro hc
            have := hlt _ _ ((valley_iff hT _).2 hj) ((valley_iff hT _).2 hi) hc
            omega
          · intro hc
            have := heq _ _ ((valley_iff hT _).2 hi) ((valley_iff hT _).2 hj) hc
            omega
      have hsub := sub_suffix hT hlt heq
      obtain ⟨ssa, e3, hp3, _, hw⟩ := ih _ (by rw [← hm]; exact hguard) _ ch rfl hT'
      rw [List.length_map] at hp3 hguard
      have hsnd : ssa.Nodup := hp3.nodup_iff.2 List.nodup_range
      have hperm : ((some ssa).getD (List.range (findLMSs (classify str)).length)).Perm (List.range (findLMSs (classify str)).length) := hp3
      obtain ⟨sa1, e4, hp4, hk4, h04⟩ := induce_keys (mx := mx) hT (some ssa) hperm
      obtain ⟨sa2, e5, hp5, hk5, h05⟩ := induce_ranked (mx := mx) hT (fun p => ssa.idxOf (num str p)) (some ssa) hperm (by
        rw [Option.getD_some]
        refine (List.Pairwise.and_mem.1 (pair_idx hsnd)).imp ?_
        rintro a b ⟨ha, hb, hab⟩
        rw [hp3.mem_iff, List.mem_range] at ha hb
        simp only [(hnth a ha).2, (hnth b hb).2]
        exact hab)
      rw [e4] at e5
      obtain rfl := Option.some.inj e5
      have hmem : ∀ p, Valley str p → num str p ∈ ssa := by
        intro p hv
        rw [hp3.mem_iff, List.mem_range, hll]
        exact num_lt hv
      refine ⟨sa1, ?_, hp4, h04, ?_⟩
      · have hmx : ((findLMSs (classify str)).length + (2 ^ 65 - 1 - ((findLMSs (classify str)).length - 1 - ch))) % 2 ^ 64 = ch := by
          rw [show (findLMSs (classify str)).length + (2 ^ 65 - 1 - ((findLMSs (classify str)).length - 1 - ch)) = ch + 2 ^ 64 + 2 ^ 64 by omega,
            Nat.add_mod_right, Nat.add_mod_right, Nat.mod_eq_of_lt (by omega)]
        rw [sais]
        simp only [hcl, Option.bind_eq_bind, Option.bind_some, e2, if_neg hs, List.length_map, dif_pos hguard, hmx, e3, e4]
      · intro i j
        rw [ranked_wrong hT hp4 hk4 hk5 (fun p q hv hv' h => num_inj hv hv' (by
          have h1 := List.getElem_idxOf (List.idxOf_lt_length_of_mem (hmem p hv))
          have h2 := List.getElem_idxOf (List.idxOf_lt_length_of_mem (hmem q hv'))
          rw [← h1, ← h2]
          congr 1))]
        have hdrop : ∀ e, Run str i j e → (((findLMSs (classify str)).map nm).drop (num str (j + e)) < ((findLMSs (classify str)).map nm).drop (num str (i + e)) ↔
            str.drop j < str.drop i) := by
          intro e hr
          have hvi := hr.2.1
          have hvj := hr.2.2.1
          rw [← run_drop hT hr]
          have g : ∀ p q, Valley str p → Valley str q → ((findLMSs (classify str)).map nm).drop (num str p) < ((findLMSs (classify str)).map nm).drop (num str q) →
              str.drop p < str.drop q := by
            intro p q hp hq h
            have := hsub _ (num str p) (num str q) rfl (by rw [hll]; exact num_lt hp) (by rw [hll]; exact num_lt hq) h
            rwa [hnum p hp, hnum q hq] at this
          constructor
          · exact g _ _ hvj hvi
          · intro h
            apply list_lt_of
            · intro hc
              exact List.lt_irrefl _ (List.lt_trans h (g _ _ hvi hvj hc))
            · refine drop_ne (by rw [List.length_map, hll]; exact num_lt hvj) (fun hc => ?_)
              rw [num_inj hvj hvi hc] at h
              exact List.lt_irrefl _ h
        have hidx : ∀ p q, Valley str p → Valley str q → ([num str p, num str q].Sublist ssa ↔ ssa.idxOf (num str p) < ssa.idxOf (num str q)) := by
          intro p q hp hq
          have hpw := pair_idx hsnd
          rw [List.pairwise_iff_forall_sublist] at hpw
          constructor
          · intro h
            exact hpw h
          · intro h
            rcases pair_total (hmem p hp) (hmem q hq) (fun hc => by rw [hc] at h; exact Nat.lt_irrefl _ h) with h' | h'
            · exact h'
            · have := hpw h'
              omega
        constructor
        · intro h
          cases h with
          | flat h1 => exact absurd h1 hnd
          | deep h1 h2 h3 h4 =>
            obtain ⟨h5, h6⟩ := (hw _ _).1 (Iso.swapped h4 _ (names_iso h3 hnames))
            exact ⟨_, h2, (hidx _ _ h2.2.1 h2.2.2.1).1 h5, (hdrop _ h2).1 h6⟩
        · rintro ⟨e, h1, h2, h3⟩
          exact .deep hnd h1 hnames ((hw _ _).2 ⟨(hidx _ _ h1.2.1 h1.2.2.1).2 h2, (hdrop _ h1).2 h3⟩)

end Verif.SA
