/-
The order of the names and the order of the LMS suffixes; exactness of `Sais_`.
-/
import Verif.SA.Exact

namespace Verif.SA

theorem lms_next {str : List Nat} {a p : Nat} (ha : a + 1 < (findLMSs (classify str)).length)
    (hp : IsLms str p) (hlt : (findLMSs (classify str)).getD a 0 < p)
    (hno : ∀ q, (findLMSs (classify str)).getD a 0 < q → q < p → ¬ IsLms str q) : (findLMSs (classify str)).getD (a + 1) 0 = p := by
  have hs : (findLMSs (classify str)).Pairwise (· < ·) := lmsFrom_sorted _ _
  rw [List.pairwise_iff_getElem] at hs
  obtain ⟨c, hc, e⟩ := List.mem_iff_getElem.1 ((mem_lms str p).2 hp)
  have hg : ∀ x (hx : x < (findLMSs (classify str)).length), (findLMSs (classify str)).getD x 0 = (findLMSs (classify str))[x] := by
    intro x hx
    have := getD_some (findLMSs (classify str)) x 0 hx
    rw [List.getElem?_eq_getElem hx] at this
    exact (Option.some.inj this).symm
  rw [hg a (by omega)] at hlt hno
  rw [hg (a + 1) ha]
  have hac : a < c := by
    apply Decidable.byContradiction
    intro hcon
    by_cases hac : a = c
    · subst hac; omega
    · have := hs c a hc (by omega) (by omega)
      omega
  by_cases hca : c = a + 1
  · subst hca; exact e
  · exfalso
    have h1 := hs a (a + 1) (by omega) ha (by omega)
    have h2 := hs (a + 1) c ha hc (by omega)
    exact hno _ h1 (by omega) ((mem_lms str _).1 (List.getElem_mem ha))

/-- Equal keys reach the next LMS positions at the same distance. -/
theorem key_reach {str : List Nat} {mx : Nat} (hT : Text str mx) {a b : Nat}
    (hK : keyc str true ((findLMSs (classify str)).getD a 0) = keyc str true ((findLMSs (classify str)).getD b 0))
    (ha1 : a + 1 < (findLMSs (classify str)).length) (hb1 : b + 1 < (findLMSs (classify str)).length) :
    ∃ e, (keyc str true ((findLMSs (classify str)).getD a 0)).length = e + 1 ∧ 0 < e ∧
      (findLMSs (classify str)).getD (a + 1) 0 = (findLMSs (classify str)).getD a 0 + e ∧
      (findLMSs (classify str)).getD (b + 1) 0 = (findLMSs (classify str)).getD b 0 + e := by
  obtain ⟨l, hl, hli⟩ := lms_last hT
  have hlen : (findLMSs (classify str)).length = l.length + 1 := by rw [hl]; simp
  have hla : IsLms str ((findLMSs (classify str)).getD a 0) := (mem_lms str _).1 (List.mem_of_getElem? (getD_some _ a 0 (by omega)))
  have hlb : IsLms str ((findLMSs (classify str)).getD b 0) := (mem_lms str _).1 (List.mem_of_getElem? (getD_some _ b 0 (by omega)))
  have hbefore : ∀ x, x + 1 < (findLMSs (classify str)).length → (findLMSs (classify str)).getD x 0 + 1 < str.length := by
    intro x hx
    have hx' : x < l.length := by omega
    apply hli
    rw [hl, List.getD_eq_getElem?_getD, List.getElem?_append_left hx', List.getElem?_eq_getElem hx']
    exact List.getElem_mem hx'
  obtain ⟨e, he1, he2, he3, he4, he5⟩ := keyc_end _ ((findLMSs (classify str)).getD a 0) true rfl hla.2.1
  obtain ⟨e', he1', he2', he3', he4', he5'⟩ := keyc_end _ ((findLMSs (classify str)).getD b 0) true rfl hlb.2.1
  have hee : e' = e := by
    rw [hK] at he1
    omega
  subst hee
  have hab := hbefore a ha1
  have hbb := hbefore b hb1
  have hpos : 0 < e' := by
    apply Decidable.byContradiction
    intro hc
    rcases he5 (by omega) with h3 | h3
    · cases h3.1
    · omega
  have hlast := hT.last_lms
  refine ⟨e', he1, hpos, ?_, ?_⟩
  · apply lms_next ha1 _ (by omega) he3
    rcases he4 hpos with h3 | h3
    · exact h3
    · rw [show (findLMSs (classify str)).getD a 0 + e' = str.length - 1 by omega]
      exact hlast
  · apply lms_next hb1 _ (by omega) he3'
    rcases he4' hpos with h3 | h3
    · exact h3
    · rw [show (findLMSs (classify str)).getD b 0 + e' = str.length - 1 by omega]
      exact hlast

/-- Equal keys have equal letters. -/
theorem keyc_letters {str : List Nat} : ∀ (m i j : Nat) (cur : Bool), str.length - i = m → i < str.length → j < str.length → keyc str cur i = keyc str cur j →
    ∀ e, (keyc str cur i).length = e + 1 → ∀ t, t ≤ e → ltr str (i + t) = ltr str (j + t) := by
  intro m
  induction m with
  | zero => intro i j cur hm h; omega
  | succ m ih =>
    intro i j cur hm hi hj hk e he t ht
    obtain ⟨a, ha⟩ := keyc_cons str cur i
    obtain ⟨b, hb⟩ := keyc_cons str cur j
    have hc : code str i = code str j := by
      rw [ha, hb] at hk
      exact (List.cons.inj hk).1
    have hce := code_eq.1 hc
    cases t with
    | zero => exact hce.1
    | succ t =>
      have hnext : ∀ x, 1 < (keyc str cur x).length → x + 1 < str.length ∧ (cur = true ∨ typ str x = false) := by
        intro x hx
        constructor
        · apply Decidable.byContradiction
          intro hcc
          rw [keyc_last hcc] at hx
          simp at hx
        · apply Decidable.byContradiction
          intro hcc
          have hcf : cur = false := by
            cases cur
            · rfl
            · exact absurd (Or.inl rfl) hcc
          have htt : typ str x = true := by
            cases ht : typ str x
            · exact absurd (Or.inr ht) hcc
            · rfl
          rw [hcf, keyc_stop htt] at hx
          simp at hx
      obtain ⟨hin, hs⟩ := hnext i (by omega)
      obtain ⟨hjn, hs'⟩ := hnext j (by rw [← hk]; omega)
      rw [keyc_next hin hs, List.length_cons] at he
      rw [keyc_next hin hs, keyc_next hjn hs', ← hce.2] at hk
      have := ih (i + 1) (j + 1) (typ str i) (by omega) hin hjn (List.cons.inj hk).2 (e - 1) (by omega) t (by omega)
      rw [show i + (t + 1) = i + 1 + t by omega, show j + (t + 1) = j + 1 + t by omega]
      exact this

/-- The order of the suffixes of the string of names is the order of the LMS suffixes. -/
theorem sub_suffix {str : List Nat} {mx : Nat} (hT : Text str mx) {nm : Nat → Nat}
    (hlt : ∀ i j, IsLms str i → IsLms str j → keyc str true i < keyc str true j → nm i < nm j)
    (heq : ∀ i j, IsLms str i → IsLms str j → keyc str true i = keyc str true j → nm i = nm j) :
    ∀ (m a b : Nat), (findLMSs (classify str)).length - a = m → a < (findLMSs (classify str)).length → b < (findLMSs (classify str)).length →
      ((findLMSs (classify str)).map nm).drop a < ((findLMSs (classify str)).map nm).drop b →
      str.drop ((findLMSs (classify str)).getD a 0) < str.drop ((findLMSs (classify str)).getD b 0) := by
  intro m
  induction m with
  | zero => intro a b hm ha; omega
  | succ m ih =>
    intro a b hm ha hb h
    have h2 := hT.two
    have hltr : ∀ x, x < (findLMSs (classify str)).length → ltr ((findLMSs (classify str)).map nm) x = nm ((findLMSs (classify str)).getD x 0) := by
      intro x hx
      rw [ltr, List.getD_eq_getElem?_getD, List.getElem?_map, getD_some _ x 0 hx]
      rfl
    have hla : IsLms str ((findLMSs (classify str)).getD a 0) := (mem_lms str _).1 (List.mem_of_getElem? (getD_some _ a 0 ha))
    have hlb : IsLms str ((findLMSs (classify str)).getD b 0) := (mem_lms str _).1 (List.mem_of_getElem? (getD_some _ b 0 hb))
    rw [drop_cons (i := a) (by rw [List.length_map]; exact ha), drop_cons (i := b) (by rw [List.length_map]; exact hb), hltr a ha, hltr b hb,
      List.cons_lt_cons_iff] at h
    rcases h with h | ⟨he, h⟩
    · apply drop_of_key hT _ _ _ true rfl hla.2.1 hlb.2.1
      apply list_lt_of
      · intro hc
        have := hlt _ _ hlb hla hc
        omega
      · intro hc
        have := heq _ _ hla hlb hc
        omega
    · have hK : keyc str true ((findLMSs (classify str)).getD a 0) = keyc str true ((findLMSs (classify str)).getD b 0) := by
        apply Decidable.byContradiction
        intro hc
        by_cases hcl : keyc str true ((findLMSs (classify str)).getD b 0) < keyc str true ((findLMSs (classify str)).getD a 0)
        · have := hlt _ _ hlb hla hcl
          omega
        · have := hlt _ _ hla hlb (list_lt_of hcl hc)
          omega
      obtain ⟨l, hl, hli⟩ := lms_last hT
      have hlen : (findLMSs (classify str)).length = l.length + 1 := by rw [hl]; simp
      have hbefore : ∀ x, x + 1 < (findLMSs (classify str)).length → (findLMSs (classify str)).getD x 0 + 1 < str.length := by
        intro x hx
        have hx' : x < l.length := by omega
        apply hli
        rw [hl, List.getD_eq_getElem?_getD, List.getElem?_append_left hx', List.getElem?_eq_getElem hx']
        exact List.getElem_mem hx'
      have hat : ∀ x, x + 1 = (findLMSs (classify str)).length → (findLMSs (classify str)).getD x 0 = str.length - 1 := by
        intro x hx
        have hx' : x = l.length := by omega
        rw [hl, hx']
        simp
      have hb1 : b + 1 < (findLMSs (classify str)).length := by
        apply Decidable.byContradiction
        intro hc
        rw [List.drop_eq_nil_of_le (as := (findLMSs (classify str)).map nm) (i := b + 1) (by rw [List.length_map]; omega)] at h
        simp at h
      have ha1 : a + 1 < (findLMSs (classify str)).length := by
        apply Decidable.byContradiction
        intro hc
        have h3 := hT.key_zero (hbefore b hb1)
        rw [← hat a (by omega), hK] at h3
        exact List.lt_irrefl _ h3
      obtain ⟨e', he1, _, hna, hnb⟩ := key_reach hT hK ha1 hb1
      apply drop_of_keyEq _ _ _ true rfl hla.2.1 hlb.2.1 hK e' he1
      rw [← hna, ← hnb]
      exact ih (a + 1) (b + 1) (by omega) ha1 hb1 h

theorem drop_ne {str : List Nat} {i j : Nat} (hi : i < str.length) (hij : i ≠ j) : str.drop i ≠ str.drop j := by
  intro h
  have := congrArg List.length h
  simp only [List.length_drop] at this
  omega

/-- `Induce_` with LMS positions that are sorted where it matters: those with the same letter and the same letter before. -/
theorem induce_good {str : List Nat} {mx : Nat} (hT : Text str mx) (order : Option (List Nat))
    (hperm : (order.getD (List.range (findLMSs (classify str)).length)).Perm (List.range (findLMSs (classify str)).length))
    (hpw : ((order.getD (List.range (findLMSs (classify str)).length)).map (fun i => (findLMSs (classify str)).getD i 0)).Pairwise
      (fun i j => ltr str i = ltr str j → ltr str (i - 1) = ltr str (j - 1) → str.drop i < str.drop j)) :
    ∃ sa, induce mx str (classify str) (findLMSs (classify str)) order = some sa ∧ sa.Perm (List.range str.length) ∧
      sa.Pairwise (fun i j => str.drop i < str.drop j) ∧ sa[0]? = some (str.length - 1) := by
  refine induce_spec hT
    (R1 := fun i j => str.drop i < str.drop j ∨ (IsLms str i ∧ IsLms str j ∧ ltr str (i - 1) ≠ ltr str (j - 1)))
    (fun _ _ hi hj h => Or.inl (drop_lt hi hj h)) (fun i j hi hj h h1 h2 => Or.inl (drop_LS hT _ i j rfl hi hj h h1 h2))
    ?_ (fun _ _ hi hj h => drop_lt hi hj h)
    (fun i j hi hj h h1 h2 => drop_LS hT _ i j rfl hi hj h h1 h2) (fun i j _ _ hi hj h h' => drop_step (by omega) (by omega) h h')
    ?_ order hperm ?_
  · intro i j _ _ hi hj h h'
    rcases h' with h' | ⟨_, _, h'⟩
    · exact Or.inl (drop_step (by omega) (by omega) h h')
    · exact absurd h h'
  · intro i j _ _ hi _ h
    rcases h with h | ⟨h, _⟩
    · exact h
    · rw [h.2.2.2] at hi
      cases hi
  · rw [List.pairwise_map] at hpw ⊢
    refine (List.Pairwise.and_mem.1 hpw).imp ?_
    rintro a b ⟨ha, hb, h⟩ hl
    have hlms : ∀ x, x ∈ order.getD (List.range (findLMSs (classify str)).length) → IsLms str ((findLMSs (classify str)).getD x 0) := by
      intro x hx
      rw [hperm.mem_iff, List.mem_range] at hx
      exact (mem_lms str _).1 (List.mem_of_getElem? (getD_some _ x 0 hx))
    by_cases hp : ltr str ((findLMSs (classify str)).getD a 0 - 1) = ltr str ((findLMSs (classify str)).getD b 0 - 1)
    · exact Or.inl (h hl hp)
    · exact Or.inr ⟨hlms a ha, hlms b hb, hp⟩

/-- The condition on the text: LMS positions with the same letter and the same letter before are in suffix order from left to right. -/
def LmsOrdered (str : List Nat) : Prop :=
  ∀ i j, IsLms str i → IsLms str j → i < j → ltr str i = ltr str j → ltr str (i - 1) = ltr str (j - 1) → str.drop i < str.drop j

/-- The condition for `Sais_` to be exact: the innermost text has its LMS positions in order. -/
inductive Good : List Nat → Nat → Prop
  | inner {str : List Nat} {mx : Nat} : LmsOrdered str → Good str mx
  | outer {str : List Nat} {mx : Nat} {sa sub : List Nat} {shared : Nat} :
    inducedSort mx str (classify str) (findLMSs (classify str)) = some (sa, sub, shared) → shared ≠ 0 →
    Good sub ((findLMSs (classify str)).length - 1 - shared) → Good str mx

theorem sais_exact : ∀ (m : Nat) (str : List Nat) (mx : Nat), str.length = m → Text str mx → Good str mx →
    ∃ sa, sais str mx = some sa ∧ sa.Perm (List.range str.length) ∧ sa.Pairwise (fun i j => str.drop i < str.drop j) ∧
      sa[0]? = some (str.length - 1) := by
  intro m
  induction m using Nat.strongRecOn with
  | ind m ih =>
    intro str mx hm hT hgood
    obtain ⟨sa, nm, ch, e1, e2, hch, hp, hk, h0, hle, hz, hlt, heq⟩ := inducedSort_spec hT
    have hcl : classified str = some (classify str) := by rw [classified, if_neg hT.ne_nil]
    have hsm := hT.small
    have hguard := sub_length hT.ne_nil nm
    have hsort : (findLMSs (classify str)).Pairwise (· < ·) := lmsFrom_sorted _ _
    have hgd : ∀ x (hx : x < (findLMSs (classify str)).length), (findLMSs (classify str)).getD x 0 = (findLMSs (classify str))[x] := by
      intro x hx
      have := getD_some (findLMSs (classify str)) x 0 hx
      rw [List.getElem?_eq_getElem hx] at this
      exact (Option.some.inj this).symm
    have hlms : ∀ x, x < (findLMSs (classify str)).length → IsLms str ((findLMSs (classify str)).getD x 0) :=
      fun x hx => (mem_lms str _).1 (List.mem_of_getElem? (getD_some _ x 0 hx))
    have hltr : ∀ x, x < (findLMSs (classify str)).length →
        ltr ((findLMSs (classify str)).map nm) x = nm ((findLMSs (classify str)).getD x 0) := by
      intro x hx
      rw [ltr, List.getD_eq_getElem?_getD, List.getElem?_map, getD_some _ x 0 hx]
      rfl
    have hnmK : ∀ a b, a < (findLMSs (classify str)).length → b < (findLMSs (classify str)).length →
        nm ((findLMSs (classify str)).getD a 0) = nm ((findLMSs (classify str)).getD b 0) →
        keyc str true ((findLMSs (classify str)).getD a 0) = keyc str true ((findLMSs (classify str)).getD b 0) := by
      intro a b ha' hb' hl
      apply Decidable.byContradiction
      intro hc
      by_cases hcl : keyc str true ((findLMSs (classify str)).getD b 0) < keyc str true ((findLMSs (classify str)).getD a 0)
      · have := hlt _ _ (hlms b hb') (hlms a ha') hcl
        omega
      · have := hlt _ _ (hlms a ha') (hlms b hb') (list_lt_of hcl hc)
        omega
    have hsub := sub_suffix hT hlt heq
    by_cases hs : (findLMSs (classify str)).length - 1 - ch = 0
    · have hord : LmsOrdered str := by
        cases hgood with
        | inner h => exact h
        | outer e hne _ =>
          rw [e2] at e
          cases e
          exact absurd hs hne
      obtain ⟨sa', e1', hp', hk', h0'⟩ := induce_good (mx := mx) hT none (List.Perm.refl _) (by
        rw [List.pairwise_map]
        refine (List.Pairwise.and_mem.1 (List.pairwise_lt_range (n := (findLMSs (classify str)).length))).imp ?_
        rintro a b ⟨ha, hb, hab⟩ hl
        rw [List.mem_range] at ha hb
        refine hord _ _ (hlms a ha) (hlms b hb) ?_ hl
        rw [hgd a ha, hgd b hb]
        exact List.pairwise_iff_getElem.1 hsort a b ha hb hab)
      rw [e1] at e1'
      cases e1'
      refine ⟨sa, ?_, hp, hk', h0⟩
      rw [sais]
      simp only [hcl, Option.bind_eq_bind, Option.bind_some, e2, if_pos hs, Option.pure_def]
    · have hT' := hT.sub (ch := ch) (by omega) hle hz hlt
      have hgood' : Good ((findLMSs (classify str)).map nm) ch := by
        cases hgood with
        | outer e hne h =>
          rw [e2] at e
          cases e
          rw [show (findLMSs (classify str)).length - 1 - ((findLMSs (classify str)).length - 1 - ch) = ch by omega] at h
          exact h
        | inner hord =>
          -- the condition carries over to the names
          apply Good.inner
          intro a b ha hb hab hl hl0
          have ha0 := ha.1
          have ha' : a < (findLMSs (classify str)).length := by have := ha.2.1; rw [List.length_map] at this; exact this
          have hb' : b < (findLMSs (classify str)).length := by have := hb.2.1; rw [List.length_map] at this; exact this
          rw [hltr a ha', hltr b hb'] at hl
          rw [hltr (a - 1) (by omega), hltr (b - 1) (by omega)] at hl0
          have hletter : ltr str ((findLMSs (classify str)).getD a 0) = ltr str ((findLMSs (classify str)).getD b 0) := by
            obtain ⟨l1, hl1⟩ := keyc_cons str true ((findLMSs (classify str)).getD a 0)
            obtain ⟨l2, hl2⟩ := keyc_cons str true ((findLMSs (classify str)).getD b 0)
            have hK := hnmK a b ha' hb' hl
            rw [hl1, hl2] at hK
            exact (code_eq.1 (List.cons.inj hK).1).1
          -- the letters before
          have hbefore : ltr str ((findLMSs (classify str)).getD a 0 - 1) = ltr str ((findLMSs (classify str)).getD b 0 - 1) := by
            have hK := hnmK (a - 1) (b - 1) (by omega) (by omega) hl0
            have hA := hlms (a - 1) (by omega)
            have hB := hlms (b - 1) (by omega)
            obtain ⟨e, he1, hpos, hea, heb⟩ := key_reach hT hK (a := a - 1) (b := b - 1) (by omega) (by omega)
            have h3 := keyc_letters _ _ _ true rfl hA.2.1 hB.2.1 hK e he1 (e - 1) (by omega)
            rw [show a - 1 + 1 = a by omega] at hea
            rw [show b - 1 + 1 = b by omega] at heb
            rw [hea, heb, show (findLMSs (classify str)).getD (a - 1) 0 + e - 1 = (findLMSs (classify str)).getD (a - 1) 0 + (e - 1) by omega,
              show (findLMSs (classify str)).getD (b - 1) 0 + e - 1 = (findLMSs (classify str)).getD (b - 1) 0 + (e - 1) by omega]
            exact h3
          have hpos : (findLMSs (classify str)).getD a 0 < (findLMSs (classify str)).getD b 0 := by
            rw [hgd a ha', hgd b hb']
            exact List.pairwise_iff_getElem.1 hsort a b ha' hb' hab
          have h1 := hord _ _ (hlms a ha') (hlms b hb') hpos hletter hbefore
          apply list_lt_of
          · intro hc
            have h3 := hsub _ b a rfl hb' ha' hc
            exact List.lt_irrefl _ (List.lt_trans h1 h3)
          · exact drop_ne (by rw [List.length_map]; exact ha') (by omega)
      obtain ⟨ssa, e3, hp3, hk3, _⟩ := ih _ (by rw [← hm]; exact hguard) _ ch rfl hT' hgood'
      rw [List.length_map] at hp3 hguard
      obtain ⟨sa', e4, hp4, hk4, h04⟩ := induce_exact (mx := mx) hT (some ssa) (by simpa using hp3) (by
        rw [Option.getD_some, List.pairwise_map]
        refine (List.Pairwise.and_mem.1 hk3).imp ?_
        rintro a b ⟨ha, hb, hab⟩ _
        rw [hp3.mem_iff, List.mem_range] at ha hb
        exact hsub _ a b rfl ha hb hab)
      refine ⟨sa', ?_, hp4, hk4, h04⟩
      have hmx : ((findLMSs (classify str)).length + (2 ^ 65 - 1 - ((findLMSs (classify str)).length - 1 - ch))) % 2 ^ 64 = ch := by
        rw [show (findLMSs (classify str)).length + (2 ^ 65 - 1 - ((findLMSs (classify str)).length - 1 - ch)) = ch + 2 ^ 64 + 2 ^ 64 by omega,
          Nat.add_mod_right, Nat.add_mod_right, Nat.mod_eq_of_lt (by omega)]
      rw [sais]
      simp only [hcl, Option.bind_eq_bind, Option.bind_some, e2, if_neg hs, List.length_map, dif_pos hguard, hmx, e3, e4]

/-- Two entries in the wrong order have the same letters up to the next LMS position. -/
theorem keys_local {str : List Nat} {mx : Nat} (hT : Text str mx) {i j : Nat} (hi : i < str.length) (hj : j < str.length) (hij : i ≠ j)
    (hk : ¬ keyc str true j < keyc str true i) (hlt : str.drop j < str.drop i) :
    ∃ e, 0 < e ∧ IsLms str (i + e) ∧ IsLms str (j + e) ∧ i + e + 1 < str.length ∧ j + e + 1 < str.length ∧
      ∀ t, t ≤ e → ltr str (i + t) = ltr str (j + t) := by
  have hK : keyc str true i = keyc str true j := by
    apply Decidable.byContradiction
    intro hc
    have := drop_of_key hT _ i j true rfl hi hj (list_lt_of hk hc)
    exact List.lt_irrefl _ (List.lt_trans hlt this)
  obtain ⟨e, he1, he2, _, he4, he5⟩ := keyc_end _ i true rfl hi
  obtain ⟨e', he1', he2', _, he4', he5'⟩ := keyc_end _ j true rfl hj
  have hee : e' = e := by rw [hK] at he1; omega
  subst hee
  have hl := keyc_letters _ i j true rfl hi hj hK e' he1
  -- neither end is the terminator
  have hle := hl e' (Nat.le_refl _)
  have hi' : i + e' + 1 ≠ str.length := by
    intro hc
    have h1 := (hT.zero_iff he2).2 (by omega)
    have h2 := (hT.zero_iff he2').1 (by omega)
    omega
  have hj' : j + e' + 1 ≠ str.length := by
    intro hc
    have h1 := (hT.zero_iff he2').2 (by omega)
    have h2 := (hT.zero_iff he2).1 (by omega)
    omega
  have hpos : 0 < e' := by
    apply Decidable.byContradiction
    intro hc
    rcases he5 (by omega) with h3 | h3
    · cases h3.1
    · omega
  refine ⟨e', hpos, ?_, ?_, by omega, by omega, hl⟩
  · exact (he4 hpos).resolve_right hi'
  · exact (he4' hpos).resolve_right hj'

end Verif.SA
