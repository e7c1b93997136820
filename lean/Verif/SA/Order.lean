/-
The exact result of `Induce_` for any order of the LMS positions.
-/
import Verif.SA.Conv
import Verif.SA.Build
import Verif.SA.Swapped

namespace Verif.SA

/-- `keyc` with the rank of the LMS position where it ends. -/
def keyr (str : List Nat) (rk : Nat → Nat) (cur : Bool) (i : Nat) : List Nat :=
  if _h : i + 1 < str.length then
    if !cur && typ str i then [code str i, rk i] else code str i :: keyr str rk (typ str i) (i + 1)
  else [code str i, rk i]
termination_by str.length - i

theorem keyr_last {str : List Nat} {rk : Nat → Nat} {i : Nat} (h : ¬ i + 1 < str.length) (cur : Bool) : keyr str rk cur i = [code str i, rk i] := by
  rw [keyr, dif_neg h]

theorem keyr_stop {str : List Nat} {rk : Nat → Nat} {i : Nat} (h : typ str i = true) : keyr str rk false i = [code str i, rk i] := by
  rw [keyr]
  split
  · rw [h]; rfl
  · rfl

theorem keyr_next {str : List Nat} {rk : Nat → Nat} {cur : Bool} {i : Nat} (h : i + 1 < str.length) (hc : cur = true ∨ typ str i = false) :
    keyr str rk cur i = code str i :: keyr str rk (typ str i) (i + 1) := by
  rw [keyr, dif_pos h, if_neg]
  rcases hc with hc | hc <;> rw [hc] <;> simp

theorem keyr_cons (str : List Nat) (rk : Nat → Nat) (cur : Bool) (i : Nat) : ∃ l, keyr str rk cur i = code str i :: l := by
  rw [keyr]
  split
  · split
    · exact ⟨_, rfl⟩
    · exact ⟨_, rfl⟩
  · exact ⟨_, rfl⟩

theorem keyr_lt {str : List Nat} {rk : Nat → Nat} {i j : Nat} (h : code str i < code str j) (c d : Bool) : ¬ keyr str rk d j < keyr str rk c i := by
  obtain ⟨l, hl⟩ := keyr_cons str rk c i
  obtain ⟨l', hl'⟩ := keyr_cons str rk d j
  rw [hl, hl', List.cons_lt_cons_iff]
  omega

theorem keyr_indep {str : List Nat} {rk : Nat → Nat} {i : Nat} (h : typ str i = false) (c d : Bool) : keyr str rk c i = keyr str rk d i := by
  by_cases hi : i + 1 < str.length
  · rw [keyr_next hi (Or.inr h), keyr_next hi (Or.inr h)]
  · rw [keyr_last hi, keyr_last hi]

theorem keyr_eq {str : List Nat} {rk : Nat → Nat} : ∀ (m i : Nat) (cur : Bool), str.length - i = m →
    ∃ e, (keyc str cur i).length = e + 1 ∧ keyr str rk cur i = keyc str cur i ++ [rk (i + e)] := by
  intro m
  induction m with
  | zero =>
    intro i cur hm
    exact ⟨0, by rw [keyc_last (by omega)]; rfl, by rw [keyr_last (by omega), keyc_last (by omega)]; rfl⟩
  | succ m ih =>
    intro i cur hm
    by_cases hi : i + 1 < str.length
    · by_cases hc : cur = true ∨ typ str i = false
      · obtain ⟨e, h1, h2⟩ := ih (i + 1) (typ str i) (by omega)
        refine ⟨e + 1, by rw [keyc_next hi hc, List.length_cons, h1], ?_⟩
        rw [keyr_next hi hc, keyc_next hi hc, h2, List.cons_append, show i + (e + 1) = i + 1 + e by omega]
      · have h1 : cur = false := by
          cases cur
          · rfl
          · exact absurd (Or.inl rfl) hc
        have h2 : typ str i = true := by
          cases h : typ str i
          · exact absurd (Or.inr h) hc
          · rfl
        subst h1
        exact ⟨0, by rw [keyc_stop h2]; rfl, by rw [keyr_stop h2, keyc_stop h2]; rfl⟩
    · exact ⟨0, by rw [keyc_last hi]; rfl, by rw [keyr_last hi, keyc_last hi]; rfl⟩

/-- The result of `Induce_` is sorted by the letters up to the next LMS position and then by the given order of these. -/
theorem induce_ranked {str : List Nat} {mx : Nat} (hT : Text str mx) (rk : Nat → Nat) (order : Option (List Nat))
    (hperm : (order.getD (List.range (findLMSs (classify str)).length)).Perm (List.range (findLMSs (classify str)).length))
    (hrk : (order.getD (List.range (findLMSs (classify str)).length)).Pairwise
      (fun a b => rk ((findLMSs (classify str)).getD a 0) < rk ((findLMSs (classify str)).getD b 0))) :
    ∃ sa, induce mx str (classify str) (findLMSs (classify str)) order = some sa ∧ sa.Perm (List.range str.length) ∧
      sa.Pairwise (fun i j => ¬ keyr str rk true j < keyr str rk true i) ∧ sa[0]? = some (str.length - 1) := by
  have hR12 : ∀ i j, typ str i = false → typ str j = false → ¬ keyr str rk (prev str j) j < keyr str rk (prev str i) i →
      ¬ keyr str rk true j < keyr str rk true i := by
    intro i j hi hj h
    rw [keyr_indep hi true (prev str i), keyr_indep hj true (prev str j)]
    exact h
  refine induce_spec hT (R1 := fun i j => ¬ keyr str rk (prev str j) j < keyr str rk (prev str i) i) ?_ ?_ ?_ ?_ ?_ ?_
    (fun i j _ _ hi hj h => hR12 i j hi hj h) order hperm ?_
  · intro i j _ _ h
    exact keyr_lt (code_lt h) _ _
  · intro i j _ _ h h1 h2
    exact keyr_lt (code_lt' h h1 h2) _ _
  · intro i j hi hj hin hjn h hR
    have hp : ∀ i, prev str (i + 1) = typ str i := fun i => by simp [prev]
    rw [keyr_next hin (Or.inr hi), keyr_next hjn (Or.inr hj), List.cons_lt_cons_iff]
    rintro (h1 | ⟨_, h1⟩)
    · rw [code_eq.2 ⟨h, hi.trans hj.symm⟩] at h1
      omega
    · rw [hp, hp] at hR
      exact hR h1
  · intro i j _ _ h
    exact keyr_lt (code_lt h) _ _
  · intro i j _ _ h h1 h2
    exact keyr_lt (code_lt' h h1 h2) _ _
  · intro i j hi hj hin hjn h hR
    rw [keyr_next hin (Or.inl rfl), keyr_next hjn (Or.inl rfl), List.cons_lt_cons_iff, hi, hj]
    rintro (h1 | ⟨_, h1⟩)
    · rw [code_eq.2 ⟨h, hi.trans hj.symm⟩] at h1
      omega
    · exact hR h1
  · rw [List.pairwise_map]
    have hlms : ∀ i, i ∈ order.getD (List.range (findLMSs (classify str)).length) → IsLms str ((findLMSs (classify str)).getD i 0) := by
      intro i hi
      rw [hperm.mem_iff, List.mem_range] at hi
      exact (mem_lms str _).1 (List.mem_of_getElem? (getD_some _ i 0 hi))
    refine (List.Pairwise.and_mem.1 hrk).imp ?_
    rintro a b ⟨ha, hb, hr⟩ hl
    obtain ⟨ha0, _, ha1, ha2⟩ := hlms a ha
    obtain ⟨hb0, _, hb1, hb2⟩ := hlms b hb
    have hpa : prev str ((findLMSs (classify str)).getD a 0) = false := by
      rw [prev, if_neg (by omega), ha1]
    have hpb : prev str ((findLMSs (classify str)).getD b 0) = false := by
      rw [prev, if_neg (by omega), hb1]
    rw [hpa, hpb, keyr_stop ha2, keyr_stop hb2, code_eq.2 ⟨hl, ha2.trans hb2.symm⟩]
    simp only [List.cons_lt_cons_iff, Nat.lt_irrefl, List.lt_irrefl, and_false, or_false, true_and, false_or]
    omega

/-! ### Valleys, runs and keys -/

theorem typ_false_iff {str : List Nat} {mx : Nat} (hT : Text str mx) {i : Nat} (hi : i + 1 < str.length) :
    typ str i = false ↔ str.drop (i + 1) < str.drop i := by
  rw [← Bool.not_eq_true, typ_iff hT _ i rfl hi]
  constructor
  · intro hn
    exact list_lt_of hn (drop_ne hi (by omega))
  · intro hlt hc
    exact List.lt_irrefl _ (List.lt_trans hlt hc)

theorem valley_iff {str : List Nat} {mx : Nat} (hT : Text str mx) (i : Nat) : IsLms str i ↔ Valley str i := by
  unfold IsLms Valley
  refine and_congr_right (fun h0 => and_congr_right (fun hi => ?_))
  have h1 := typ_false_iff hT (i := i - 1) (by omega)
  rw [show i - 1 + 1 = i by omega] at h1
  rw [h1]
  refine and_congr_right (fun _ => ?_)
  by_cases hl : i + 1 = str.length
  · have := classify_last str (by omega)
    rw [show str.length - 1 = i by omega] at this
    exact ⟨fun _ => .inl hl, fun _ => this⟩
  · rw [typ_iff hT _ i rfl (by omega)]
    exact ⟨.inr, fun h => h.resolve_left hl⟩

theorem get_of_ltr {str : List Nat} {i j : Nat} (hi : i < str.length) (hj : j < str.length) : str[i]? = str[j]? ↔ ltr str i = ltr str j := by
  rw [getD_some str i 0 hi, getD_some str j 0 hj, Option.some.injEq]

theorem run_of_key {str : List Nat} {mx : Nat} (hT : Text str mx) {i j : Nat} (hij : i ≠ j) (hi : i < str.length) (hj : j < str.length)
    (hK : keyc str true i = keyc str true j) : ∃ e, (keyc str true i).length = e + 1 ∧ Run str i j e := by
  obtain ⟨e, h1, h2, h3, h4, h5⟩ := keyc_end _ i true rfl hi
  obtain ⟨e', h1', h2', h3', h4', h5'⟩ := keyc_end _ j true rfl hj
  rw [← hK, h1] at h1'
  have : e' = e := by omega
  subst this
  have he : 0 < e' := by
    rcases Nat.eq_zero_or_pos e' with h | h
    · have h6 := h5 h
      have h7 := h5' h
      simp only [Bool.true_eq_false, false_and, false_or] at h6 h7
      omega
    · exact h
  have hl : ∀ p, IsLms str p ∨ p + 1 = str.length → IsLms str p := by
    rintro p (h | h)
    · exact h
    · have := hT.last_lms
      rw [show str.length - 1 = p by omega] at this
      exact this
  refine ⟨e', h1, he, (valley_iff hT _).1 (hl _ (h4 he)), (valley_iff hT _).1 (hl _ (h4' he)), ?_, ?_⟩
  · intro t h6 h7
    rw [← valley_iff hT, ← valley_iff hT]
    exact ⟨h3 _ (by omega) (by omega), h3' _ (by omega) (by omega)⟩
  · intro t ht
    rw [get_of_ltr (by omega) (by omega)]
    exact keyc_letters _ i j true rfl hi hj hK e' h1 t ht

theorem keyc_form {str : List Nat} : ∀ (e i : Nat) (cur : Bool), IsLms str (i + e) → (∀ t, 0 < t → t < e → ¬ IsLms str (i + t)) →
    (0 < e → cur = true ∨ typ str i = false) → (e = 0 → cur = false) → keyc str cur i = (List.range (e + 1)).map (fun t => code str (i + t))
  | 0, i, cur, hl, _, _, h0 => by
    rw [h0 rfl, keyc_stop (show typ str i = true from hl.2.2.2)]
    rfl
  | e + 1, i, cur, hl, hn, hc, _ => by
    have hlt := hl.2.1
    rw [keyc_next (by omega) (hc (by omega)), keyc_form e (i + 1) (typ str i) (by rw [show i + 1 + e = i + (e + 1) by omega]; exact hl) ?_ ?_ ?_,
      List.range_succ_eq_map (n := e + 1), List.map_cons, List.map_map]
    · congr 1
      apply List.map_congr_left
      intro t _
      simp only [Function.comp, Nat.succ_eq_add_one]
      rw [show i + 1 + t = i + (t + 1) by omega]
    · intro t h1 h2
      rw [show i + 1 + t = i + (t + 1) by omega]
      exact hn _ (by omega) (by omega)
    · intro he
      have h1 := hn 1 (by omega) (by omega)
      cases h2 : typ str i with
      | true => exact .inl rfl
      | false =>
        cases h3 : typ str (i + 1) with
        | false => exact .inr rfl
        | true => exact absurd ⟨by omega, by omega, by rw [Nat.add_sub_cancel]; exact h2, h3⟩ h1
    · intro he
      subst he
      have := hl.2.2.1
      exact this

theorem key_of_run {str : List Nat} {mx : Nat} (hT : Text str mx) {i j e : Nat} (h : Run str i j e) :
    keyc str true i = keyc str true j ∧ (keyc str true i).length = e + 1 := by
  obtain ⟨he, h1, h2, h3, h4⟩ := h
  rw [← valley_iff hT] at h1 h2
  have hi := h1.2.1
  have hj := h2.2.1
  have hlet : ∀ t, t ≤ e → ltr str (i + t) = ltr str (j + t) := fun t ht => (get_of_ltr (by omega) (by omega)).1 (h4 t ht)
  have hty : ∀ k t, t + k = e → typ str (i + t) = typ str (j + t) := by
    intro k
    induction k with
    | zero =>
      intro t ht
      rw [show t = e by omega, h1.2.2.2, h2.2.2.2]
    | succ k ih =>
      intro t ht
      have := ih (t + 1) (by omega)
      rw [classify_step str (i + t) (by omega), classify_step str (j + t) (by omega), Nat.add_assoc, Nat.add_assoc, hlet t (by omega),
        hlet (t + 1) (by omega), this]
  have hf : ∀ i, IsLms str (i + e) → (∀ t, 0 < t → t < e → ¬ IsLms str (i + t)) → keyc str true i = (List.range (e + 1)).map (fun t => code str (i + t)) :=
    fun i a b => keyc_form e i true a b (fun _ => .inl rfl) (fun h => by omega)
  have e1 := hf i h1 (fun t a b => by rw [valley_iff hT]; exact (h3 t a b).1)
  have e2 := hf j h2 (fun t a b => by rw [valley_iff hT]; exact (h3 t a b).2)
  rw [e1, e2]
  refine ⟨?_, by simp⟩
  apply List.map_congr_left
  intro t ht
  have ht := List.mem_range.1 ht
  exact code_eq.2 ⟨hlet t (by omega), hty (e - t) t (by omega)⟩

theorem run_ne {str : List Nat} {i j e : Nat} (h : Run str i j e) : i < str.length ∧ j < str.length := by
  have h1 := h.2.1.2.1
  have h2 := h.2.2.1.2.1
  exact ⟨by omega, by omega⟩

theorem run_symm {str : List Nat} {i j e : Nat} (h : Run str i j e) : Run str j i e :=
  ⟨h.1, h.2.2.1, h.2.1, fun t a b => (h.2.2.2.1 t a b).symm, fun t a => (h.2.2.2.2 t a).symm⟩

theorem run_drop {str : List Nat} {mx : Nat} (hT : Text str mx) {i j e : Nat} (h : Run str i j e) :
    str.drop (j + e) < str.drop (i + e) ↔ str.drop j < str.drop i := by
  have hf : ∀ i j, Run str i j e → str.drop (i + e) < str.drop (j + e) → str.drop i < str.drop j := by
    intro i j h hlt
    obtain ⟨h1, h2⟩ := run_ne h
    obtain ⟨h3, h4⟩ := key_of_run hT h
    exact drop_of_keyEq _ i j true rfl h1 h2 h3 e h4 hlt
  constructor
  · exact hf j i (run_symm h)
  · intro hlt
    apply list_lt_of
    · intro hc
      exact List.lt_irrefl _ (List.lt_trans hlt (hf i j h hc))
    · have := h.2.2.1.2.1
      refine drop_ne this ?_
      intro hc
      have : i = j := by omega
      subst this
      exact List.lt_irrefl _ hlt

/-! ### Order in a list -/

theorem pair_total {l : List Nat} {i j : Nat} (hi : i ∈ l) (hj : j ∈ l) (hij : i ≠ j) : [i, j].Sublist l ∨ [j, i].Sublist l := by
  induction l with
  | nil => simp at hi
  | cons a l ih =>
    rcases List.mem_cons.1 hi with hi | hi
    · rcases List.mem_cons.1 hj with hj | hj
      · exact absurd (hi.trans hj.symm) hij
      · rw [hi]
        exact .inl (List.Sublist.cons_cons _ (List.singleton_sublist.2 hj))
    · rcases List.mem_cons.1 hj with hj | hj
      · rw [hj]
        exact .inr (List.Sublist.cons_cons _ (List.singleton_sublist.2 hi))
      · rcases ih hi hj with h | h
        · exact .inl (h.cons _)
        · exact .inr (h.cons _)

theorem pair_idx {l : List Nat} (hn : l.Nodup) : l.Pairwise (fun a b => l.idxOf a < l.idxOf b) := by
  rw [List.pairwise_iff_getElem]
  intro x y hx hy hxy
  rw [hn.idxOf_getElem, hn.idxOf_getElem]
  exact hxy

theorem append_lt (l a b : List Nat) : l ++ a < l ++ b ↔ a < b := by
  induction l with
  | nil => rfl
  | cons x l ih => rw [List.cons_append, List.cons_append, List.cons_lt_cons_iff, ih]; simp

/-- What `Induce_` puts in the wrong order. -/
theorem ranked_wrong {str : List Nat} {mx : Nat} (hT : Text str mx) {rk : Nat → Nat} {sa : List Nat} (hp : sa.Perm (List.range str.length))
    (hk0 : sa.Pairwise (fun i j => ¬ keyc str true j < keyc str true i))
    (hk : sa.Pairwise (fun i j => ¬ keyr str rk true j < keyr str rk true i))
    (hinj : ∀ p q, Valley str p → Valley str q → rk p = rk q → p = q) (i j : Nat) :
    ([i, j].Sublist sa ∧ str.drop j < str.drop i) ↔ ∃ e, Run str i j e ∧ rk (i + e) < rk (j + e) ∧ str.drop j < str.drop i := by
  have hkey : ∀ i j e, Run str i j e → rk (i + e) < rk (j + e) → keyr str rk true i < keyr str rk true j := by
    intro i j e h2 hlt
    obtain ⟨hK, h1⟩ := key_of_run hT h2
    obtain ⟨e1, h3, h4⟩ := keyr_eq (rk := rk) _ i true rfl
    obtain ⟨e2, h5, h6⟩ := keyr_eq (rk := rk) _ j true rfl
    rw [← hK, h1] at h5
    rw [h1] at h3
    have : e1 = e := by omega
    subst this
    have : e2 = e1 := by omega
    subst this
    rw [h4, h6, ← hK, append_lt, List.cons_lt_cons_iff]
    exact .inl hlt
  rw [List.pairwise_iff_forall_sublist] at hk hk0
  constructor
  · rintro ⟨hs, hlt⟩
    have hi := List.mem_range.1 (hp.mem_iff.1 (hs.subset (List.mem_cons_self)))
    have hj := List.mem_range.1 (hp.mem_iff.1 (hs.subset (List.mem_cons_of_mem _ List.mem_cons_self)))
    have hij : i ≠ j := by
      rintro rfl
      exact List.lt_irrefl _ hlt
    have hK : keyc str true i = keyc str true j := by
      apply Decidable.byContradiction
      intro hc
      have := drop_of_key hT _ i j true rfl hi hj (list_lt_of (hk0 hs) hc)
      exact List.lt_irrefl _ (List.lt_trans hlt this)
    obtain ⟨e, _, h2⟩ := run_of_key hT hij hi hj hK
    refine ⟨e, h2, ?_, hlt⟩
    rcases Nat.lt_trichotomy (rk (i + e)) (rk (j + e)) with h | h | h
    · exact h
    · have := hinj _ _ h2.2.1 h2.2.2.1 h
      omega
    · exact absurd (hkey j i e (run_symm h2) h) (hk hs)
  · rintro ⟨e, h1, h2, h3⟩
    refine ⟨?_, h3⟩
    have hij : i ≠ j := by
      rintro rfl
      exact List.lt_irrefl _ h3
    obtain ⟨hi, hj⟩ := run_ne h1
    rcases pair_total (hp.mem_iff.2 (List.mem_range.2 hi)) (hp.mem_iff.2 (List.mem_range.2 hj)) hij with h | h
    · exact h
    · exact absurd (hkey i j e h1 h2) (hk h)

end Verif.SA
