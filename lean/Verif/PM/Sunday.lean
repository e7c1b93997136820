/-
Helper facts for the Sunday searches.
-/
import Verif.PM.Lemmas

namespace Verif.PM

theorem minShiftLoop_some (key : List Byte) (i : Nat) (hi : i < key.length) : ∀ j, j ≤ i → ∃ r, minShiftLoop key i j = some r := by
  intro j
  induction j with
  | zero => exact fun _ => ⟨_, rfl⟩
  | succ j ih =>
    intro hj
    unfold minShiftLoop
    rw [List.getElem?_eq_getElem (show j < key.length by omega), List.getElem?_eq_getElem hi]
    simp only
    by_cases he : key[j] = key[i]
    · rw [if_pos he]; exact ⟨_, rfl⟩
    · rw [if_neg he]; exact ih (by omega)

theorem mapM_all {β γ : Type} (f : β → Option γ) : ∀ (l : List β), (∀ x ∈ l, ∃ y, f x = some y) → ∃ r, l.mapM f = some r := by
  intro l
  induction l with
  | nil => intro _; exact ⟨[], rfl⟩
  | cons a l ih =>
    intro h
    obtain ⟨y, hy⟩ := h a (by simp)
    obtain ⟨r, hr⟩ := ih (fun x hx => h x (by simp [hx]))
    exact ⟨y :: r, by simp [List.mapM_cons, hy, hr]⟩

theorem mapM_eq {β γ : Type} (f : β → Option γ) (g : β → γ) : ∀ (l : List β), (∀ x ∈ l, f x = some (g x)) → l.mapM f = some (l.map g) := by
  intro l
  induction l with
  | nil => intro _; rfl
  | cons a l ih =>
    intro h
    simp [List.mapM_cons, h a (by simp), ih (fun x hx => h x (by simp [hx]))]

theorem insertBy_perm {β : Type} (lt : β → β → Bool) (x : β) : ∀ l, (insertBy lt x l).Perm (x :: l) := by
  intro l
  induction l with
  | nil => exact .refl _
  | cons y ys ih =>
    unfold insertBy
    split
    · exact (ih.cons y).trans (.swap x y ys)
    · exact .refl _

theorem sort_perm {β : Type} (lt : β → β → Bool) : ∀ l : List β, (l.foldr (insertBy lt) []).Perm l := by
  intro l
  induction l with
  | nil => exact .refl _
  | cons x l ih => exact (insertBy_perm lt x _).trans (ih.cons x)

/-- All that matters of `pattern_`: it lists every position with its character. -/
structure PatOk (key : List Byte) (pat : List (Nat × Byte)) : Prop where
  len : pat.length = key.length
  sound : ∀ q ∈ pat, key[q.1]? = some q.2
  complete : ∀ j c, key[j]? = some c → (j, c) ∈ pat

theorem pattern_spec (key : List Byte) : ∃ pat, pattern key = some pat ∧ PatOk key pat := by
  unfold pattern
  obtain ⟨ms, hms⟩ := mapM_all (fun i => minShiftLoop key i i) (List.range key.length)
    (fun x hx => minShiftLoop_some key x (List.mem_range.1 hx) x (Nat.le_refl _))
  have h2 := mapM_eq (fun i => (key[i]?).bind (fun c => some (i, c))) (fun i => (i, key.getD i 0#8)) (List.range key.length) (by
    intro x hx
    have := List.mem_range.1 hx
    simp [List.getElem?_eq_getElem this, List.getD_eq_getElem?_getD])
  have hms' : minShift key = some ms := hms
  simp only [hms', Option.bind_eq_bind, Option.bind_some, Option.pure_def]
  rw [h2]
  simp only [Option.bind_some]
  refine ⟨_, rfl, ?_, ?_, ?_⟩
  · rw [(sort_perm _ _).length_eq]; simp
  · intro q hq
    rw [(sort_perm _ _).mem_iff, List.mem_map] at hq
    obtain ⟨i, hi, rfl⟩ := hq
    have := List.mem_range.1 hi
    simp [List.getElem?_eq_getElem this, List.getD_eq_getElem?_getD]
  · intro j c hj
    rw [(sort_perm _ _).mem_iff, List.mem_map]
    obtain ⟨hjl, _⟩ := List.getElem?_eq_some_iff.1 hj
    refine ⟨j, List.mem_range.2 hjl, ?_⟩
    simp [List.getD_eq_getElem?_getD, hj]

theorem qsBuildLoop_spec (key : List Byte) (ha : ∀ c ∈ key, c.toNat < 128) : ∀ (k i : Nat) (td : List Nat), key.length - i = k →
    td.length = 255 →
    (∀ x d, td[x]? = some d → 0 < d ∧ d ≤ key.length + 1 ∧ ∀ j c, j < i → key[j]? = some c → c.toNat = x → d + j ≤ key.length) →
    ∃ s, qsBuildLoop key i td = some s ∧ s.length = 255 ∧
      ∀ x d, s[x]? = some d → 0 < d ∧ d ≤ key.length + 1 ∧ ∀ j c, key[j]? = some c → c.toNat = x → d + j ≤ key.length := by
  intro k
  induction k with
  | zero =>
    intro i td hk hl h
    unfold qsBuildLoop
    rw [dif_neg (by omega)]
    refine ⟨td, rfl, hl, fun x d hx => ⟨(h x d hx).1, (h x d hx).2.1, fun j c h2 h3 => (h x d hx).2.2 j c ?_ h2 h3⟩⟩
    obtain ⟨hjl, _⟩ := List.getElem?_eq_some_iff.1 h2
    omega
  | succ k ih =>
    intro i td hk hl h
    unfold qsBuildLoop
    have hk' : i < key.length := by omega
    rw [dif_pos hk']
    have hc := ha key[i] (List.getElem_mem hk')
    simp only [List.getElem?_eq_getElem hk', Option.bind_eq_bind, Option.bind_some, charIndex_some _ hc]
    rw [wr_eq _ _ _ (by omega)]
    simp only [Option.bind_some]
    apply ih (i + 1) _ (by omega) (by simpa using hl)
    intro x d hx
    rw [List.getElem?_set] at hx
    by_cases hxe : key[i].toNat = x
    · rw [if_pos hxe, if_pos (by omega)] at hx
      have hd := Option.some.inj hx
      refine ⟨by omega, by omega, fun j c h1 h3 h4 => by omega⟩
    · rw [if_neg hxe] at hx
      refine ⟨(h x d hx).1, (h x d hx).2.1, fun j c h1 h3 h4 => ?_⟩
      by_cases hj : j = i
      · subst hj
        rw [List.getElem?_eq_getElem hk'] at h3
        rw [← Option.some.inj h3] at h4
        exact absurd h4 hxe
      · exact (h x d hx).2.2 j c (by omega) h3 h4

theorem qsBuild_spec (key : List Byte) (ha : ∀ c ∈ key, c.toNat < 128) : ∃ td, qsBuild key = some td ∧ td.length = 255 ∧
    ∀ x d, td[x]? = some d → 0 < d ∧ d ≤ key.length + 1 ∧ ∀ j c, key[j]? = some c → c.toNat = x → d + j ≤ key.length := by
  apply qsBuildLoop_spec key ha _ 0 _ rfl List.length_replicate
  intro x d hx
  rw [List.getElem?_replicate] at hx
  split at hx
  · have := Option.some.inj hx
    exact ⟨by omega, by omega, fun j c h => by omega⟩
  · simp at hx

/-- An entry of the pattern agrees with the text. -/
def Agree (text : List Byte) (i : Nat) (q : Nat × Byte) : Prop := text[i + q.1]? = some q.2

theorem eqU8Char_iff (a b : Byte) (ha : a.toNat < 128) : eqU8Char a b = true ↔ a = b := by
  unfold eqU8Char
  simp only [Bool.and_eq_true, decide_eq_true_eq]
  constructor
  · exact fun h => h.1
  · intro h; subst h; exact ⟨rfl, ha⟩

theorem pat_ascii {key : List Byte} {pat : List (Nat × Byte)} (hp : PatOk key pat) (ha : ∀ c ∈ key, c.toNat < 128) (q : Nat × Byte)
    (hq : q ∈ pat) : q.2.toNat < 128 := ha _ (List.mem_of_getElem? (hp.sound q hq))

theorem sundayScan_spec (key text : List Byte) (ha : ∀ c ∈ key, c.toNat < 128) (pat : List (Nat × Byte)) (hp : PatOk key pat) (i : Nat)
    (hi : i + key.length ≤ text.length) : ∀ (k pos : Nat), key.length - pos = k → pos ≤ key.length →
    (∀ t q, t < pos → pat[t]? = some q → Agree text i q) →
    ∃ r, sundayScan key.length pat text i pos = some r ∧ r ≤ key.length ∧ (r = key.length ↔ Occ key text i) ∧
      (∀ t q, t < r → pat[t]? = some q → Agree text i q) ∧ ∀ q, pat[r]? = some q → ¬ Agree text i q := by
  intro k
  induction k with
  | zero =>
    intro pos hk hpos hm
    unfold sundayScan
    have : pos = key.length := by omega
    subst this
    rw [dif_neg (by omega)]
    refine ⟨_, rfl, Nat.le_refl _, ⟨fun _ => ⟨hi, fun j hj => ?_⟩, fun _ => rfl⟩, hm, ?_⟩
    · have h1 := hp.complete j key[j] (List.getElem?_eq_getElem hj)
      obtain ⟨t, ht, he⟩ := List.getElem_of_mem h1
      have := hm t (j, key[j]) (by have := hp.len; omega) (by rw [List.getElem?_eq_getElem ht, he])
      rw [List.getElem?_eq_getElem hj]
      exact this
    · intro q hq
      obtain ⟨h1, _⟩ := List.getElem?_eq_some_iff.1 hq
      have := hp.len
      omega
  | succ k ih =>
    intro pos hk hpos hm
    unfold sundayScan
    rw [dif_pos (by omega)]
    have hpl : pos < pat.length := by have := hp.len; omega
    rw [List.getElem?_eq_getElem hpl]
    simp only
    have hmem := List.getElem_mem hpl
    have hs := hp.sound _ hmem
    obtain ⟨hq1, _⟩ := List.getElem?_eq_some_iff.1 hs
    have hasc := pat_ascii hp ha _ hmem
    rw [List.getElem?_eq_getElem (show i + pat[pos].1 < text.length by omega)]
    simp only
    by_cases he : eqU8Char pat[pos].2 text[i + pat[pos].1] = true
    · rw [if_pos he]
      apply ih (pos + 1) (by omega) (by omega)
      intro t q ht hq
      by_cases htp : t = pos
      · subst htp
        rw [List.getElem?_eq_getElem hpl] at hq
        obtain rfl := Option.some.inj hq
        rw [eqU8Char_iff _ _ hasc] at he
        unfold Agree
        rw [List.getElem?_eq_getElem (by omega), he]
      · exact hm t q (by omega) hq
    · rw [if_neg he]
      have hna : ¬ Agree text i pat[pos] := by
        intro hag
        apply he
        rw [eqU8Char_iff _ _ hasc]
        unfold Agree at hag
        rw [List.getElem?_eq_getElem (by omega)] at hag
        exact (Option.some.inj hag).symm
      refine ⟨pos, rfl, hpos, ⟨fun h => by omega, fun ho => ?_⟩, hm, ?_⟩
      · exfalso
        apply hna
        unfold Agree
        rw [ho.2 _ hq1, hs]
      · intro q hq
        rw [List.getElem?_eq_getElem hpl] at hq
        obtain rfl := Option.some.inj hq
        exact hna

/-- What `delta2` has to satisfy. -/
def SafeShift (key : List Byte) (pat : List (Nat × Byte)) (td2 : Option (List Nat)) : Prop :=
  ∀ pos, pos ≤ key.length → ∃ d, (match td2 with | none => some 0 | some t => t[pos]?) = some d ∧
    ∀ (text : List Byte) (i e : Nat), 1 ≤ e → e < d → i + key.length ≤ text.length → (∀ t q, t < pos → pat[t]? = some q → Agree text i q) →
      (∀ q, pat[pos]? = some q → ¬ Agree text i q) → ¬ Occ key text (i + e)

/-- The search finds the occurrences, or it reads the byte 0xFF. -/
theorem sundayLoop_gen (key text : List Byte) (hne : 0 < key.length) (hl : key.length ≤ text.length) (ha : ∀ c ∈ key, c.toNat < 128)
    (pat : List (Nat × Byte)) (hp : PatOk key pat) (td1 : List Nat) (h1l : td1.length = 255)
    (h1 : ∀ x d, td1[x]? = some d → 0 < d ∧ d ≤ key.length + 1 ∧ ∀ j c, key[j]? = some c → c.toNat = x → d + j ≤ key.length)
    (td2 : Option (List Nat)) (h2 : SafeShift key pat td2) : ∀ (k i : Nat) (acc : List Nat), text.length + 1 - i ≤ k → Found key text i acc →
    (∃ r, sundayLoop key pat td1 td2 text i acc = some r ∧ r.Pairwise (· < ·) ∧ ∀ p, p ∈ r ↔ Occ key text p) ∨
      (sundayLoop key pat td1 td2 text i acc = none ∧ 255#8 ∈ text) := by
  intro k
  have hb : sundayBound key text = text.length - key.length := by unfold sundayBound; rw [if_pos hl]
  induction k with
  | zero =>
    intro i acc hk hf
    unfold sundayLoop
    rw [hb, dif_neg (by omega)]
    exact .inl ⟨acc, rfl, Found_done hf (by omega)⟩
  | succ k ih =>
    intro i acc hk hf
    unfold sundayLoop
    rw [hb]
    by_cases hi : i ≤ text.length - key.length
    · rw [dif_pos hi]
      obtain ⟨pos, e, hpos, hocc, hag, hng⟩ := sundayScan_spec key text ha pat hp i (by omega) _ 0 rfl (by omega) (by omega)
      simp only [e]
      by_cases hend : i + key.length = text.length
      · rw [if_pos hend]
        exact .inl ⟨_, rfl, Found_done (Found_step hf (show 0 < 1 by omega) _ hocc (fun p h1 h2 => by omega)) (by omega)⟩
      · rw [if_neg hend]
        have hlt : i + key.length < text.length := by omega
        rw [List.getElem?_eq_getElem hlt]
        simp only
        rcases (Nat.lt_or_ge (text[i + key.length]).toNat 255).symm with hc | hc
        · right
          rw [List.getElem?_eq_none (by omega)]
          refine ⟨rfl, ?_⟩
          have : text[i + key.length] = 255#8 := by
            apply BitVec.eq_of_toNat_eq
            have := (text[i + key.length]).isLt
            show _ = 255
            omega
          rw [← this]
          exact List.getElem_mem hlt
        have e1 := List.getElem?_eq_getElem (show (text[i + key.length]).toNat < td1.length by omega)
        rw [e1]
        have hd1 := h1 _ _ e1
        generalize td1[(text[i + key.length]).toNat] = d1 at hd1
        obtain ⟨d2, e2, hd2⟩ := h2 pos hpos
        cases td2 with
        | none =>
          simp only at e2
          obtain rfl := Option.some.inj e2
          simp only
          rw [dif_pos (by omega)]
          apply ih _ _ (by omega)
          apply Found_step hf (by omega) _ hocc
          intro p hp1 hp2 ho
          have h3 := ho.2 (i + key.length - p) (by omega)
          have h4 : p + (i + key.length - p) = i + key.length := by omega
          rw [h4, List.getElem?_eq_getElem hlt] at h3
          have := hd1.2.2 _ _ h3.symm rfl
          omega
        | some t =>
          simp only at e2 ⊢
          rw [e2]
          simp only
          rw [dif_pos (by omega)]
          apply ih _ _ (by omega)
          apply Found_step hf (by omega) _ hocc
          intro p hp1 hp2 ho
          by_cases hd : p < i + d2
          · have hpe : p = i + (p - i) := by omega
            exact hd2 text i (p - i) (by omega) (by omega) (by omega) hag hng (hpe ▸ ho)
          · have h3 := ho.2 (i + key.length - p) (by omega)
            have h4 : p + (i + key.length - p) = i + key.length := by omega
            rw [h4, List.getElem?_eq_getElem hlt] at h3
            have := hd1.2.2 _ _ h3.symm rfl
            omega
    · rw [dif_neg hi]
      exact .inl ⟨acc, rfl, Found_done hf (by omega)⟩

theorem sundayLoop_spec (key text : List Byte) (hne : 0 < key.length) (hl : key.length ≤ text.length) (ha : ∀ c ∈ key, c.toNat < 128)
    (ht : ∀ c ∈ text, c.toNat < 255) (pat : List (Nat × Byte)) (hp : PatOk key pat) (td1 : List Nat) (h1l : td1.length = 255)
    (h1 : ∀ x d, td1[x]? = some d → 0 < d ∧ d ≤ key.length + 1 ∧ ∀ j c, key[j]? = some c → c.toNat = x → d + j ≤ key.length)
    (td2 : Option (List Nat)) (h2 : SafeShift key pat td2) : ∀ (k i : Nat) (acc : List Nat), text.length + 1 - i ≤ k → Found key text i acc →
    ∃ r, sundayLoop key pat td1 td2 text i acc = some r ∧ r.Pairwise (· < ·) ∧ ∀ p, p ∈ r ↔ Occ key text p := by
  intro k i acc hk hf
  rcases sundayLoop_gen key text hne hl ha pat hp td1 h1l h1 td2 h2 k i acc hk hf with h | ⟨_, h⟩
  · exact h
  · have := ht _ h
    simp at this

/-! ### Maximal shift -/

/-- The first `pos` entries agree with the key moved by `s`. -/
def Compat (key : List Byte) (pat : List (Nat × Byte)) (pos s : Nat) : Prop :=
  ∀ t q, t < pos → pat[t]? = some q → s ≤ q.1 → key[q.1 - s]? = some q.2

theorem msCompat_spec (key : List Byte) (ha : ∀ c ∈ key, c.toNat < 128) (pat : List (Nat × Byte)) (hp : PatOk key pat) (s : Nat) :
    ∀ ppos, ppos ≤ key.length → ∃ b, msCompat key pat s ppos = some b ∧ (b = true ↔ Compat key pat ppos s) := by
  intro ppos
  induction ppos with
  | zero => intro _; exact ⟨true, rfl, ⟨fun _ t q h => by omega, fun _ => rfl⟩⟩
  | succ n ih =>
    intro hn
    unfold msCompat
    have hpl : n < pat.length := by have := hp.len; omega
    rw [List.getElem?_eq_getElem hpl]
    simp only
    have hmem := List.getElem_mem hpl
    have hs := hp.sound _ hmem
    obtain ⟨hq1, _⟩ := List.getElem?_eq_some_iff.1 hs
    have hasc := pat_ascii hp ha _ hmem
    obtain ⟨b, eb, hb⟩ := ih (by omega)
    have hsplit : Compat key pat (n + 1) s ↔ Compat key pat n s ∧ (s ≤ pat[n].1 → key[pat[n].1 - s]? = some pat[n].2) := by
      constructor
      · intro h
        exact ⟨fun t q h1 h2 h3 => h t q (by omega) h2 h3, fun h3 => h n _ (by omega) (List.getElem?_eq_getElem hpl) h3⟩
      · rintro ⟨h1, h2⟩ t q ht hq hsq
        by_cases htn : t = n
        · subst htn
          rw [List.getElem?_eq_getElem hpl] at hq
          obtain rfl := Option.some.inj hq
          exact h2 hsq
        · exact h1 t q (by omega) hq hsq
    by_cases hlt : pat[n].1 < s
    · rw [if_pos hlt, eb]
      refine ⟨b, rfl, ?_⟩
      rw [hb, hsplit]
      exact ⟨fun h => ⟨h, fun h3 => by omega⟩, fun h => h.1⟩
    · rw [if_neg hlt]
      have hk : pat[n].1 - s < key.length := by omega
      rw [List.getElem?_eq_getElem hk]
      simp only
      by_cases he : eqU8Char pat[n].2 key[pat[n].1 - s] = true
      · rw [if_pos he, eb]
        refine ⟨b, rfl, ?_⟩
        rw [eqU8Char_iff _ _ hasc] at he
        rw [hb, hsplit]
        exact ⟨fun h => ⟨h, fun _ => by rw [List.getElem?_eq_getElem hk, he]⟩, fun h => h.1⟩
      · rw [if_neg he]
        refine ⟨false, rfl, ⟨fun h => by simp at h, fun h => ?_⟩⟩
        exfalso
        apply he
        rw [eqU8Char_iff _ _ hasc]
        have := (hsplit.1 h).2 (by omega)
        rw [List.getElem?_eq_getElem hk] at this
        exact (Option.some.inj this).symm

theorem matchShift_spec (key : List Byte) (ha : ∀ c ∈ key, c.toNat < 128) (pat : List (Nat × Byte)) (hp : PatOk key pat) (pos : Nat)
    (hpos : pos ≤ key.length) : ∀ (k s : Nat), key.length - s = k → s ≤ key.length →
    ∃ r, matchShift key pat pos s = some r ∧ s ≤ r ∧ r ≤ key.length ∧ (∀ e, s ≤ e → e < r → ¬ Compat key pat pos e) ∧
      (r = key.length ∨ Compat key pat pos r) := by
  intro k
  induction k with
  | zero =>
    intro s hk hs
    unfold matchShift
    rw [dif_neg (by omega)]
    exact ⟨s, rfl, Nat.le_refl _, hs, fun e h1 h2 => by omega, .inl (by omega)⟩
  | succ k ih =>
    intro s hk hs
    unfold matchShift
    rw [dif_pos (by omega)]
    obtain ⟨b, eb, hb⟩ := msCompat_spec key ha pat hp s pos hpos
    rw [eb]
    cases b with
    | true => exact ⟨s, rfl, Nat.le_refl _, hs, fun e h1 h2 => by omega, .inr (hb.1 rfl)⟩
    | false =>
      simp only
      obtain ⟨r, er, h1, h2, h3, h4⟩ := ih (s + 1) (by omega) (by omega)
      refine ⟨r, er, by omega, h2, ?_, h4⟩
      intro e he1 he2
      by_cases hes : e = s
      · subst hes
        intro hcp
        have := hb.2 hcp
        simp at this
      · exact h3 e (by omega) he2

/-- Shifts that a number of agreeing entries rules out. -/
def Ruled (key : List Byte) (pat : List (Nat × Byte)) (pos d : Nat) : Prop :=
  1 ≤ d ∧ d ≤ key.length ∧ (∀ e, 1 ≤ e → e < d → ¬ Compat key pat pos e) ∧ (d = key.length ∨ Compat key pat pos d)

theorem msLoop1_spec (key : List Byte) (ha : ∀ c ∈ key, c.toNat < 128) (pat : List (Nat × Byte)) (hp : PatOk key pat) :
    ∀ (k pos : Nat) (td : List Nat), key.length + 1 - pos = k → 1 ≤ pos → td.length = key.length + 1 →
    (∀ p, p < pos → ∃ d, td[p]? = some d ∧ Ruled key pat p d) →
    ∃ t, msLoop1 key pat pos td = some t ∧ t.length = key.length + 1 ∧ ∀ p, p ≤ key.length → ∃ d, t[p]? = some d ∧ Ruled key pat p d := by
  intro k
  induction k with
  | zero =>
    intro pos td hk h1 hl h
    unfold msLoop1
    rw [dif_neg (by omega)]
    exact ⟨td, rfl, hl, fun p hp => h p (by omega)⟩
  | succ k ih =>
    intro pos td hk h1 hl h
    unfold msLoop1
    rw [dif_pos (by omega)]
    obtain ⟨d, ed, hd⟩ := h (pos - 1) (by omega)
    obtain ⟨r, er, hr1, hr2, hr3, hr4⟩ := matchShift_spec key ha pat hp pos (by omega) _ d rfl hd.2.1
    simp only [ed, er, Option.bind_eq_bind, Option.bind_some]
    rw [wr_eq _ _ _ (by omega)]
    simp only [Option.bind_some]
    apply ih (pos + 1) _ (by omega) (by omega) (by simpa using hl)
    intro p hpp
    rw [List.getElem?_set]
    by_cases hpe : pos = p
    · subst hpe
      rw [if_pos rfl, if_pos (by omega)]
      refine ⟨r, rfl, by have := hd.1; omega, hr2, ?_, hr4⟩
      intro e he1 he2
      by_cases hed : e < d
      · intro hc
        exact hd.2.2.1 e he1 hed (fun t q ht => hc t q (by omega))
      · exact hr3 e (by omega) he2
    · rw [if_neg hpe]
      exact h p (by omega)

/-- Shifts that are ruled out by the entry that differs as well. -/
def Ruled2 (key : List Byte) (pat : List (Nat × Byte)) (pos d : Nat) : Prop :=
  1 ≤ d ∧ d ≤ key.length ∧ (∀ e, 1 ≤ e → e < d → Compat key pat pos e → ∃ q, pat[pos]? = some q ∧ e ≤ q.1 ∧ key[q.1 - e]? = some q.2) ∧
    (d = key.length ∨ Compat key pat pos d)

/-- The shift does not bring an equal character under the entry that differs. -/
def Done (key : List Byte) (pat : List (Nat × Byte)) (pos d : Nat) : Prop :=
  d = key.length ∨ ∀ q, pat[pos]? = some q → d ≤ q.1 → key[q.1 - d]? ≠ some q.2

theorem msRefine_spec (key : List Byte) (ha : ∀ c ∈ key, c.toNat < 128) (pat : List (Nat × Byte)) (hp : PatOk key pat) (pos : Nat)
    (hpos : pos < key.length) : ∀ (k s : Nat), key.length - s ≤ k → Ruled2 key pat pos s →
    ∃ r, msRefine key pat pos s = some r ∧ Ruled2 key pat pos r ∧ Done key pat pos r := by
  intro k
  induction k with
  | zero =>
    intro s hk hs
    unfold msRefine
    rw [dif_neg (by omega)]
    exact ⟨s, rfl, hs, .inl (by have := hs.2.1; omega)⟩
  | succ k ih =>
    intro s hk hs
    unfold msRefine
    by_cases hsl : s < key.length
    · rw [dif_pos hsl]
      have hpl : pos < pat.length := by have := hp.len; omega
      have epl := List.getElem?_eq_getElem hpl
      rw [epl]
      simp only
      have hmem := List.getElem_mem hpl
      have hso := hp.sound _ hmem
      obtain ⟨hq1, _⟩ := List.getElem?_eq_some_iff.1 hso
      have hasc := pat_ascii hp ha _ hmem
      by_cases hlt : pat[pos].1 < s
      · rw [if_pos hlt]
        refine ⟨s, rfl, hs, .inr ?_⟩
        intro q hq hle
        rw [epl] at hq
        obtain rfl := Option.some.inj hq
        omega
      · rw [if_neg hlt]
        have hk2 : pat[pos].1 - s < key.length := by omega
        rw [List.getElem?_eq_getElem hk2]
        simp only
        by_cases he : eqU8Char pat[pos].2 key[pat[pos].1 - s] = true
        · rw [if_neg (by simp [he])]
          obtain ⟨r, er, hr1, hr2, hr3, hr4⟩ := matchShift_spec key ha pat hp pos (by omega) _ (s + 1) rfl (by omega)
          rw [er]
          simp only
          rw [dif_pos (by omega)]
          apply ih r (by omega)
          refine ⟨by omega, hr2, ?_, hr4⟩
          intro e he1 he2 hc
          by_cases hes : e < s
          · exact hs.2.2.1 e he1 hes hc
          · by_cases hee : e = s
            · subst hee
              rw [eqU8Char_iff _ _ hasc] at he
              exact ⟨_, epl, by omega, by rw [List.getElem?_eq_getElem hk2, he]⟩
            · exact absurd hc (hr3 e (by omega) he2)
        · rw [if_pos (by simpa using he)]
          refine ⟨s, rfl, hs, .inr ?_⟩
          intro q hq hle hk3
          rw [epl] at hq
          obtain rfl := Option.some.inj hq
          apply he
          rw [eqU8Char_iff _ _ hasc]
          rw [List.getElem?_eq_getElem hk2] at hk3
          exact (Option.some.inj hk3).symm
    · rw [dif_neg hsl]
      exact ⟨s, rfl, hs, .inl (by have := hs.2.1; omega)⟩

theorem msLoop2_spec (key : List Byte) (ha : ∀ c ∈ key, c.toNat < 128) (pat : List (Nat × Byte)) (hp : PatOk key pat) :
    ∀ (k pos : Nat) (td : List Nat), key.length - pos = k → pos ≤ key.length → td.length = key.length + 1 →
    (∀ p, p ≤ key.length → ∃ d, td[p]? = some d ∧ Ruled2 key pat p d ∧ (p < pos → Done key pat p d)) →
    ∃ t, msLoop2 key pat pos td = some t ∧ ∀ p, p ≤ key.length → ∃ d, t[p]? = some d ∧ Ruled2 key pat p d ∧ Done key pat p d := by
  intro k
  have hpl := hp.len
  induction k with
  | zero =>
    intro pos td hk h1 hl h
    unfold msLoop2
    rw [dif_neg (by omega)]
    refine ⟨td, rfl, fun p hpp => ?_⟩
    obtain ⟨d, ed, hd, hdone⟩ := h p hpp
    refine ⟨d, ed, hd, ?_⟩
    by_cases hlt : p < pos
    · exact hdone hlt
    · refine .inr fun q hq => ?_
      rw [List.getElem?_eq_none (by omega)] at hq
      simp at hq
  | succ k ih =>
    intro pos td hk h1 hl h
    unfold msLoop2
    rw [dif_pos (by omega)]
    obtain ⟨d, ed, hd, _⟩ := h pos h1
    obtain ⟨r, er, hr⟩ := msRefine_spec key ha pat hp pos (by omega) _ d (Nat.le_refl _) hd
    simp only [ed, er, Option.bind_eq_bind, Option.bind_some]
    rw [wr_eq _ _ _ (by omega)]
    simp only [Option.bind_some]
    apply ih (pos + 1) _ (by omega) (by omega) (by simpa using hl)
    intro p hpp
    rw [List.getElem?_set]
    by_cases hpe : pos = p
    · subst hpe
      rw [if_pos rfl, if_pos (by omega)]
      exact ⟨r, rfl, hr.1, fun _ => hr.2⟩
    · rw [if_neg hpe]
      obtain ⟨d', ed', hd', hdn⟩ := h p hpp
      exact ⟨d', ed', hd', fun hlt => hdn (by omega)⟩

/-- The value of every entry of the table. -/
theorem msBuild_exact (key : List Byte) (hne : 0 < key.length) (ha : ∀ c ∈ key, c.toNat < 128) (pat : List (Nat × Byte)) (hp : PatOk key pat) :
    ∃ t, msBuild key pat = some t ∧ ∀ p, p ≤ key.length → ∃ d, t[p]? = some d ∧ Ruled2 key pat p d ∧ Done key pat p d := by
  unfold msBuild
  rw [wr_eq _ _ _ (by simp)]
  simp only [Option.bind_eq_bind, Option.bind_some]
  obtain ⟨t1, e1, l1, h1⟩ := msLoop1_spec key ha pat hp _ 1 ((List.replicate (key.length + 1) 0).set 0 1) rfl (Nat.le_refl _) (by simp) (by
    intro p hpp
    have : p = 0 := by omega
    subst this
    refine ⟨1, ?_, Nat.le_refl _, hne, fun e h1 h2 => by omega, .inr fun t q ht => by omega⟩
    simp)
  rw [e1]
  simp only [Option.bind_some]
  obtain ⟨t2, e2, h2⟩ := msLoop2_spec key ha pat hp _ 0 t1 rfl (by omega) l1 (by
    intro p hpp
    obtain ⟨d, ed, hd⟩ := h1 p hpp
    exact ⟨d, ed, ⟨hd.1, hd.2.1, fun e he1 he2 hc => absurd hc (hd.2.2.1 e he1 he2), hd.2.2.2⟩, fun h => by omega⟩)
  exact ⟨t2, e2, h2⟩

theorem msBuild_spec (key : List Byte) (hne : 0 < key.length) (ha : ∀ c ∈ key, c.toNat < 128) (pat : List (Nat × Byte)) (hp : PatOk key pat) :
    ∃ t, msBuild key pat = some t ∧ SafeShift key pat (some t) := by
  obtain ⟨t2, e2, h2⟩ := msBuild_exact key hne ha pat hp
  refine ⟨t2, e2, ?_⟩
  intro pos hpos
  obtain ⟨d, ed, hd, _⟩ := h2 pos hpos
  refine ⟨d, ed, ?_⟩
  intro text i e he1 he2 hil hag hng ho
  have key1 : ∀ q : Nat × Byte, e ≤ q.1 → q.1 < key.length → text[i + q.1]? = key[q.1 - e]? := by
    intro q h1 h2
    rw [← ho.2 (q.1 - e) (by omega)]
    congr 1; omega
  have hc : Compat key pat pos e := by
    intro t q ht hq hsq
    obtain ⟨hq1, _⟩ := List.getElem?_eq_some_iff.1 (hp.sound q (List.mem_of_getElem? hq))
    rw [← key1 q hsq hq1]
    exact hag t q ht hq
  obtain ⟨q, hq, hqe, hqk⟩ := hd.2.2.1 e he1 he2 hc
  obtain ⟨hq1, _⟩ := List.getElem?_eq_some_iff.1 (hp.sound q (List.mem_of_getElem? hq))
  apply hng q hq
  unfold Agree
  rw [key1 q hqe hq1, hqk]

end Verif.PM
