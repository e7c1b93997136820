/-
Property theorems C95 (the number of comparisons of Simple, BM, SundayQS and SundayMS).
-/
import Verif.PM.Cost2
import Verif.PM.Props

namespace Verif.PM

/-! ### Simple -/

theorem simpleScanC_spec (key text : List Byte) (i : Nat) : ∀ (m pos cnt : Nat), key.length - pos = m →
    (simpleScanC key text i pos cnt).map Prod.fst = simpleScan key text i pos ∧
    ∀ p n, simpleScanC key text i pos cnt = some (p, n) → n ≤ cnt + m := by
  intro m
  induction m with
  | zero =>
    intro pos cnt hm
    unfold simpleScanC simpleScan
    rw [dif_neg (by omega), dif_neg (by omega)]
    refine ⟨rfl, fun p n e => ?_⟩
    simp only [Option.some.injEq, Prod.mk.injEq] at e
    omega
  | succ m ih =>
    intro pos cnt hm
    unfold simpleScanC simpleScan
    rw [dif_pos (by omega), dif_pos (by omega)]
    cases key[pos]? with
    | none => simp
    | some a =>
      cases text[i + pos]? with
      | none => simp
      | some b =>
        dsimp only
        by_cases hab : a = b
        · rw [if_pos hab, if_pos hab]
          obtain ⟨h1, h2⟩ := ih (pos + 1) (cnt + 1) (by omega)
          refine ⟨h1, fun p n e => ?_⟩
          have := h2 p n e
          omega
        · rw [if_neg hab, if_neg hab]
          refine ⟨rfl, fun p n e => ?_⟩
          simp only [Option.some.injEq, Prod.mk.injEq] at e
          omega

theorem simpleLoopC_spec (key text : List Byte) : ∀ (m i : Nat) (acc : List Nat) (cnt : Nat), text.length - key.length + 1 - i = m →
    (simpleLoopC key text i acc cnt).map Prod.fst = simpleLoop key text i acc ∧
    ∀ r n, simpleLoopC key text i acc cnt = some (r, n) → n ≤ cnt + key.length * m := by
  intro m
  induction m with
  | zero =>
    intro i acc cnt hm
    unfold simpleLoopC simpleLoop
    rw [dif_neg (by omega), dif_neg (by omega)]
    refine ⟨rfl, fun r n e => ?_⟩
    simp only [Option.some.injEq, Prod.mk.injEq] at e
    omega
  | succ m ih =>
    intro i acc cnt hm
    unfold simpleLoopC simpleLoop
    rw [dif_pos (by omega), dif_pos (by omega)]
    obtain ⟨h1, h2⟩ := simpleScanC_spec key text i _ 0 cnt rfl
    rw [← h1]
    cases e : simpleScanC key text i 0 cnt with
    | none => simp
    | some x =>
      obtain ⟨pos, c⟩ := x
      dsimp only [Option.map_some]
      have h3 := h2 pos c e
      obtain ⟨h4, h5⟩ := ih (i + 1) (if pos = key.length then acc ++ [i] else acc) c (by omega)
      refine ⟨h4, fun r n er => ?_⟩
      have := h5 r n er
      rw [Nat.mul_succ]
      omega

/-- How many characters of the key agree with the text at place `i` before the first that does not. -/
def agree (key text : List Byte) (i : Nat) : Nat := ((List.range key.length).takeWhile (fun j => key[j]? == text[i + j]?)).length

theorem simpleScanC_exact (key text : List Byte) (i : Nat) (hi : i + key.length ≤ text.length) : ∀ (m pos cnt : Nat), key.length - pos = m →
    (simpleScanC key text i pos cnt).map Prod.snd =
      some (cnt + min m (((List.range' pos m).takeWhile (fun j => key[j]? == text[i + j]?)).length + 1)) := by
  intro m
  induction m with
  | zero =>
    intro pos cnt hm
    unfold simpleScanC
    rw [dif_neg (by omega)]
    simp
  | succ m ih =>
    intro pos cnt hm
    have h1 : pos < key.length := by omega
    have h2 : i + pos < text.length := by omega
    unfold simpleScanC
    rw [dif_pos h1, List.range'_succ, List.takeWhile_cons, List.getElem?_eq_getElem h1, List.getElem?_eq_getElem h2]
    dsimp only
    by_cases hab : key[pos] = text[i + pos]
    · rw [if_pos hab, if_pos (by rw [hab]; simp), ih (pos + 1) (cnt + 1) (by omega), List.length_cons]
      congr 1
      omega
    · rw [if_neg hab, if_neg (by simpa using hab)]
      simp only [Option.map_some, List.length_nil, Option.some.injEq]
      omega

theorem simpleLoopC_exact (key text : List Byte) (hl : key.length ≤ text.length) : ∀ (m i : Nat) (acc : List Nat) (cnt : Nat), text.length - key.length + 1 - i = m →
    ∀ r n, simpleLoopC key text i acc cnt = some (r, n) → n = cnt + ((List.range' i m).map (fun i => min key.length (agree key text i + 1))).sum := by
  intro m
  induction m with
  | zero =>
    intro i acc cnt hm r n e
    unfold simpleLoopC at e
    rw [dif_neg (by omega)] at e
    simp only [Option.some.injEq, Prod.mk.injEq] at e
    simp [e.2]
  | succ m ih =>
    intro i acc cnt hm r n e
    unfold simpleLoopC at e
    rw [dif_pos (by omega)] at e
    have h1 := simpleScanC_exact key text i (by omega) _ 0 cnt rfl
    cases es : simpleScanC key text i 0 cnt with
    | none => simp [es] at e
    | some x =>
      obtain ⟨pos, c⟩ := x
      rw [es] at h1 e
      have h2 := ih (i + 1) _ _ (by omega) r n e
      simp only [Option.map_some, Option.some.injEq] at h1
      rw [List.range'_succ, List.map_cons, List.sum_cons, h2, h1, agree, List.range_eq_range', Nat.sub_zero, Nat.add_assoc]

/-! ### BM -/

theorem bmBackC_spec (key text : List Byte) : ∀ (r p cnt : Nat),
    (bmBackC key text r p cnt).map Prod.fst = bmBack key text r p ∧
    ∀ x n, bmBackC key text r p cnt = some (x, n) → n ≤ cnt + r ∧ ((∀ a b, key[r - 1]? = some a → text[p - 1]? = some b → a ≠ b) → 0 < r → n = cnt + 1) := by
  intro r
  induction r with
  | zero =>
    intro p cnt
    refine ⟨rfl, fun x n e => ?_⟩
    simp only [bmBackC, Option.some.injEq, Prod.mk.injEq] at e
    omega
  | succ r ih =>
    intro p cnt
    unfold bmBackC bmBack
    rw [Nat.add_sub_cancel]
    cases hk : key[r]? with
    | none => simp
    | some a =>
      cases ht : text[p - 1]? with
      | none => simp
      | some b =>
        dsimp only
        by_cases hab : a = b
        · rw [if_pos hab, if_pos hab]
          obtain ⟨h1, h2⟩ := ih (p - 1) (cnt + 1)
          refine ⟨h1, fun x n e => ⟨?_, fun h _ => absurd hab (h a b rfl rfl)⟩⟩
          have := (h2 x n e).1
          omega
        · rw [if_neg hab, if_neg hab]
          refine ⟨rfl, fun x n e => ?_⟩
          simp only [Option.some.injEq, Prod.mk.injEq] at e
          omega

theorem bmLoopC_spec (key text : List Byte) (skip : List Nat) (hne : 0 < key.length) : ∀ (m i : Nat) (acc : List Nat) (cnt : Nat), text.length - i ≤ m →
    (bmLoopC key text skip i acc cnt).map Prod.fst = bmLoop key text skip i acc ∧
    ∀ r n, bmLoopC key text skip i acc cnt = some (r, n) → n ≤ cnt + key.length * (text.length - i) ∧
      ((∀ c ∈ text, c ∉ key) → (∀ c ∈ text, ∀ d, skip[c.toNat]? = some d → d = key.length) → n = cnt + (text.length + key.length - 1 - i) / key.length) := by
  intro m
  induction m with
  | zero =>
    intro i acc cnt hm
    unfold bmLoopC bmLoop
    rw [dif_neg (by omega), dif_neg (by omega)]
    refine ⟨rfl, fun r n e => ?_⟩
    simp only [Option.some.injEq, Prod.mk.injEq] at e
    refine ⟨e.2 ▸ Nat.le_add_right _ _, fun _ _ => ?_⟩
    rw [Nat.div_eq_of_lt (by omega)]
    omega
  | succ m ih =>
    intro i acc cnt hm
    unfold bmLoopC bmLoop
    by_cases hi : i < text.length
    · rw [dif_pos hi, dif_pos hi]
      obtain ⟨h1, h2⟩ := bmBackC_spec key text key.length (i + 1) cnt
      rw [← h1]
      cases e : bmBackC key text key.length (i + 1) cnt with
      | none => simp
      | some x =>
        obtain ⟨⟨r', p⟩, c⟩ := x
        obtain ⟨h3, h4⟩ := h2 _ c e
        dsimp only [Option.map_some]
        rw [List.getElem?_eq_getElem hi, Option.bind_some]
        cases hx : charIndex text[i] with
        | none => simp
        | some x =>
          have hxe : x = text[i].toNat := by
            unfold charIndex at hx
            split at hx
            · exact (Option.some.inj hx).symm
            · simp at hx
          dsimp only
          cases hd : skip[x]? with
          | none => simp
          | some d =>
            dsimp only
            by_cases h0 : 0 < d
            · rw [dif_pos h0, dif_pos h0]
              obtain ⟨h5, h6⟩ := ih (i + d) (if r' = 0 then acc ++ [p] else acc) c (by omega)
              refine ⟨h5, fun r n er => ?_⟩
              obtain ⟨h7, h8⟩ := h6 r n er
              constructor
              · have : key.length * (text.length - i) = key.length * (text.length - i - 1) + key.length := by
                  rw [show text.length - i = text.length - i - 1 + 1 by omega, Nat.mul_succ, Nat.add_sub_cancel]
                have := Nat.mul_le_mul_left key.length (show text.length - (i + d) ≤ text.length - i - 1 by omega)
                omega
              · intro ha hs
                have h9 := h8 ha hs
                have h10 : c = cnt + 1 := h4 (by
                  intro a b hka htb hab
                  rw [Nat.add_sub_cancel] at htb
                  exact ha b (List.mem_of_getElem? htb) (hab ▸ List.mem_of_getElem? hka)) hne
                have hdl : d = key.length := hs text[i] (List.getElem_mem hi) d (hxe ▸ hd)
                have h11 : (text.length + key.length - 1 - i) / key.length = (text.length - 1 - i) / key.length + 1 := by
                  rw [show text.length + key.length - 1 - i = text.length - 1 - i + key.length by omega, Nat.add_div_right _ hne]
                have h12 : text.length + key.length - 1 - (i + d) = text.length - 1 - i := by omega
                rw [h12] at h9
                rw [h11]
                generalize (text.length - 1 - i) / key.length = z at *
                omega
            · rw [dif_neg h0, dif_neg h0]; simp
    · rw [dif_neg hi, dif_neg hi]
      refine ⟨rfl, fun r n e => ?_⟩
      simp only [Option.some.injEq, Prod.mk.injEq] at e
      refine ⟨e.2 ▸ Nat.le_add_right _ _, fun _ _ => ?_⟩
      rw [Nat.div_eq_of_lt (by omega)]
      omega

theorem bmBuildLoop_alien (key : List Byte) (c : Byte) (hc : c ∉ key) : ∀ (m i : Nat) (skip s : List Nat), key.length - i ≤ m →
    bmBuildLoop key i skip = some s → s[c.toNat]? = skip[c.toNat]? := by
  intro m
  induction m with
  | zero =>
    intro i skip s hm e
    unfold bmBuildLoop at e
    rw [dif_neg (by omega)] at e
    rw [Option.some.inj e]
  | succ m ih =>
    intro i skip s hm e
    unfold bmBuildLoop at e
    split at e
    · simp only [Option.bind_eq_bind, Option.bind_eq_some_iff] at e
      obtain ⟨a, ha, x, hx, t, ht, e⟩ := e
      rw [ih (i + 1) t s (by omega) e]
      have hxe : x = a.toNat := by
        unfold charIndex at hx
        split at hx
        · exact (Option.some.inj hx).symm
        · simp at hx
      have hne : x ≠ c.toNat := by
        intro h
        rw [hxe] at h
        exact hc (BitVec.eq_of_toNat_eq h ▸ List.mem_of_getElem? ha)
      unfold wr at ht
      split at ht
      · rw [← Option.some.inj ht, List.getElem?_set_ne hne]
      · simp at ht
    · rw [Option.some.inj e]

/-! ### Sunday -/

theorem sundayScanC_spec (k : Nat) (pat : List (Nat × Byte)) (text : List Byte) (i : Nat) : ∀ (m pos cnt : Nat), k - pos = m →
    (sundayScanC k pat text i pos cnt).map Prod.fst = sundayScan k pat text i pos ∧
    ∀ p n, sundayScanC k pat text i pos cnt = some (p, n) → (n ≤ cnt + m ∧ p ≤ pos + m) ∧ ((∀ q ∈ pat, q.2 ∉ text) → 0 < m → n = cnt + 1) := by
  intro m
  induction m with
  | zero =>
    intro pos cnt hm
    unfold sundayScanC sundayScan
    rw [dif_neg (by omega), dif_neg (by omega)]
    refine ⟨rfl, fun p n e => ?_⟩
    simp only [Option.some.injEq, Prod.mk.injEq] at e
    omega
  | succ m ih =>
    intro pos cnt hm
    unfold sundayScanC sundayScan
    rw [dif_pos (by omega), dif_pos (by omega)]
    cases hq : pat[pos]? with
    | none => simp
    | some q =>
      dsimp only
      cases hc : text[i + q.1]? with
      | none => simp
      | some c =>
        dsimp only
        by_cases hab : eqU8Char q.2 c = true
        · rw [if_pos hab, if_pos hab]
          obtain ⟨h1, h2⟩ := ih (pos + 1) (cnt + 1) (by omega)
          refine ⟨h1, fun p n e => ⟨?_, fun h _ => ?_⟩⟩
          · have := (h2 p n e).1
            omega
          · have h3 := h q (List.mem_of_getElem? hq)
            simp only [eqU8Char, Bool.and_eq_true, decide_eq_true_eq] at hab
            exact absurd (hab.1 ▸ List.mem_of_getElem? hc) h3
        · rw [if_neg hab, if_neg hab]
          refine ⟨rfl, fun p n e => ?_⟩
          simp only [Option.some.injEq, Prod.mk.injEq] at e
          omega

theorem sundayLoopC_spec (key : List Byte) (pat : List (Nat × Byte)) (td1 : List Nat) (td2 : Option (List Nat)) (text : List Byte)
    (hl : key.length ≤ text.length) (hne : 0 < key.length) (h2d : ∀ t, td2 = some t → ∀ p d : Nat, p ≤ key.length → t[p]? = some d → d ≤ key.length) : ∀ (m i : Nat) (acc : List Nat) (cnt : Nat), text.length - key.length + 1 - i ≤ m →
    (sundayLoopC key pat td1 td2 text i acc cnt).map Prod.fst = sundayLoop key pat td1 td2 text i acc ∧
    ∀ r n, sundayLoopC key pat td1 td2 text i acc cnt = some (r, n) → n ≤ cnt + key.length * (text.length - key.length + 1 - i) ∧
      ((∀ q ∈ pat, q.2 ∉ text) → (∀ c ∈ text, ∀ d, td1[c.toNat]? = some d → d = key.length + 1) → n = cnt + (text.length + 1 - i) / (key.length + 1)) := by
  have hb : sundayBound key text = text.length - key.length := by unfold sundayBound; rw [if_pos hl]
  intro m
  induction m with
  | zero =>
    intro i acc cnt hm
    unfold sundayLoopC sundayLoop
    rw [dif_neg (by omega), dif_neg (by omega)]
    refine ⟨rfl, fun r n e => ?_⟩
    simp only [Option.some.injEq, Prod.mk.injEq] at e
    refine ⟨e.2 ▸ Nat.le_add_right _ _, fun _ _ => ?_⟩
    rw [Nat.div_eq_of_lt (by omega)]
    omega
  | succ m ih =>
    intro i acc cnt hm
    unfold sundayLoopC sundayLoop
    by_cases hi : i ≤ sundayBound key text
    · rw [dif_pos hi, dif_pos hi]
      obtain ⟨h1, h2⟩ := sundayScanC_spec key.length pat text i _ 0 cnt rfl
      rw [← h1]
      have hone : (text.length + 1 - i) / (key.length + 1) = (text.length - key.length - i) / (key.length + 1) + 1 := by
        rw [show text.length + 1 - i = text.length - key.length - i + (key.length + 1) by omega, Nat.add_div_right _ (by omega)]
      have hmul : key.length * (text.length - key.length + 1 - i) = key.length * (text.length - key.length - i) + key.length := by
        rw [show text.length - key.length + 1 - i = text.length - key.length - i + 1 by omega, Nat.mul_succ]
      cases e : sundayScanC key.length pat text i 0 cnt with
      | none => simp
      | some x =>
        obtain ⟨pos, c⟩ := x
        obtain ⟨h3, h4⟩ := h2 pos c e
        dsimp only [Option.map_some]
        by_cases hend : i + key.length = text.length
        · rw [if_pos hend, if_pos hend]
          refine ⟨rfl, fun r n er => ?_⟩
          simp only [Option.some.injEq, Prod.mk.injEq] at er
          refine ⟨by omega, fun ha _ => ?_⟩
          have := h4 ha (by omega)
          rw [hone, show text.length - key.length - i = 0 by omega, Nat.zero_div]
          omega
        · rw [if_neg hend, if_neg hend]
          have hlt : i + key.length < text.length := by omega
          rw [List.getElem?_eq_getElem hlt]
          dsimp only
          cases hd1 : td1[(text[i + key.length]).toNat]? with
          | none => simp
          | some d1 =>
            have step : ∀ d2 : Nat, d2 ≤ key.length →
                ((if _h2 : 0 < max d1 d2 then
                  sundayLoopC key pat td1 td2 text (i + max d1 d2) (if pos = key.length then acc ++ [i] else acc) c else none).map Prod.fst =
                (if _h2 : 0 < max d1 d2 then
                  sundayLoop key pat td1 td2 text (i + max d1 d2) (if pos = key.length then acc ++ [i] else acc) else none)) ∧
                ∀ r n, (if _h2 : 0 < max d1 d2 then
                  sundayLoopC key pat td1 td2 text (i + max d1 d2) (if pos = key.length then acc ++ [i] else acc) c else none) = some (r, n) →
                  n ≤ cnt + key.length * (text.length - key.length + 1 - i) ∧
                  ((∀ q ∈ pat, q.2 ∉ text) → (∀ c ∈ text, ∀ d, td1[c.toNat]? = some d → d = key.length + 1) →
                    n = cnt + (text.length + 1 - i) / (key.length + 1)) := by
              intro d2 hd2
              by_cases h0 : 0 < max d1 d2
              · rw [dif_pos h0, dif_pos h0]
                obtain ⟨h5, h6⟩ := ih (i + max d1 d2) (if pos = key.length then acc ++ [i] else acc) c (by omega)
                refine ⟨h5, fun r n er => ?_⟩
                obtain ⟨h7, h8⟩ := h6 r n er
                constructor
                · have := Nat.mul_le_mul_left key.length (show text.length - key.length + 1 - (i + max d1 d2) ≤ text.length - key.length - i by omega)
                  omega
                · intro ha hs
                  have h9 := h8 ha hs
                  have h10 := h4 ha (by omega)
                  have hd := hs _ (List.getElem_mem hlt) d1 hd1
                  have h12 : text.length + 1 - (i + max d1 d2) = text.length - key.length - i := by omega
                  rw [h12] at h9
                  rw [hone]
                  generalize (text.length - key.length - i) / (key.length + 1) = z at *
                  omega
              · rw [dif_neg h0, dif_neg h0]; simp
            cases td2 with
            | none => exact step 0 (Nat.zero_le _)
            | some t =>
              cases hp : t[pos]? with
              | none => simp [hp]
              | some d2 =>
                dsimp only
                rw [hp]
                exact step d2 (h2d t rfl pos d2 (by omega) hp)
    · rw [dif_neg hi, dif_neg hi]
      refine ⟨rfl, fun r n e => ?_⟩
      simp only [Option.some.injEq, Prod.mk.injEq] at e
      refine ⟨e.2 ▸ Nat.le_add_right _ _, fun _ _ => ?_⟩
      rw [Nat.div_eq_of_lt (by omega)]
      omega

theorem qsBuildLoop_alien (key : List Byte) (c : Byte) (hc : c ∉ key) : ∀ (m i : Nat) (td s : List Nat), key.length - i ≤ m →
    qsBuildLoop key i td = some s → s[c.toNat]? = td[c.toNat]? := by
  intro m
  induction m with
  | zero =>
    intro i td s hm e
    unfold qsBuildLoop at e
    rw [dif_neg (by omega)] at e
    rw [Option.some.inj e]
  | succ m ih =>
    intro i td s hm e
    unfold qsBuildLoop at e
    split at e
    · simp only [Option.bind_eq_bind, Option.bind_eq_some_iff] at e
      obtain ⟨a, ha, x, hx, t, ht, e⟩ := e
      rw [ih (i + 1) t s (by omega) e]
      have hxe : x = a.toNat := by
        unfold charIndex at hx
        split at hx
        · exact (Option.some.inj hx).symm
        · simp at hx
      have hne : x ≠ c.toNat := by
        intro h
        rw [hxe] at h
        exact hc (BitVec.eq_of_toNat_eq h ▸ List.mem_of_getElem? ha)
      unfold wr at ht
      split at ht
      · rw [← Option.some.inj ht, List.getElem?_set_ne hne]
      · simp at ht
    · rw [Option.some.inj e]

/-! ### C95 -/

/-- From a counted search and the search itself to the result with its number of comparisons. -/
theorem counted {α : Type} {f : Option (α × Nat)} {g : Option α} {r : α} (h : f.map Prod.fst = g) (hr : g = some r) : ∃ n, f = some (r, n) := by
  rw [hr, Option.map_eq_some_iff] at h
  obtain ⟨⟨a, n⟩, e, rfl⟩ := h
  exact ⟨n, e⟩

/-- Simple: at most `m` comparisons for each of the `n - m + 1` places. -/
theorem C95_simple (text key : List Byte) : ∃ r n, simpleC text key = some (r, n) ∧ simple text key = some r ∧
    n ≤ key.length * (text.length + 1 - key.length) := by
  obtain ⟨r, e, _⟩ := C48_simple text key
  have h : (simpleC text key).map Prod.fst = simple text key ∧ ∀ r n, simpleC text key = some (r, n) → n ≤ key.length * (text.length + 1 - key.length) := by
    unfold simpleC simple
    by_cases hl : text.length < key.length
    · rw [if_pos hl, if_pos hl]
      refine ⟨rfl, fun r n e => ?_⟩
      simp only [Option.some.injEq, Prod.mk.injEq] at e
      omega
    · rw [if_neg hl, if_neg hl]
      obtain ⟨h1, h2⟩ := simpleLoopC_spec key text _ 0 [] 0 rfl
      refine ⟨h1, fun r n e => ?_⟩
      have := h2 r n e
      rw [show text.length + 1 - key.length = text.length - key.length + 1 - 0 by omega]
      omega
  obtain ⟨n, en⟩ := counted h.1 e
  exact ⟨r, n, en, e, h.2 r n en⟩

/-- Simple, exactly: at each of the `n - m + 1` places the characters that agree and the first that does not, if there is one. -/
theorem C95_simple_exact (text key : List Byte) (hl : key.length ≤ text.length) : ∃ r, simple text key = some r ∧
    simpleC text key = some (r, ((List.range (text.length + 1 - key.length)).map (fun i => min key.length (agree key text i + 1))).sum) := by
  obtain ⟨r, n, e, e', _⟩ := C95_simple text key
  refine ⟨r, e', ?_⟩
  rw [e]
  unfold simpleC at e
  rw [if_neg (by omega)] at e
  rw [simpleLoopC_exact key text hl _ 0 [] 0 rfl r n e, List.range_eq_range', show text.length - key.length + 1 - 0 = text.length + 1 - key.length by omega]
  simp

/-- A key whose first character differs from all of the text is compared once at each place; a longer prefix costs more. -/
example : (List.range 5).map (agree [97#8, 98#8] [97#8, 98#8, 97#8, 97#8, 98#8, 99#8]) = [2, 0, 1, 2, 0] ∧
    (simpleC [97#8, 98#8, 97#8, 97#8, 98#8, 99#8] [97#8, 98#8]).map Prod.snd = some 8 := by
  decide +kernel

/-- BM: the same bound; and if no character of the text occurs in the key, exactly one comparison for every `m` characters. -/
theorem C95_bm (text key : List Byte) (hne : key ≠ []) (hk : ∀ c ∈ key, c.toNat < 128) (ht : ∀ c ∈ text, c.toNat < 128) :
    ∃ r n, bmC text key = some (r, n) ∧ bm text key = some r ∧ n ≤ key.length * (text.length + 1 - key.length) ∧
      ((∀ c ∈ text, c ∉ key) → n = text.length / key.length) := by
  have hpos := List.length_pos_iff.2 hne
  obtain ⟨r, e, _⟩ := C50_bm text key hne hk ht
  have e' := e
  unfold bm at e'
  rw [Option.bind_eq_bind, Option.bind_eq_some_iff] at e'
  obtain ⟨skip, es, el⟩ := e'
  obtain ⟨h1, h2⟩ := bmLoopC_spec key text skip hpos _ (key.length - 1) [] 0 (Nat.le_refl _)
  obtain ⟨n, en⟩ := counted h1 el
  obtain ⟨h3, h4⟩ := h2 r n en
  refine ⟨r, n, by simp only [bmC, es, Option.bind_eq_bind, Option.bind_some, en], e, ?_, ?_⟩
  · rw [show text.length + 1 - key.length = text.length - (key.length - 1) by omega]
    omega
  · intro ha
    have h5 := h4 ha (by
      intro c hc d hd
      unfold bmBuild at es
      rw [if_neg hne] at es
      rw [bmBuildLoop_alien key c (ha c hc) _ 0 _ _ (Nat.le_refl _) es, List.getElem?_replicate] at hd
      split at hd
      · exact (Option.some.inj hd).symm
      · simp at hd)
    rw [show text.length + key.length - 1 - (key.length - 1) = text.length by omega] at h5
    omega

/-- SundayQS: the same bound; and if no character of the text occurs in the key, exactly one comparison for every `m + 1` characters. -/
theorem C95_qs (text key : List Byte) (hne : key ≠ []) (hl : key.length ≤ text.length) (hk : ∀ c ∈ key, c.toNat < 128)
    (ht : ∀ c ∈ text, c.toNat < 255) :
    ∃ r n, qsC text key = some (r, n) ∧ qs text key = some r ∧ n ≤ key.length * (text.length + 1 - key.length) ∧
      ((∀ c ∈ text, c ∉ key) → n = (text.length + 1) / (key.length + 1)) := by
  obtain ⟨r, e, _⟩ := C51_qs text key hne hl hk ht
  have e' := e
  unfold qs at e'
  simp only [Option.bind_eq_bind, Option.bind_eq_some_iff] at e'
  obtain ⟨pat, ep, td1, e1, el⟩ := e'
  rw [if_neg hne] at el
  obtain ⟨pat', ep', hp⟩ := pattern_spec key
  rw [ep] at ep'
  cases ep'
  obtain ⟨h1, h2⟩ := sundayLoopC_spec key pat td1 none text hl (List.length_pos_iff.2 hne) (fun _ h => nomatch h) _ 0 [] 0 (Nat.le_refl _)
  obtain ⟨n, en⟩ := counted h1 el
  obtain ⟨h3, h4⟩ := h2 r n en
  refine ⟨r, n, by simp only [qsC, ep, e1, Option.bind_eq_bind, Option.bind_some, if_neg hne, en], e, ?_, ?_⟩
  · rw [show text.length + 1 - key.length = text.length - key.length + 1 - 0 by omega]
    omega
  · intro ha
    have h5 := h4 (fun q hq hm => ha _ hm (List.mem_of_getElem? (hp.sound q hq))) (by
      intro c hc d hd
      unfold qsBuild at e1
      rw [qsBuildLoop_alien key c (ha c hc) _ 0 _ _ (Nat.le_refl _) e1, List.getElem?_replicate] at hd
      split at hd
      · exact (Option.some.inj hd).symm
      · simp at hd)
    simpa using h5

/-- SundayMS: the same two bounds. -/
theorem C95_ms (text key : List Byte) (hne : key ≠ []) (hl : key.length ≤ text.length) (hk : ∀ c ∈ key, c.toNat < 128)
    (ht : ∀ c ∈ text, c.toNat < 255) :
    ∃ r n, msC text key = some (r, n) ∧ ms text key = some r ∧ n ≤ key.length * (text.length + 1 - key.length) ∧
      ((∀ c ∈ text, c ∉ key) → n = (text.length + 1) / (key.length + 1)) := by
  obtain ⟨r, e, _⟩ := C52_ms text key hne hl hk ht
  have e' := e
  unfold ms at e'
  simp only [Option.bind_eq_bind, Option.bind_eq_some_iff] at e'
  obtain ⟨pat, ep, td1, e1, td2, e2, el⟩ := e'
  rw [if_neg hne] at el
  obtain ⟨pat', ep', hp⟩ := pattern_spec key
  rw [ep] at ep'
  cases ep'
  obtain ⟨t, et, hd⟩ := msBuild_exact key (List.length_pos_iff.2 hne) hk pat hp
  rw [e2] at et
  cases et
  obtain ⟨h1, h2⟩ := sundayLoopC_spec key pat td1 (some td2) text hl (List.length_pos_iff.2 hne) (by
    intro t ht p d hp hpd
    cases ht
    obtain ⟨d', ed, ⟨_, h, _⟩, _⟩ := hd p hp
    rw [hpd] at ed
    cases ed
    exact h) _ 0 [] 0 (Nat.le_refl _)
  obtain ⟨n, en⟩ := counted h1 el
  obtain ⟨h3, h4⟩ := h2 r n en
  refine ⟨r, n, by simp only [msC, ep, e1, e2, Option.bind_eq_bind, Option.bind_some, if_neg hne, en], e, ?_, ?_⟩
  · rw [show text.length + 1 - key.length = text.length - key.length + 1 - 0 by omega]
    omega
  · intro ha
    have h5 := h4 (fun q hq hm => ha _ hm (List.mem_of_getElem? (hp.sound q hq))) (by
      intro c hc d hd
      unfold qsBuild at e1
      rw [qsBuildLoop_alien key c (ha c hc) _ 0 _ _ (Nat.le_refl _) e1, List.getElem?_replicate] at hd
      split at hd
      · exact (Option.some.inj hd).symm
      · simp at hd)
    simpa using h5

example := C95_bm (List.replicate 7 98#8) [97#8, 99#8, 97#8] (by decide) (by decide) (by decide)
example := C95_qs (List.replicate 7 98#8) [97#8, 99#8, 97#8] (by decide) (by decide) (by decide) (by decide)
example := C95_ms (List.replicate 7 98#8) [97#8, 99#8, 97#8] (by decide) (by decide) (by decide) (by decide)

/-- The bound is reached by a run of one character, for which all four make `m * (n - m + 1)` comparisons. -/
theorem C95_tight : (simpleC (List.replicate 6 97#8) [97#8, 97#8, 97#8]).map Prod.snd = some 12 ∧ (bmC (List.replicate 6 97#8) [97#8, 97#8, 97#8]).map Prod.snd = some 12 ∧
    (qsC (List.replicate 6 97#8) [97#8, 97#8, 97#8]).map Prod.snd = some 12 ∧ (msC (List.replicate 6 97#8) [97#8, 97#8, 97#8]).map Prod.snd = some 12 := by
  decide +kernel

/-- Seven characters that do not occur in a key of three: two comparisons. -/
example : (bmC (List.replicate 7 98#8) [97#8, 99#8, 97#8]).map Prod.snd = some 2 ∧ (qsC (List.replicate 7 98#8) [97#8, 99#8, 97#8]).map Prod.snd = some 2 ∧
    (msC (List.replicate 7 98#8) [97#8, 99#8, 97#8]).map Prod.snd = some 2 := by
  decide +kernel

end Verif.PM
