/-
Helper facts for the counts of the BOM and Turbo-BOM searches.
-/
import Verif.FO.Cost
import Verif.FO.Turbo
import Verif.PM.PropsCost

namespace Verif.FO
open PM (Byte Occ NextOk)

theorem bomBackC_spec (o : Oracle) (past : Option Byte) (text : List Byte) : ∀ (n st p cnt : Nat), n ≤ p →
    (bomBackC o past text n st p cnt).map Prod.fst = bomBack o past text n st p ∧
    ∀ q k, bomBackC o past text n st p cnt = some (q, k) → p - n ≤ q ∧ q ≤ p ∧ k = cnt + (p - q) + (if q = p - n then 0 else 1) := by
  intro n
  induction n with
  | zero =>
    intro st p cnt _
    refine ⟨rfl, fun q k e => ?_⟩
    simp only [bomBackC, Option.some.injEq, Prod.mk.injEq] at e
    obtain ⟨rfl, rfl⟩ := e
    simp
  | succ n ih =>
    intro st p cnt hp
    unfold bomBackC bomBack
    cases text[p - 1]? with
    | none => simp
    | some c =>
      simp only [Option.bind_eq_bind, Option.bind_some]
      cases o.image past st c with
      | none => simp
      | some t =>
        cases t with
        | none =>
          refine ⟨rfl, fun q k e => ?_⟩
          simp only [Option.some.injEq, Prod.mk.injEq] at e
          obtain ⟨rfl, rfl⟩ := e
          rw [if_neg (by omega)]
          omega
        | some t =>
          obtain ⟨h1, h2⟩ := ih t (p - 1) (cnt + 1) (by omega)
          refine ⟨h1, fun q k e => ?_⟩
          obtain ⟨h3, h4, h5⟩ := h2 q k e
          refine ⟨by omega, by omega, ?_⟩
          rw [h5]
          by_cases hq : q = p - 1 - n
          · rw [if_pos hq, if_pos (by omega)]; omega
          · rw [if_neg hq, if_neg (by omega)]; omega

theorem bomLoopC_spec (o : Oracle) (past : Option Byte) (text : List Byte) (m : Nat) : ∀ (M i : Nat) (acc : List Nat) (cnt : Nat), text.length - i ≤ M →
    m ≤ i + 1 →
    (bomLoopC o past text m i acc cnt).map Prod.fst = bomLoop o past text m i acc ∧
    ∀ r k, bomLoopC o past text m i acc cnt = some (r, k) → k ≤ cnt + m * (text.length - i) ∧ cnt + m * r.length ≤ k + m * acc.length := by
  intro M
  induction M with
  | zero =>
    intro i acc cnt hM hm
    unfold bomLoopC bomLoop
    rw [dif_neg (by omega), dif_neg (by omega)]
    refine ⟨rfl, fun r k e => ?_⟩
    simp only [Option.some.injEq, Prod.mk.injEq] at e
    obtain ⟨rfl, rfl⟩ := e
    exact ⟨Nat.le_add_right _ _, Nat.le_refl _⟩
  | succ M ih =>
    intro i acc cnt hM hm
    unfold bomLoopC bomLoop
    by_cases hi : i < text.length
    · rw [dif_pos hi, dif_pos hi]
      obtain ⟨h1, h2⟩ := bomBackC_spec o past text m 0 (i + 1) cnt hm
      rw [← h1]
      have hmul : m * (text.length - i) = m * (text.length - i - 1) + m := by
        rw [show text.length - i = text.length - i - 1 + 1 by omega, Nat.mul_succ, Nat.add_sub_cancel]
      cases e : bomBackC o past text m 0 (i + 1) cnt with
      | none => simp
      | some x =>
        obtain ⟨p, c⟩ := x
        obtain ⟨h3, h4, h5⟩ := h2 p c e
        dsimp only [Option.map_some]
        by_cases hp : p + m = i + 1
        · rw [if_pos hp, if_pos hp]
          rw [if_pos (by omega)] at h5
          obtain ⟨h6, h7⟩ := ih (i + 1) (acc ++ [i + 1 - m]) c (by omega) (by omega)
          refine ⟨h6, fun r k er => ?_⟩
          obtain ⟨h8, h9⟩ := h7 r k er
          rw [List.length_append, List.length_singleton, Nat.mul_succ] at h9
          rw [show text.length - (i + 1) = text.length - i - 1 by omega] at h8
          omega
        · rw [if_neg hp, if_neg hp]
          rw [if_neg (by omega)] at h5
          by_cases h0 : i < p - 1 + m
          · rw [dif_pos h0, dif_pos h0]
            obtain ⟨h6, h7⟩ := ih (p - 1 + m) acc c (by omega) (by omega)
            refine ⟨h6, fun r k er => ?_⟩
            obtain ⟨h8, h9⟩ := h7 r k er
            have := Nat.mul_le_mul_left m (show text.length - (p - 1 + m) ≤ text.length - i - 1 by omega)
            omega
          · rw [dif_neg h0, dif_neg h0]; simp
    · rw [dif_neg hi, dif_neg hi]
      refine ⟨rfl, fun r k e => ?_⟩
      simp only [Option.some.injEq, Prod.mk.injEq] at e
      obtain ⟨rfl, rfl⟩ := e
      exact ⟨Nat.le_add_right _ _, Nat.le_refl _⟩

/-- The first call of `image` for a character that is not in the key. -/
theorem image_alien (rkey : List Byte) (s : Builder) (lrs : List Nat) (h : LI rkey rkey.length lrs s) (hne : rkey ≠ []) (past : Option Byte) (c : Byte)
    (hc : c ∉ rkey) : (fin s).image past 0 c = some none := by
  have hl := List.length_pos_iff.2 hne
  rcases image_spec rkey s lrs h past 0 (Nat.zero_le _) c (fun e => by omega) with ⟨t, _, hd, ht⟩ | ⟨e, _⟩
  · exfalso
    have h0 : 0 < t := D_lt h.inv hd
    have hck : ck rkey t = c.toNat := by
      rcases hd with ⟨h1, h2⟩ | ⟨_, _, _, _, _, _, _, h1⟩
      · rw [h2, ← h.check]; exact h1
      · rw [← h.check]; exact h1
    unfold ck checkAt at hck
    rw [if_neg (by omega), List.getElem?_eq_getElem (by omega)] at hck
    simp only [Option.map_some, Option.getD_some] at hck
    exact hc (BitVec.eq_of_toNat_eq hck ▸ List.getElem_mem _)
  · exact e

/-- A text without characters of the key: one call for every window. -/
theorem bomLoopC_alien (o : Oracle) (past : Option Byte) (text : List Byte) (m : Nat) (hm : 0 < m) (ha : ∀ c ∈ text, o.image past 0 c = some none) :
    ∀ (M i : Nat) (acc : List Nat) (cnt : Nat), text.length - i ≤ M → m ≤ i + 1 →
    bomLoopC o past text m i acc cnt = some (acc, cnt + (text.length + m - 1 - i) / m) := by
  intro M
  induction M with
  | zero =>
    intro i acc cnt hM _
    unfold bomLoopC
    rw [dif_neg (by omega), Nat.div_eq_of_lt (by omega), Nat.add_zero]
  | succ M ih =>
    intro i acc cnt hM hmi
    by_cases hi : i < text.length
    · obtain ⟨m, rfl⟩ : ∃ m', m = m' + 1 := ⟨m - 1, by omega⟩
      have hb : bomBackC o past text (m + 1) 0 (i + 1) cnt = some (i + 1, cnt + 1) := by
        unfold bomBackC
        rw [Nat.add_sub_cancel, List.getElem?_eq_getElem hi]
        dsimp only
        rw [ha _ (List.getElem_mem hi)]
      unfold bomLoopC
      rw [dif_pos hi, hb]
      dsimp only
      rw [if_neg (by omega), dif_pos (by omega), ih _ _ _ (by omega) (by omega),
        show text.length + (m + 1) - 1 - i = text.length - 1 - i + (m + 1) by omega, Nat.add_div_right _ (by omega),
        show text.length + (m + 1) - 1 - (i + 1 - 1 + (m + 1)) = text.length - 1 - i by omega]
      congr 2
      omega
    · unfold bomLoopC
      rw [dif_neg hi, Nat.div_eq_of_lt (by omega), Nat.add_zero]

theorem kmpSearchC_spec (key : List Byte) (past : Option Byte) (next : List Int) : ∀ (l : List Byte) (pos : Int) (cnt : Nat), -1 ≤ pos →
    (kmpSearchC key past next l pos cnt).map Prod.fst = kmpSearch key past next l pos ∧
    ∀ p n, kmpSearchC key past next l pos cnt = some (p, n) → (n : Int) + p ≤ cnt + pos + 2 * l.length := by
  intro l
  induction l with
  | nil =>
    intro pos cnt _
    refine ⟨rfl, fun p n e => ?_⟩
    simp only [kmpSearchC, Option.some.injEq, Prod.mk.injEq] at e
    obtain ⟨rfl, rfl⟩ := e
    simp
  | cons c l ih =>
    intro pos cnt hpos
    unfold kmpSearchC kmpSearch
    obtain ⟨h1, h2⟩ := PM.kmpBackC_spec key past next c _ pos cnt rfl hpos
    rw [← h1]
    cases e : PM.kmpBackC key past next c pos cnt with
    | none => simp
    | some x =>
      obtain ⟨q, k⟩ := x
      obtain ⟨h3, h4⟩ := h2 q k e
      obtain ⟨h5, h6⟩ := ih (q + 1) k (by omega)
      simp only [Option.map_some, Option.bind_eq_bind, Option.bind_some]
      refine ⟨h5, fun p n e => ?_⟩
      have := h6 p n e
      rw [List.length_cons]
      omega

/-- The state of the search: `crit - begin` characters of the key are known to stand before `crit`. -/
theorem turboLoopC_spec (key text : List Byte) (hk : key ≠ []) (s : Builder) (lrs : List Nat)
    (h : LI key.reverse key.reverse.length lrs s) (g1 g2 : Byte) (hg1 : g1 ∉ text) (hg2 : g2 ∉ text) (next : List Int)
    (hn : ∀ j, j ≤ key.length → ∃ p, next[j]? = some p ∧ NextOk (fun j => key[j]?) j p) :
    ∀ (M back crit : Nat) (acc : List Nat) (a0 b0 : Nat), (text.length - back) * (text.length + 2) + (text.length + 1 - crit) ≤ M →
    key.length ≤ back + 1 → crit ≤ back + 1 →
    (back < text.length → back + 1 - key.length < crit → Ends key text crit (crit - (back + 1 - key.length))) →
    ∃ (r : List Nat) (a b I : Nat), turboLoopC (fin s) (some g1) (some g2) next key text (key.length / 2) back crit acc a0 b0 = some (r, a, b) ∧
      turboLoop (fin s) (some g1) (some g2) next key text (key.length / 2) back crit acc = some r ∧
      a0 + key.length * r.length ≤ a + key.length * acc.length ∧ a + key.length * acc.length ≤ a0 + key.length * (I + r.length) ∧
      b + key.length * acc.length ≤ b0 + (crit - (back + 1 - key.length)) + 2 * (key.length / 2) * I + key.length * r.length ∧
      (back < text.length → crit + key.length / 2 * I ≤ text.length + key.length / 2) ∧ (¬ back < text.length → I = 0) := by
  have hkp : 0 < key.length := List.length_pos_iff.2 hk
  have hrl : key.reverse.length = key.length := List.length_reverse
  intro M
  induction M with
  | zero =>
    intro back crit acc a0 b0 hM hb hc _
    have : ¬ back < text.length := by
      intro hlt
      have : 0 < (text.length - back) * (text.length + 2) := Nat.mul_pos (by omega) (by omega)
      omega
    unfold turboLoopC turboLoop
    rw [dif_neg this, dif_neg this]
    exact ⟨acc, a0, b0, 0, rfl, rfl, by omega, by rw [Nat.zero_add]; omega, by omega, by omega, fun _ => rfl⟩
  | succ M ih =>
    intro back crit acc a0 b0 hM hb hc hI
    unfold turboLoopC turboLoop
    by_cases hlt : back < text.length
    · rw [dif_pos hlt, dif_pos hlt]
      obtain ⟨pos, ep, hp1, hp2, ⟨u, hu⟩, hp4⟩ := bomBack_spec text key.reverse s lrs h g1 hg1 key.length 0 (back + 1) hb (by omega) (by omega)
      obtain ⟨hC1, hC2⟩ := bomBackC_spec (fin s) (some g1) text key.length 0 (back + 1) a0 hb
      rw [ep] at hC1 ⊢
      obtain ⟨⟨pos', a1⟩, eC, e0⟩ := Option.map_eq_some_iff.1 hC1
      simp only at e0
      subst e0
      obtain ⟨-, -, ha1⟩ := hC2 _ _ eC
      rw [eC]
      simp only
      have hmis : pos' + key.length ≠ back + 1 → ¬ Occ key text (back + 1 - key.length) := by
        intro hne ho
        rcases hp4 with e | e
        · omega
        · obtain ⟨t, ht⟩ := Occ_reads key text s lrs h (back + 1 - key.length) (pos' - 1) (back + 1) ho (by omega) (by omega) (by omega)
          exact e t ht
      by_cases hm : pos' + key.length = back + 1
      · rw [if_pos hm, if_pos hm]
        rw [if_pos (by omega)] at ha1
        have hbl := back_length text pos' (back + 1) (by omega)
        have ho : Occ key text (back + 1 - key.length) := by
          have hfull := (Reads_len (text := key.reverse) h.inv h.check _ _ _ (Nat.zero_le _) hu).2 (by omega)
          simp only [List.drop_zero] at hfull
          have he : (text.take (back + 1)).drop pos' = key := by
            have := congrArg List.reverse hfull
            simpa [FO.back] using this
          refine ⟨by omega, fun t ht => ?_⟩
          have e2 : ((text.take (back + 1)).drop pos')[t]? = key[t]? := by rw [he]
          rw [List.getElem?_drop, List.getElem?_take, if_pos (by omega)] at e2
          rw [← e2]
          congr 1
          omega
        obtain ⟨n, en, hn1, hn2, _, hn4⟩ := hn key.length (Nat.le_refl _)
        rw [en]
        simp only
        rw [dif_pos (by omega), dif_pos (by omega)]
        obtain ⟨r, a, b, I, e1, e2, i1, i2, i3, i4, i5⟩ := ih (back + (key.length - n).toNat) (back + 1) (acc ++ [back + 1 - key.length]) a1 b0 (by
            have := lex_lt (a := back) (a' := back + (key.length - n).toNat) (n := text.length) (c := crit) (c' := back + 1) (Or.inl (by omega))
            omega) (by omega) (by omega) (by
          intro _ hlt'
          rcases hn4 with e | ⟨hbd, _⟩
          · omega
          · refine ⟨by omega, by omega, fun t ht => ?_⟩
            have e1 := hbd.2 t (by omega)
            simp only at e1
            rw [e1, ← ho.2 (key.length - n.toNat + t) (by omega)]
            congr 1
            omega)
        rw [List.length_append, List.length_singleton, Nat.mul_succ] at i1 i2 i3
        refine ⟨r, a, b, I, e1, e2, by omega, by omega, ?_, fun _ => ?_, fun h => absurd hlt h⟩
        · have : back + 1 - (back + (key.length - n).toNat + 1 - key.length) ≤ key.length := by omega
          generalize 2 * (key.length / 2) * I = z at *
          omega
        · by_cases hb' : back + (key.length - n).toNat < text.length
          · have := i4 hb'
            generalize key.length / 2 * I = z at *
            omega
          · rw [i5 hb', Nat.mul_zero]
            omega
      · have hsub : ¬ max pos' crit > text.length := by omega
        rw [if_neg hm, if_neg hm, if_neg hsub, if_neg hsub]
        clear hsub
        rw [if_neg (by omega)] at ha1
        have hno := hmis hm
        have hpre : ∃ pre : Nat, (if pos' > crit then (0 : Int) else crit + key.length - (back + 1)) = pre ∧
            Ends key text (max pos' crit) pre ∧ (pos' > crit → pre = 0) ∧ (¬ pos' > crit → crit = back + 1 - key.length + pre) := by
          by_cases hpc : pos' > crit
          · exact ⟨0, by rw [if_pos hpc]; rfl, ⟨by omega, by omega, fun t ht => by omega⟩, fun _ => rfl, fun h => absurd hpc h⟩
          · refine ⟨crit - (back + 1 - key.length), by rw [if_neg hpc]; omega, ?_, fun h => absurd h hpc, fun _ => by omega⟩
            rw [show max pos' crit = crit by omega]
            by_cases hlt2 : back + 1 - key.length < crit
            · exact hI hlt hlt2
            · rw [show crit - (back + 1 - key.length) = 0 by omega]
              exact ⟨by omega, by omega, fun t ht => by omega⟩
        obtain ⟨pre, epre, hE, hpre1, hpre2⟩ := hpre
        simp only [epre]
        obtain ⟨r, er, hr1, hr2⟩ := kmpSearch_spec key text g2 hg2 next hn (key.length / 2) (max pos' crit) pre hE
        obtain ⟨hK1, hK2⟩ := kmpSearchC_spec key (some g2) next ((text.drop (max pos' crit)).take (key.length / 2)) pre b0 (by omega)
        rw [er] at hK1 ⊢
        obtain ⟨⟨r', b1⟩, eK, e0⟩ := Option.map_eq_some_iff.1 hK1
        simp only at e0
        subst e0
        have hb1 := hK2 _ _ eK
        have hll : ((text.drop (max pos' crit)).take (key.length / 2)).length ≤ key.length / 2 := by rw [List.length_take]; omega
        rw [eK]
        simp only
        have hrm : r ≤ key.length := hr2.2.1
        have hw : crit = back + 1 → ¬ pos' > crit → False := by
          intro e1 e2
          apply hno
          have hE' := hE
          rw [show max pos' crit = back + 1 by omega, show pre = key.length by omega] at hE'
          refine ⟨by omega, fun t ht => hE'.2.2 t ht⟩
        have hprog : back < max pos' crit + key.length / 2 + key.length - r - 1 ∨
            (max pos' crit + key.length / 2 + key.length - r - 1 = back ∧ crit < max pos' crit + key.length / 2) := by
          by_cases hpc : pos' > crit
          · have := hpre1 hpc
            left; omega
          · have := hpre2 hpc
            by_cases hw0 : key.length / 2 = 0
            · exact absurd hpc (fun hpc => hw (by omega) hpc)
            · omega
        have hcrit : crit ≤ text.length := by omega
        rw [dif_pos (by omega), dif_pos (by omega)]
        have hb' : (((max pos' crit : Nat) : Int) + ((key.length / 2 : Nat) : Int) - (r : Int) + (key.length : Int) - 1).toNat =
            max pos' crit + key.length / 2 + key.length - r - 1 := by omega
        rw [hb']
        obtain ⟨rr, a, b, I, e1, e2, i1, i2, i3, i4, i5⟩ := ih (max pos' crit + key.length / 2 + key.length - r - 1) (max pos' crit + key.length / 2) acc a1 b1 (by
            have := lex_lt (a := back) (a' := max pos' crit + key.length / 2 + key.length - r - 1) (n := text.length) (c := crit)
              (c' := max pos' crit + key.length / 2) (by omega)
            omega) (by omega) (by omega) (by
          intro hlt' hlt2
          have : max pos' crit + key.length / 2 ≤ text.length := by omega
          rw [show min (key.length / 2) (text.length - max pos' crit) = key.length / 2 by omega] at hr2
          rw [show max pos' crit + key.length / 2 - (max pos' crit + key.length / 2 + key.length - r - 1 + 1 - key.length) = r by omega]
          exact hr2)
        have hphi : max pos' crit + key.length / 2 - (max pos' crit + key.length / 2 + key.length - r - 1 + 1 - key.length) = r := by omega
        rw [hphi] at i3
        refine ⟨rr, a, b, I + 1, e1, e2, by omega, ?_, ?_, fun _ => ?_, fun h => absurd hlt h⟩
        · rw [Nat.add_right_comm, Nat.mul_succ]
          generalize key.length * (I + rr.length) = z at *
          omega
        · have hp : pre ≤ crit - (back + 1 - key.length) := by
            by_cases hpc : pos' > crit
            · have := hpre1 hpc
              omega
            · have := hpre2 hpc
              omega
          rw [Nat.mul_succ]
          generalize 2 * (key.length / 2) * I = z at *
          generalize ((text.drop (max pos' crit)).take (key.length / 2)).length = ll at *
          omega
        · rw [Nat.mul_succ]
          by_cases hbn : max pos' crit + key.length / 2 + key.length - r - 1 < text.length
          · have := i4 hbn
            generalize key.length / 2 * I = z at *
            omega
          · rw [i5 hbn, Nat.mul_zero]
            omega
    · rw [dif_neg hlt, dif_neg hlt]
      exact ⟨acc, a0, b0, 0, rfl, rfl, by omega, by rw [Nat.zero_add]; omega, by omega, by omega, fun _ => rfl⟩

/-- KMP on characters that differ from the first of the key: one comparison each. -/
theorem kmpSearchC_alien (key : List Byte) (past : Option Byte) (next : List Int) (h0 : next[0]? = some (-1)) (hk : key ≠ []) :
    ∀ (l : List Byte) (cnt : Nat), (∀ c ∈ l, c ∉ key) → kmpSearchC key past next l 0 cnt = some (0, cnt + l.length) := by
  have hl := List.length_pos_iff.2 hk
  intro l
  induction l with
  | nil => intro cnt _; rfl
  | cons c l ih =>
    intro cnt ha
    have hb : PM.kmpBackC key past next c 0 cnt = some (-1, cnt + 1) := by
      unfold PM.kmpBackC
      rw [dif_pos (by omega)]
      have hka : PM.keyAt key past (0 : Int).toNat = some key[0] := by
        unfold PM.keyAt
        rw [Int.toNat_zero, if_pos hl, List.getElem?_eq_getElem hl]
      rw [hka]
      dsimp only
      have hc : key[0] ≠ c := fun e => ha c (by simp) (e ▸ List.getElem_mem hl)
      rw [if_pos hc, Int.toNat_zero, h0]
      dsimp only
      rw [dif_pos (by omega)]
      unfold PM.kmpBackC
      rw [dif_neg (by omega)]
    unfold kmpSearchC
    rw [hb]
    dsimp only
    rw [show (-1 : Int) + 1 = 0 by omega, ih _ (fun c hc => ha c (by simp [hc])), List.length_cons]
    congr 2
    omega

/-- A text without characters of the key: one call for every window and a half. -/
theorem turboLoopC_alien (o : Oracle) (past1 past2 : Option Byte) (next : List Int) (h0 : next[0]? = some (-1)) (key text : List Byte) (hk : key ≠ []) (w : Nat)
    (ha : ∀ c ∈ text, c ∉ key) (hi : ∀ c ∈ text, o.image past1 0 c = some none) :
    ∀ (M back crit : Nat) (acc : List Nat) (a b : Nat), text.length - back ≤ M → key.length ≤ back + 1 → crit ≤ back →
    ∃ b', turboLoopC o past1 past2 next key text w back crit acc a b = some (acc, a + (text.length + (key.length + w) - 1 - back) / (key.length + w), b') ∧
      b' ≤ b + w * ((text.length + (key.length + w) - 1 - back) / (key.length + w)) := by
  have hl := List.length_pos_iff.2 hk
  intro M
  induction M with
  | zero =>
    intro back crit acc a b hM _ _
    unfold turboLoopC
    rw [dif_neg (by omega), Nat.div_eq_of_lt (by omega)]
    exact ⟨b, rfl, by omega⟩
  | succ M ih =>
    intro back crit acc a b hM hb hc
    by_cases hlt : back < text.length
    · have eb : bomBackC o past1 text key.length 0 (back + 1) a = some (back + 1, a + 1) := by
        obtain ⟨m, hm⟩ : ∃ m, key.length = m + 1 := ⟨key.length - 1, by omega⟩
        rw [hm]
        unfold bomBackC
        rw [Nat.add_sub_cancel, List.getElem?_eq_getElem hlt]
        dsimp only
        rw [hi _ (List.getElem_mem hlt)]
      unfold turboLoopC
      rw [dif_pos hlt, eb]
      dsimp only
      have ek := kmpSearchC_alien key past2 next h0 hk ((text.drop (max (back + 1) crit)).take w) b
        (fun c hc => ha c (List.mem_of_mem_drop (List.mem_of_mem_take hc)))
      rw [if_neg (by omega), if_neg (by omega), if_pos (by omega), ek]
      dsimp only
      rw [dif_pos (by omega)]
      have e1 : (((max (back + 1) crit : Nat) : Int) + (w : Int) - 0 + (key.length : Int) - 1).toNat = back + (key.length + w) := by omega
      rw [e1, show max (back + 1) crit = back + 1 by omega]
      have hll : ((text.drop (back + 1)).take w).length ≤ w := by rw [List.length_take]; omega
      obtain ⟨b', e2, hb'⟩ := ih (back + (key.length + w)) (back + 1 + w) acc (a + 1) (b + ((text.drop (back + 1)).take w).length) (by omega) (by omega) (by omega)
      rw [show text.length + (key.length + w) - 1 - back = text.length - 1 - back + (key.length + w) by omega, Nat.add_div_right _ (by omega)]
      rw [show text.length + (key.length + w) - 1 - (back + (key.length + w)) = text.length - 1 - back by omega] at e2 hb'
      refine ⟨b', by rw [e2]; congr 3; omega, ?_⟩
      rw [Nat.mul_succ]
      omega
    · unfold turboLoopC
      rw [dif_neg hlt, Nat.div_eq_of_lt (by omega)]
      exact ⟨b, rfl, by omega⟩

end Verif.FO
