/-
Helper facts for the Turbo-BOM search: a text in which an occurrence is missed, for every key that is too periodic.
-/
import Verif.FO.TurboFull

namespace Verif.FO

open PM (Byte Occ NextOk)

/-- What the search reports from now on begins at the window or after it. -/
theorem turboLoop_ge (o : Oracle) (p1 p2 : Option Byte) (next : List Int) (key text : List Byte) (w : Nat) : ∀ (M back crit : Nat) (acc r : List Nat),
    (text.length - back) * (text.length + 2) + (text.length + 1 - crit) ≤ M →
    turboLoop o p1 p2 next key text w back crit acc = some r → ∀ x ∈ r, x ∈ acc ∨ back + 1 - key.length ≤ x := by
  intro M
  induction M with
  | zero =>
    intro back crit acc r hM h x hx
    have : ¬ back < text.length := by
      intro hlt
      have : 0 < (text.length - back) * (text.length + 2) := Nat.mul_pos (by omega) (by omega)
      omega
    unfold turboLoop at h
    rw [dif_neg this] at h
    cases h
    exact Or.inl hx
  | succ M ih =>
    intro back crit acc r hM h x hx
    unfold turboLoop at h
    by_cases hlt : back < text.length
    · rw [dif_pos hlt] at h
      cases hp : bomBack o p1 text key.length 0 (back + 1) with
      | none => rw [hp] at h; cases h
      | some pos =>
        rw [hp] at h
        simp only at h
        by_cases hm : pos + key.length = back + 1
        · rw [if_pos hm] at h
          cases hn : next[key.length]? with
          | none => rw [hn] at h; cases h
          | some n =>
            rw [hn] at h
            simp only at h
            by_cases h2 : n < key.length
            · rw [dif_pos h2] at h
              have := lex_lt (a := back) (a' := back + (key.length - n).toNat) (n := text.length) (c := crit) (c' := back + 1) (Or.inl (by omega))
              rcases ih _ _ _ _ (by omega) h x hx with h3 | h3
              · rw [List.mem_append, List.mem_singleton] at h3
                rcases h3 with h3 | h3
                · exact Or.inl h3
                · exact Or.inr (by omega)
              · exact Or.inr (by omega)
            · rw [dif_neg h2] at h; cases h
        · rw [if_neg hm] at h
          by_cases hsub : max pos crit > text.length
          · rw [if_pos hsub] at h; cases h
          rw [if_neg hsub] at h
          generalize (if pos > crit then (0 : Int) else crit + key.length - (back + 1)) = pre at h
          cases hk : kmpSearch key p2 next ((text.drop (max pos crit)).take w) pre with
          | none => rw [hk] at h; cases h
          | some n =>
            rw [hk] at h
            simp only at h
            by_cases h2 : (back : Int) < (max pos crit : Nat) + w - n + key.length - 1 ∨
                ((back : Int) = (max pos crit : Nat) + w - n + key.length - 1 ∧ crit < max pos crit + w ∧ crit ≤ text.length)
            · rw [dif_pos h2] at h
              have := lex_lt (a := back) (a' := ((max pos crit : Nat) + w - n + key.length - 1 : Int).toNat) (n := text.length) (c := crit)
                (c' := max pos crit + w) (by omega)
              rcases ih _ _ _ _ (by omega) h x hx with h3 | h3
              · exact Or.inl h3
              · exact Or.inr (by omega)
            · rw [dif_neg h2] at h; cases h
    · rw [dif_neg hlt] at h
      cases h
      exact Or.inl hx

/-- One round in a window without an occurrence. -/
theorem turboLoop_round (key text : List Byte) (hk : key ≠ []) (s : Builder) (lrs : List Nat)
    (h : LI key.reverse key.reverse.length lrs s) (g1 g2 : Byte) (hg1 : g1 ∉ text) (hg2 : g2 ∉ text) (next : List Int)
    (hn : ∀ j, j ≤ key.length → ∃ p, next[j]? = some p ∧ NextOk (fun j => key[j]?) j p)
    (back crit : Nat) (acc res : List Nat) (hb : key.length ≤ back + 1) (_hc : crit ≤ back + 1) (hlt : back < text.length)
    (hI : back + 1 - key.length < crit → Ends key text crit (crit - (back + 1 - key.length)))
    (hno : ¬ Occ key text (back + 1 - key.length))
    (hres : turboLoop (fin s) (some g1) (some g2) next key text (key.length / 2) back crit acc = some res) :
    ∃ pos pre r : Nat, back + 1 - key.length < pos ∧ pos ≤ back + 1 ∧ (∃ t, Reads s 0 (FO.back text pos (back + 1)) t) ∧
      (∀ t, ¬ Reads s 0 (FO.back text (pos - 1) (back + 1)) t) ∧
      (pos > crit → pre = 0) ∧ (¬ pos > crit → pre = crit - (back + 1 - key.length)) ∧
      r ≤ pre + key.length / 2 ∧ r ≤ key.length ∧ Ends key text (max pos crit + min (key.length / 2) (text.length - max pos crit)) r ∧
      (max pos crit + key.length / 2 ≤ text.length → ∀ k, k ≤ pre + key.length / 2 → Ends key text (max pos crit + key.length / 2) k → k ≤ r) ∧
      turboLoop (fin s) (some g1) (some g2) next key text (key.length / 2) (max pos crit + key.length / 2 + key.length - r - 1)
        (max pos crit + key.length / 2) acc = some res := by
  have hkp : 0 < key.length := List.length_pos_iff.2 hk
  have hrl : key.reverse.length = key.length := List.length_reverse
  unfold turboLoop at hres
  rw [dif_pos hlt] at hres
  obtain ⟨pos, ep, hp1, hp2, ⟨u, hu⟩, hp4⟩ := bomBack_spec text key.reverse s lrs h g1 hg1 key.length 0 (back + 1) hb (by omega) (by omega)
  rw [ep] at hres
  simp only at hres
  have hm : pos + key.length ≠ back + 1 := by
    intro hm
    apply hno
    have hbl := back_length text pos (back + 1) (by omega)
    have hfull := (Reads_len (text := key.reverse) h.inv h.check _ _ _ (Nat.zero_le _) hu).2 (by omega)
    simp only [List.drop_zero] at hfull
    have he : (text.take (back + 1)).drop pos = key := by
      have := congrArg List.reverse hfull
      simpa [FO.back] using this
    refine ⟨by omega, fun t ht => ?_⟩
    have e2 : ((text.take (back + 1)).drop pos)[t]? = key[t]? := by rw [he]
    rw [List.getElem?_drop, List.getElem?_take, if_pos (by omega)] at e2
    rw [← e2]
    congr 1
    omega
  rw [if_neg hm, if_neg (show ¬ max pos crit > text.length by omega)] at hres
  have hpre : ∃ pre : Nat, (if pos > crit then (0 : Int) else crit + key.length - (back + 1)) = pre ∧
      Ends key text (max pos crit) pre ∧ (pos > crit → pre = 0) ∧ (¬ pos > crit → pre = crit - (back + 1 - key.length)) := by
    by_cases hpc : pos > crit
    · exact ⟨0, by rw [if_pos hpc]; rfl, ⟨by omega, by omega, fun t ht => by omega⟩, fun _ => rfl, fun h => absurd hpc h⟩
    · refine ⟨crit - (back + 1 - key.length), by rw [if_neg hpc]; omega, ?_, fun h => absurd h hpc, fun _ => rfl⟩
      rw [show max pos crit = crit by omega]
      exact hI (by omega)
  obtain ⟨pre, epre, hE, hpre1, hpre2⟩ := hpre
  simp only [epre] at hres
  obtain ⟨r, er, hr1, hr2⟩ := kmpSearch_spec key text g2 hg2 next hn (key.length / 2) (max pos crit) pre hE
  rw [er] at hres
  simp only at hres
  refine ⟨pos, pre, r, by omega, hp2, ⟨u, hu⟩, ?_, hpre1, hpre2, hr1, hr2.2.1, hr2, ?_, ?_⟩
  · rcases hp4 with e | e
    · omega
    · exact e
  · intro hle k hk1 hk2
    obtain ⟨r', er', hr'⟩ := kmpSearch_max key text g2 hg2 next hn (key.length / 2) (max pos crit) pre hE hle
    rw [er] at er'
    have hrr : r = r' := by have := Option.some.inj er'; omega
    rw [hrr]
    exact hr' k hk1 hk2
  · split at hres
    · rw [← hres]
      congr 1
      have := hr2.2.1
      omega
    · cases hres

/-- All symbols that the oracle reads are symbols of its text. -/
theorem Reads_mem {text : List Byte} {s : Builder} (hI : Inv s No) (hck : s.check = text) : ∀ (w : List Byte) (st t : Nat), 
    Reads s st w t → ∀ c ∈ w, c ∈ text := by
  intro w
  induction w with
  | nil => intro st t _ c hc; cases hc
  | cons a w ih =>
    rintro st t ⟨u, hd, hu, hr⟩ c hc
    rcases List.mem_cons.1 hc with e | e
    · subst e
      have hlt := D_lt hI hd
      have hcu : ck s.check u = c.toNat := by
        rcases hd with ⟨h, e⟩ | ⟨_, b, _, _, _, _, _, h⟩
        · rw [e]; exact h
        · exact h
      rw [hck] at hcu hu
      unfold ck checkAt at hcu
      rw [if_neg (by omega), List.getElem?_eq_getElem (by omega)] at hcu
      have : c = text[u - 1]'(by omega) := by
        apply BitVec.eq_of_toNat_eq
        rw [← hcu]
        rfl
      rw [this]
      exact List.getElem_mem _
    · exact ih u t hr c e

/-- The text and the key of a missed occurrence at `s + d`: `m - 1` symbols that are not in the key, `e` symbols, the first `q` symbols of the key
(which have period `d`), and the symbol that continues the period, while the key does not continue it. -/
theorem turbo_miss (key text : List Byte) (s : Builder) (lrs : List Nat)
    (h : LI key.reverse key.reverse.length lrs s) (g1 g2 : Byte) (hg1 : g1 ∉ text) (hg2 : g2 ∉ text) (next : List Int)
    (hn : ∀ j, j ≤ key.length → ∃ p, next[j]? = some p ∧ NextOk (fun j => key[j]?) j p) (z : Byte) (hz : z ∉ key) (q d e : Nat)
    (hq : q < key.length) (hd : 0 < d) (hdq : d + (key.length - key.length / 2) < q) (hper : ∀ t, t + d < q → key[t]? = key[t + d]?)
    (hbr : key[q - d]? ≠ key[q]?) (he : e + q = 2 * (key.length / 2))
    (t1 : ∀ t, t < key.length - 1 → text[t]? = some z) (t2 : text[key.length - 1]? = key[0]?)
    (t3 : Occ key text (key.length - 1 + e + d)) (t4 : ∀ t, t < q → text[key.length - 1 + e + t]? = key[t]?)
    (tl : text.length = key.length - 1 + e + d + key.length) (res : List Nat)
    (hres : turboLoop (fin s) (some g1) (some g2) next key text (key.length / 2) (key.length - 1) 0 [] = some res) :
    key.length - 1 + e + d ∉ res := by
  have hk : key ≠ [] := by intro e; subst e; simp at hq
  have hz0 : ∀ t, t < key.length → key[t]? ≠ some z := by
    intro t ht e
    exact hz (List.mem_of_getElem? e)
  -- no prefix of the key that begins before `s` goes beyond its first `q` symbols
  have hkey : ∀ x k, x < key.length - 1 + e → key.length - 1 ≤ x → q < k → (∀ t, t < k → text[x + t]? = key[t]?) → 
      key.length - 1 + e + q ≤ x + k → False := by
    intro x k h1 h2 h3 h4 h5
    apply hbr
    -- the distance
    obtain ⟨δ, hδ⟩ : ∃ δ, key.length - 1 + e = x + δ := ⟨key.length - 1 + e - x, by omega⟩
    have e1 : key[q]? = key[q - δ]? := by
      rw [← h4 q h3, ← t4 (q - δ) (by omega)]
      congr 1
      omega
    have e2 : key[q - d]? = key[q - d - δ]? := by
      rw [← h4 (q - d) (by omega), ← t4 (q - d - δ) (by omega)]
      congr 1
      omega
    have e3 := hper (q - d - δ) (by omega)
    rw [e1, e2, e3]
    congr 1
    omega
  have hnoS : ¬ Occ key text (key.length - 1 + e) := by
    intro ho
    apply hbr
    rw [← ho.2 q hq, ← t3.2 (q - d) (by omega)]
    congr 1
    omega
  have hnoX : ∀ x, key.length - 1 ≤ x → x ≤ key.length - 1 + e → ¬ Occ key text x := by
    intro x h1 h2 ho
    rcases Nat.lt_or_ge x (key.length - 1 + e) with hx | hx
    · exact hkey x key.length hx h1 hq ho.2 (by omega)
    · exact hnoS ((by omega : x = key.length - 1 + e) ▸ ho)
  have hposX : ∀ pos b, pos ≤ b → key.length - 1 + e + d < pos → b ≤ key.length - 1 + e + d + key.length →
      ∃ t, Reads s 0 (FO.back text (pos - 1) b) t := by
    intro pos b h1 h2 h3
    exact Occ_reads key text s lrs h (key.length - 1 + e + d) (pos - 1) b t3 (by omega) (by omega) (by omega)
  have hpreS : ∀ k, k ≤ q → Ends key text (key.length - 1 + e + k) k := by
    intro k hk
    refine ⟨by omega, by omega, fun t ht => ?_⟩
    rw [show key.length - 1 + e + k - k + t = key.length - 1 + e + t by omega]
    exact t4 t (by omega)
  -- first round
  obtain ⟨pos, pre, r1, a1, a2, ⟨u, a3⟩, a4, a5, a6, a7, a8, a9, a10, a11⟩ := turboLoop_round key text hk s lrs h g1 g2 hg1 hg2 next hn (key.length - 1) 0 []
    res (by omega) (by omega) (by omega) (by omega) (by
      intro ho
      have := ho.2 0 (by omega)
      rw [show key.length - 1 + 1 - key.length + 0 = 0 by omega, t1 0 (by omega)] at this
      exact hz0 0 (by omega) this.symm) hres
  have hpos : pos = key.length - 1 := by
    rcases Nat.lt_trichotomy pos (key.length - 1) with hp | hp | hp
    · exfalso
      have hmem := Reads_mem (text := key.reverse) h.inv h.check _ _ _ a3 z (by
        unfold FO.back
        rw [List.mem_reverse]
        apply List.mem_of_getElem? (i := 0)
        rw [List.getElem?_drop, List.getElem?_take, if_pos (by omega)]
        exact t1 _ (by omega))
      exact hz (by simpa using hmem)
    · exact hp
    · exfalso
      have hp' : pos - 1 = key.length - 1 := by omega
      obtain ⟨t, ht⟩ := Occ_reads key text s lrs h (key.length - 1 + e + d) (key.length - 1 + e + d) (key.length - 1 + e + d + 1) t3 (by omega) (by omega)
        (by omega)
      rw [hp'] at a4
      apply a4 t
      have e1 := back_succ text (key.length - 1) (key.length - 1) (Nat.le_refl _) (by omega)
      have e2 := back_succ text (key.length - 1 + e + d) (key.length - 1 + e + d) (Nat.le_refl _) (by omega)
      rw [back_self] at e1 e2
      rw [e1]
      rw [e2] at ht
      have e3 := t3.2 0 (by omega)
      rw [← t2, Nat.add_zero, List.getElem?_eq_getElem (by omega), List.getElem?_eq_getElem (by omega)] at e3
      rw [← Option.some.inj e3]
      exact ht
  subst hpos
  rw [Nat.max_eq_left (Nat.zero_le _)] at a9 a10 a11
  have hpre := a5 (by omega)
  subst hpre
  rw [Nat.zero_add] at a7
  rw [show min (key.length / 2) (text.length - (key.length - 1)) = key.length / 2 by omega] at a9
  have b1 := a10 (by omega) (key.length / 2 - e) (by omega) (by
    have := hpreS (key.length / 2 - e) (by omega)
    rw [show key.length - 1 + e + (key.length / 2 - e) = key.length - 1 + key.length / 2 by omega] at this
    exact this)
  -- second round
  obtain ⟨x, hx⟩ : ∃ x, key.length - 1 + key.length / 2 = x + r1 := ⟨key.length - 1 + key.length / 2 - r1, by omega⟩
  rw [show key.length - 1 + key.length / 2 + key.length - r1 - 1 = x + key.length - 1 by omega] at a11
  obtain ⟨pos, pre, r2, c1, c2, ⟨u, c3⟩, c4, c5, c6, c7, c8, c9, c10, c11⟩ := turboLoop_round key text hk s lrs h g1 g2 hg1 hg2 next hn (x + key.length - 1)
    (key.length - 1 + key.length / 2) [] res (by omega) (by omega) (by omega) (by
      intro _
      rw [show key.length - 1 + key.length / 2 - (x + key.length - 1 + 1 - key.length) = r1 by omega]
      exact a9) (by
      rw [show x + key.length - 1 + 1 - key.length = x by omega]
      exact hnoX x (by omega) (by omega)) a11
  have hpos : pos ≤ key.length - 1 + e + d := by
    by_contra hcon
    obtain ⟨t, ht⟩ := hposX pos (x + key.length - 1 + 1) (by omega) (by omega) (by omega)
    exact c4 t ht
  rw [Nat.max_eq_right (by omega)] at c9 c10 c11
  have hpre := c6 (by omega)
  rw [show key.length - 1 + key.length / 2 + key.length / 2 = key.length - 1 + e + q by omega] at c10 c11
  rw [show key.length - 1 + key.length / 2 + min (key.length / 2) (text.length - (key.length - 1 + key.length / 2)) = key.length - 1 + e + q by omega] at c9
  have d1 := c10 (by omega) q (by omega) (hpreS q (Nat.le_refl _))
  have hr2 : r2 = q := by
    by_contra hne
    exact hkey (key.length - 1 + e + q - r2) r2 (by omega) (by omega) (by omega) c9.2.2 (by omega)
  subst hr2
  rw [show key.length - 1 + e + r2 + key.length - r2 - 1 = key.length - 1 + e + key.length - 1 by omega] at c11
  -- third round
  obtain ⟨pos, pre, r3, f1, f2, ⟨u, f3⟩, f4, f5, f6, f7, f8, f9, f10, f11⟩ := turboLoop_round key text hk s lrs h g1 g2 hg1 hg2 next hn
    (key.length - 1 + e + key.length - 1) (key.length - 1 + e + r2) [] res (by omega) (by omega) (by omega) (by
      intro _
      rw [show key.length - 1 + e + r2 - (key.length - 1 + e + key.length - 1 + 1 - key.length) = r2 by omega]
      exact c9) (by
      rw [show key.length - 1 + e + key.length - 1 + 1 - key.length = key.length - 1 + e by omega]
      exact hnoS) c11
  have hpos : pos ≤ key.length - 1 + e + d := by
    by_contra hcon
    obtain ⟨t, ht⟩ := hposX pos (key.length - 1 + e + key.length - 1 + 1) (by omega) (by omega) (by omega)
    exact f4 t ht
  rw [Nat.max_eq_right (by omega)] at f11
  intro hmem
  rcases turboLoop_ge _ _ _ _ _ _ _ _ _ _ _ _ (Nat.le_refl _) f11 _ hmem with h1 | h1
  · cases h1
  · omega

end Verif.FO
