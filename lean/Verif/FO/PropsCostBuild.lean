/-
Property theorem C100: the construction of the factor oracle takes a linear number of steps outside of the search for a free place.
-/
import Verif.FO.CostBuildExact
import Verif.FO.PropsCount

namespace Verif.FO
open Verif.PM (Byte)

/-- C100: counting does not change the outcome of the construction. -/
theorem C100_same (fuel : Nat) (text : List Byte) : (buildC fuel text >>= fun r => .ok r.1) = build fuel text := by
  unfold buildC build buildWith
  cases expandLoop text.length text.length (initial text) with
  | ub => rfl
  | stop => rfl
  | ok s =>
    simp only [ok_bind]
    cases lift (s.setNext 0 0) with
    | ub => rfl
    | stop => rfl
    | ok s =>
      simp only [ok_bind]
      rw [← letterLoopC_fst (findBase fuel) text.length 0 _ s 0 0]
      cases letterLoopC (findBase fuel) text.length 0 (List.replicate (text.length + 1) 0) s 0 0 with
      | ub => rfl
      | stop => rfl
      | ok r => rfl

/-- C100: for every text of `m` letters without zero bytes, the construction calls `_insert_trans` less than `m` times, and `transition` at most `2 (m - 1)` times more
often than that, so less than `3 m` times. -/
theorem C100_linear (fuel : Nat) (text : List Byte) (hne : text ≠ []) (hnz : ∀ c ∈ text, c ≠ 0#8) (o : Oracle) (a b : Nat)
    (h : buildC fuel text = .ok (o, a, b)) : b + 1 ≤ text.length ∧ a + 2 ≤ b + 2 * text.length ∧ a + 3 ≤ 3 * text.length := by
  have hpos : 0 < text.length := List.length_pos_iff.2 hne
  unfold buildC at h
  cases e2 : expandLoop text.length text.length (initial text) with
  | ub => rw [e2] at h; cases h
  | stop => rw [e2] at h; cases h
  | ok s2 =>
    rw [e2] at h
    simp only [ok_bind] at h
    cases e3 : s2.setNext 0 0 with
    | none => rw [e3] at h; cases h
    | some s3 =>
      rw [e3] at h
      simp only [lift_some, ok_bind] at h
      obtain ⟨hL, hX⟩ := start_count text hne s2 s3 e2 e3
      cases e4 : letterLoopC (findBase fuel) text.length 0 (List.replicate (text.length + 1) 0) s3 0 0 with
      | ub => rw [e4] at h; cases h
      | stop => rw [e4] at h; cases h
      | ok r =>
        obtain ⟨s4, l4, a4, b4⟩ := r
        rw [e4] at h
        cases h
        obtain ⟨dep, E, g1, g2, g3, g4⟩ := letterLoopC_cnt fuel text (ck_nz text hnz) text.length 0 _ s3 _ _ 0 0 (by omega) hL hX (by simp) (by simp) _ _ _ _ e4
        rw [Nat.zero_add] at g1 g2 g3 g4
        have := g2.dl text.length hpos (Nat.le_refl _)
        simp only
        exact ⟨by omega, by omega, by omega⟩

/-- C100: the exact numbers of calls, for a text with the letters `A`, each listed once. `_insert_trans` is called exactly once for every transition that the finished
oracle has to another state than the next one (`L` lists them), and `transition` is called once for each of these and twice for every letter of the text but the
first occurrences. -/
theorem C100_exact (fuel : Nat) (text : List Byte) (hne : text ≠ []) (hnz : ∀ c ∈ text, c ≠ 0#8) (o : Oracle) (a b : Nat)
    (h : buildC fuel text = .ok (o, a, b)) (A : List Byte) (hA : A.Nodup) (hAm : ∀ c, c ∈ A ↔ c ∈ text) (past : Option Byte) (L : List (Nat × Byte))
    (hL : L.Nodup) (hLm : ∀ p, p ∈ L ↔ p.1 < text.length ∧ ∃ t, o.image past p.1 p.2 = some (some t) ∧ t ≠ p.1 + 1) :
    b = L.length ∧ a + 2 * A.length = b + 2 * text.length := by
  have hpos : 0 < text.length := List.length_pos_iff.2 hne
  unfold buildC at h
  cases e2 : expandLoop text.length text.length (initial text) with
  | ub => rw [e2] at h; cases h
  | stop => rw [e2] at h; cases h
  | ok s2 =>
    rw [e2] at h
    simp only [ok_bind] at h
    cases e3 : s2.setNext 0 0 with
    | none => rw [e3] at h; cases h
    | some s3 =>
      rw [e3] at h
      simp only [lift_some, ok_bind] at h
      obtain ⟨hI, hX⟩ := start_count text hne s2 s3 e2 e3
      cases e4 : letterLoopC (findBase fuel) text.length 0 (List.replicate (text.length + 1) 0) s3 0 0 with
      | ub => rw [e4] at h; cases h
      | stop => rw [e4] at h; cases h
      | ok r =>
        obtain ⟨s4, l4, a4, b4⟩ := r
        rw [e4] at h
        cases h
        have hno : ∀ st c t, ¬ Ext s3 st c t := fun st c t he => absurd (hX.all st c t he) (by simp)
        obtain ⟨E, hI4, hE, hlen, hcnt⟩ := letterLoopC_exact fuel text (ck_nz text hnz) text.length 0 _ s3 _ [] _ 0 0 (by omega) hI hX
          ⟨List.nodup_nil, fun st c t => ⟨fun hm => absurd hm (by simp), fun he => absurd he (hno _ _ _)⟩, fun st c t he => absurd he (hno _ _ _)⟩ rfl
          (fun A _ hm => by
            have : A = [] := List.eq_nil_iff_forall_not_mem.2 fun c hc => absurd ((hm c).1 hc) (by simp)
            rw [this]; rfl) _ _ _ _ e4
        rw [Nat.zero_add] at hI4 hcnt
        have hck := hI4.check
        refine ⟨?_, hcnt A hA (fun c => by rw [List.take_length]; exact hAm c)⟩
        rw [← hlen]
        have hfin : (⟨s4.check, s4.base, clearNext s4⟩ : Oracle) = fin s4 := rfl
        have hto : ∀ p ∈ L, ∃ t, (p.1, p.2.toNat, t) ∈ E := by
          intro p hp
          obtain ⟨h1, t, h2, h3⟩ := (hLm p).1 hp
          rcases image_spec text s4 l4 hI4 past p.1 (by omega) p.2 (by omega) with ⟨t', e, hD, _⟩ | ⟨e, _⟩
          · rw [hfin, e] at h2
            cases h2
            rcases hD with ⟨_, hD⟩ | ⟨_, hD⟩
            · exact absurd hD h3
            · exact ⟨_, (hE.mem _ _ _).2 hD⟩
          · rw [hfin, e] at h2; cases h2
        have hle := length_le_of_inj (fun p : Nat × Byte => (p.1, p.2.toNat)) L (E.map fun e => (e.1, e.2.1)) hL
          (fun p hp => by obtain ⟨t, ht⟩ := hto p hp; exact List.mem_map.2 ⟨_, ht, rfl⟩) (by
          rintro ⟨a, b⟩ _ ⟨a', b'⟩ _ e
          simp only [Prod.mk.injEq] at e
          obtain ⟨rfl, e⟩ := e
          rw [BitVec.eq_of_toNat_eq e])
        rw [List.length_map] at hle
        -- the letter of an external transition is a byte of the text
        have hbyte : ∀ e ∈ E, Ext s4 e.1 e.2.1 e.2.2 ∧ ∃ c : Byte, e.2.1 = c.toNat := by
          rintro ⟨st, c, t⟩ he
          have he := (hE.mem _ _ _).1 he
          refine ⟨he, ?_⟩
          obtain ⟨h1, h2⟩ := hI4.inv.ext_lt he
          obtain ⟨_, _, _, _, _, _, hc⟩ := he
          obtain ⟨t, rfl⟩ : ∃ x, t = x + 1 := ⟨t - 1, by omega⟩
          rw [hck] at h2 hc
          rw [ck_getElem _ _ (by omega)] at hc
          exact ⟨_, hc.symm⟩
        have hD : ∀ e ∈ E, D s4 e.1 e.2.1 e.2.2 := fun e he => Or.inr ⟨hE.hint _ _ _ (hbyte e he).1, (hbyte e he).1⟩
        have hge := length_le_of_inj (fun e : Nat × Nat × Nat => (e.1, BitVec.ofNat 8 e.2.1)) E L hE.nodup (by
          intro e he
          obtain ⟨hx, c, hc⟩ := hbyte e he
          obtain ⟨h1, h2⟩ := hI4.inv.ext_lt hx
          rw [hck] at h2
          refine (hLm _).2 ⟨by simp only; omega, e.2.2, ?_, ?_⟩
          · rw [hfin]
            simp only
            rw [hc, BitVec.ofNat_toNat, BitVec.setWidth_eq]
            rcases image_spec text s4 l4 hI4 past e.1 (by omega) c (by omega) with ⟨t', e1, hd, _⟩ | ⟨_, hd⟩
            · have hq := hD e he
              rw [hc] at hq
              rw [e1, D_fun hq hd]
            · have hq := hD e he
              rw [hc] at hq
              exact absurd hq (hd _ h2)
          · intro (e1 : e.2.2 = e.1 + 1)
            have := hE.hint _ _ _ hx
            obtain ⟨_, _, _, _, _, _, h3⟩ := hx
            rw [e1] at h3
            exact this h3) (by
          intro x hx y hy e
          simp only [Prod.mk.injEq] at e
          obtain ⟨_, c, hc⟩ := hbyte x hx
          obtain ⟨_, c', hc'⟩ := hbyte y hy
          have hd := hD x hx
          have hd' := hD y hy
          obtain ⟨x1, x2, x3⟩ := x
          obtain ⟨y1, y2, y3⟩ := y
          simp only at *
          obtain ⟨rfl, e⟩ := e
          rw [hc, hc', BitVec.ofNat_toNat, BitVec.ofNat_toNat, BitVec.setWidth_eq, BitVec.setWidth_eq] at e
          subst e
          rw [← hc'] at hc
          subst hc
          rw [D_fun hd hd'])
        show E.length = L.length
        omega

/-- A text that meets the hypotheses: the construction for `abbab` ends after less than 5 insertions and 15 transitions. -/
example : ∃ o a b, buildC (2 ^ 32 + 1) [97, 98, 98, 97, 98] = .ok (o, a, b) ∧ b + 1 ≤ 5 ∧ a + 2 ≤ b + 2 * 5 ∧ a + 3 ≤ 3 * 5 := by
  obtain ⟨o, ho⟩ := build_total (2 ^ 32 + 1) [97, 98, 98, 97, 98] [97, 98] (by decide) (by decide) (by decide) (by decide) (by decide) (Nat.le_refl _)
  have h := C100_same (2 ^ 32 + 1) [97, 98, 98, 97, 98]
  rw [ho] at h
  cases e : buildC (2 ^ 32 + 1) [97, 98, 98, 97, 98] with
  | ub => rw [e] at h; cases h
  | stop => rw [e] at h; cases h
  | ok r => exact ⟨r.1, r.2.1, r.2.2, rfl, C100_linear _ _ (by decide) (by decide) _ _ _ e⟩

/-- For every oracle there is a list of the transitions to other states than the next one. -/
theorem transitions_listed (o : Oracle) (past : Option Byte) (n : Nat) :
    ∃ L : List (Nat × Byte), L.Nodup ∧ ∀ p, p ∈ L ↔ p.1 < n ∧ ∃ t, o.image past p.1 p.2 = some (some t) ∧ t ≠ p.1 + 1 := by
  refine ⟨((List.range (256 * n)).map fun x => (x / 256, BitVec.ofNat 8 x)).filter fun p => match o.image past p.1 p.2 with
      | some (some t) => decide (t ≠ p.1 + 1)
      | _ => false, List.Nodup.filter _ (List.pairwise_map.2 (List.nodup_range.imp ?_)), ?_⟩
  · intro x y hxy e
    refine hxy ?_
    have h1 := congrArg Prod.fst e
    have h2 := congrArg (fun p => p.2.toNat) e
    simp only [BitVec.toNat_ofNat] at h1 h2
    omega
  · rintro ⟨i, c⟩
    have hok : (match o.image past i c with | some (some t) => decide (t ≠ i + 1) | _ => false) = true ↔ ∃ t, o.image past i c = some (some t) ∧ t ≠ i + 1 := by
      cases o.image past i c with
      | none => simp
      | some x => cases x with
        | none => simp
        | some t => simp
    rw [List.mem_filter, hok]
    simp only [List.mem_range, List.mem_map, Prod.mk.injEq]
    constructor
    · rintro ⟨⟨x, h1, rfl, rfl⟩, h3⟩
      exact ⟨by omega, h3⟩
    · rintro ⟨h1, h3⟩
      have := c.isLt
      exact ⟨⟨256 * i + c.toNat, by omega, by omega, BitVec.eq_of_toNat_eq (by rw [BitVec.toNat_ofNat]; omega)⟩, h3⟩

/-- The hypotheses of `C100_exact` can be met: `abbab` has two different letters, so `transition` is called six times more often than `_insert_trans`, and there is a list of the
transitions, whose length is the number of insertions. -/
example : ∃ o a b, buildC (2 ^ 32 + 1) [97, 98, 98, 97, 98] = .ok (o, a, b) ∧ a = b + 6 ∧
    ∃ L : List (Nat × Byte), L.Nodup ∧ (∀ p, p ∈ L ↔ p.1 < 5 ∧ ∃ t, o.image none p.1 p.2 = some (some t) ∧ t ≠ p.1 + 1) ∧ b = L.length := by
  obtain ⟨o, ho⟩ := build_total (2 ^ 32 + 1) [97, 98, 98, 97, 98] [97, 98] (by decide) (by decide) (by decide) (by decide) (by decide) (Nat.le_refl _)
  have h := C100_same (2 ^ 32 + 1) [97, 98, 98, 97, 98]
  rw [ho] at h
  cases e : buildC (2 ^ 32 + 1) [97, 98, 98, 97, 98] with
  | ub => rw [e] at h; cases h
  | stop => rw [e] at h; cases h
  | ok r =>
    obtain ⟨o', a, b⟩ := r
    obtain ⟨L, hL, hm⟩ := transitions_listed o' none 5
    obtain ⟨h1, h2⟩ := C100_exact _ [97, 98, 98, 97, 98] (by decide) (by decide) o' a b e [97, 98] (by decide) (by
      intro c
      simp only [List.mem_cons, List.not_mem_nil, or_false]
      constructor
      · rintro (h | h) <;> simp [h]
      · rintro (h | h | h | h | h) <;> simp [h]) none L hL hm
    refine ⟨o', a, b, rfl, ?_, L, hL, hm, h1⟩
    simp only [List.length_cons, List.length_nil] at h2
    omega

end Verif.FO
