/-
`erase` and what `get` sees of it.
-/
import Verif.CHT.Props

namespace Verif.CHT
open Verif.Bits Verif.Fit

/-- What `get` looks at in a word. -/
def obs (qm w : Nat) : Bool × Bool × Bool × Nat := (isOcc w, isCont w, isSh w, (w &&& qm) >>> 4)

/-- Two tables that differ only in marks of deleted slots. -/
structure Obs (t t' : Tab) : Prop where
  pos : 0 < t.bucket
  keyBits : t'.keyBits = t.keyBits
  bucket : t'.bucket = t.bucket
  bits : t'.bucketBits = t.bucketBits
  mask : t'.bucketMask = t.bucketMask
  quoMask : t'.quoMask = t.quoMask
  values : t'.values = t.values
  arr : ∀ i, i < t.bucket → ∃ w' w, t'.arr.get i = some w' ∧ t.arr.get i = some w ∧ obs t.quoMask w' = obs t.quoMask w

variable {t t' : Tab}

theorem Obs.read (h : Obs t t') {i : Nat} (hi : i < t.bucket) : ∃ w' w, t'.arr.get i = some w' ∧ t.arr.get i = some w ∧ isOcc w' = isOcc w ∧ isCont w' = isCont w ∧
    isSh w' = isSh w ∧ t'.quo w' = t.quo w := by
  obtain ⟨w', w, e1, e2, e3⟩ := h.arr i hi
  simp only [obs, Prod.mk.injEq] at e3
  exact ⟨w', w, e1, e2, e3.1, e3.2.1, e3.2.2.1, by simp only [Tab.quo, h.quoMask]; exact e3.2.2.2⟩

theorem succ_lt {i : Nat} (hi : i < t.bucket) : t.succ i < t.bucket := by unfold Tab.succ; split <;> omega
theorem pred_lt {i : Nat} (hi : i < t.bucket) : t.pred i < t.bucket := by unfold Tab.pred; split <;> omega

theorem Obs.succ (h : Obs t t') (i : Nat) : t'.succ i = t.succ i := by unfold Tab.succ; rw [h.bucket]
theorem Obs.pred (h : Obs t t') (i : Nat) : t'.pred i = t.pred i := by unfold Tab.pred; rw [h.bucket]

theorem Obs.back (h : Obs t t') : ∀ (n i c : Nat), i < t.bucket → t'.back n i c = t.back n i c ∧ ∀ r, t.back n i c = some r → r.1 < t.bucket
  | 0, _, _, _ => ⟨rfl, fun r hr => by simp [Tab.back] at hr⟩
  | n + 1, i, c, hi => by
    have hp := pred_lt hi
    obtain ⟨w', w, e1, e2, h1, h2, h3, h4⟩ := h.read hp
    simp only [Tab.back, h.pred, e1, e2, Option.bind_eq_bind, Option.bind_some, h1, h3]
    by_cases hs : isSh w = true
    · rw [if_pos hs, if_pos hs]
      exact h.back n _ _ hp
    · rw [if_neg hs, if_neg hs]
      refine ⟨rfl, ?_⟩
      intro r hr
      rw [← Option.some.inj hr]
      exact hp

theorem Obs.fwd (h : Obs t t') : ∀ (n i c : Nat), i < t.bucket → t'.fwd n i c = t.fwd n i c ∧ ∀ r, t.fwd n i c = some r → r < t.bucket
  | n, i, 0, hi => by
    have e : ∀ t : Tab, t.fwd n i 0 = some i := fun t => by cases n <;> rfl
    rw [e, e]
    exact ⟨rfl, fun r hr => by rw [← Option.some.inj hr]; exact hi⟩
  | 0, _, _ + 1, _ => ⟨rfl, fun r hr => by simp [Tab.fwd] at hr⟩
  | n + 1, i, c + 1, hi => by
    have hp := succ_lt hi
    obtain ⟨w', w, e1, e2, h1, h2, h3, h4⟩ := h.read hp
    simp only [Tab.fwd, h.succ, e1, e2, Option.bind_eq_bind, Option.bind_some, h2]
    by_cases hs : isCont w = true
    · rw [if_pos hs, if_pos hs]
      exact h.fwd n _ _ hp
    · rw [if_neg hs, if_neg hs]
      exact h.fwd n _ _ hp

theorem Obs.head (h : Obs t t') {i : Nat} (hi : i < t.bucket) : t'.head i = t.head i ∧ ∀ r, t.head i = some r → r < t.bucket := by
  obtain ⟨w', w, e1, e2, h1, h2, h3, h4⟩ := h.read hi
  obtain ⟨b1, b2⟩ := h.back t.bucket i 0 hi
  simp only [Tab.head, h.bucket, b1, e1, e2, Option.bind_eq_bind, Option.bind_some, h3]
  by_cases hs : isSh w = true
  · rw [if_pos hs, if_pos hs]
    cases hb : t.back t.bucket i 0 with
    | none => exact ⟨rfl, fun r hr => by simp at hr⟩
    | some x => exact h.fwd _ _ _ (b2 x hb)
  · rw [if_neg hs, if_neg hs]
    exact ⟨rfl, fun r hr => by rw [← Option.some.inj hr]; exact hi⟩

theorem Obs.find (h : Obs t t') (q : Nat) : ∀ (n i : Nat), i < t.bucket → t'.find q n i = t.find q n i ∧ ∀ r, t.find q n i = some r → r.1 < t.bucket
  | 0, _, _ => ⟨rfl, fun r hr => by simp [Tab.find] at hr⟩
  | n + 1, i, hi => by
    have hp := succ_lt hi
    obtain ⟨w', w, e1, e2, h1, h2, h3, h4⟩ := h.read hi
    obtain ⟨w2', w2, e3, e4, g1, g2, g3, g4⟩ := h.read hp
    simp only [Tab.find, h.succ, e1, e2, e3, e4, Option.bind_eq_bind, Option.bind_some, h4, g2]
    by_cases hq : t.quo w = q
    · simp only [if_pos hq]
      exact ⟨trivial, fun r hr => by rw [← Option.some.inj hr]; exact hi⟩
    · simp only [if_neg hq]
      by_cases hc : isCont w2 = true
      · simp only [if_pos hc]
        exact h.find q n _ hp
      · simp only [if_neg hc]
        exact ⟨trivial, fun r hr => by rw [← Option.some.inj hr]; exact hp⟩

theorem Obs.get (h : Obs t t') (P : Par) (k : Nat) (hm : ∀ y, y &&& t.bucketMask < t.bucket) : t'.get P k = t.get P k := by
  simp only [Tab.get, h.keyBits, h.bits, h.mask, h.values, h.bucket]
  cases P.hash t.keyBits k with
  | none => rfl
  | some y =>
    obtain ⟨w', w, e1, e2, h1, h2, h3, h4⟩ := h.read (hm y)
    obtain ⟨b1, b2⟩ := h.head (hm y)
    simp only [Option.bind_eq_bind, Option.bind_some, e1, e2, h1, b1]
    cases hh : t.head (y &&& t.bucketMask) with
    | none => rfl
    | some i =>
      simp only [Option.bind_some]
      rw [(h.find _ _ _ (b2 i hh)).1]

theorem obs_or_del (qb w : Nat) : obs (qmask qb) (w ||| kDel) = obs (qmask qb) w := by
  have c8 : ∀ i, kDel.testBit i = decide (i = 3) := by
    intro i
    rw [show kDel = 2 ^ 3 from rfl, Nat.testBit_two_pow]
    simp [eq_comm]
  simp only [obs, isOcc_eq, isCont_eq, isSh_eq, Nat.testBit_or, c8, Prod.mk.injEq]
  refine ⟨by simp, by simp, by simp, ?_⟩
  refine Nat.eq_of_testBit_eq ?_
  intro i
  rw [quo_testBit, quo_testBit]
  simp only [Nat.testBit_or, c8]
  have h3 : decide (4 + i = 3) = false := by simp; omega
  rw [h3, Bool.or_false]

theorem Obs.refl {kb vw : Nat} (w : WT kb vw t) : Obs t t := ⟨w.pos, rfl, rfl, rfl, rfl, rfl, rfl, fun _ hi => ⟨_, _, get_word w hi, get_word w hi, rfl⟩⟩

/-- Marking a slot as deleted. -/
theorem mark_obs {kb vw : Nat} (w : WT kb vw t) {i : Nat} (hi : i < t.bucket) (n : Nat) :
    ∃ a, t.arr.set i (word kb t i ||| kDel) = some a ∧ Obs t { t with arr := a, size := n } := by
  have hlt : word kb t i ||| kDel < 2 ^ (kb - t.bucketBits + 4) := by
    refine Nat.or_lt_two_pow (word_lt _) ?_
    exact Nat.lt_of_lt_of_le (show kDel < 2 ^ 4 by decide) (Nat.pow_le_pow_right (by decide) (by omega))
  obtain ⟨a, e, w1, h1⟩ := set_word w hi hlt
  refine ⟨a, e, w.pos, rfl, rfl, rfl, rfl, rfl, rfl, ?_⟩
  intro j hj
  refine ⟨_, _, get_word w1 hj, get_word w hj, ?_⟩
  rw [h1, w.quoMask]
  split
  · rename_i hji
    rw [hji, obs_or_del]
  · rfl

/-- `erase` on a table without deleted slots: at most a mark changes. -/
theorem erase_spec {P : Par} {kb vw : Nat} {M : Nat → Option Nat} (G : Good P kb) (V : Width P vw) (h1 : 1 ≤ P.load) (h99 : P.load ≤ 99) (hkb : kb ≤ 60)
    (I : Inv P kb vw t M) (hbig : t.used ≤ 2 ^ 55) {k : Nat} (hk : k < 2 ^ kb) :
    ∃ t1 t', t.erase P false k = some t' ∧ Inv P kb vw t1 M ∧ Obs t1 t' ∧ t'.size ≤ t.size := by
  obtain ⟨t1, e1, I1, u1⟩ : ∃ t1, (if t.size = t.minSize then t.reserve P false (t.size * 2 % 2 ^ 64) else some t) = some t1 ∧ Inv P kb vw t1 M ∧ t1.used = t.used := by
    by_cases hm : t.size = t.minSize
    · rw [if_pos hm]
      exact reserve_spec G V h1 (by omega) (by omega) I hbig (by have := I.size; omega)
    · rw [if_neg hm]
      exact ⟨t, rfl, I, rfl⟩
  have w := I1.wt
  have hsz : t1.size = t.size := by rw [I1.size, u1, I.size]
  obtain ⟨s, home, A⟩ := I1.has
  obtain ⟨y, hy, hash, _⟩ := G.fwd k hk
  obtain ⟨_, p2, _⟩ := hash_parts w hy
  have hbb : t1.bucketBits ≠ 0 := by
    intro h0
    have := I1.room
    rw [w.bucket, h0] at this
    omega
  have O := Obs.refl w
  have hyB := idx_lt w y
  obtain ⟨x, hx⟩ : ∃ x, t1.arr.get (y % t1.bucket) = some x := ⟨_, get_word w hyB⟩
  unfold Tab.erase Tab.eraseD Tab.eraseIn Tab.eraseQuo
  unfold Tab.reserve at e1
  rw [e1]
  simp only [Option.bind_eq_bind, Option.bind_some, w.keyBits, hash, if_neg hbb, Option.pure_def, p2, hx]
  by_cases ho : isOcc x = true
  · rw [if_pos ho]
    obtain ⟨h, hh, hhy⟩ := exists_off w.pos s (y % t1.bucket) hyB
    have ho' : (view kb t1 s h).occ = true := by
      obtain ⟨x', hx', ho2, _⟩ := read_view w s h
      rw [hhy, hx] at hx'
      rw [← ho2, ← Option.some.inj hx']
      exact ho
    obtain ⟨i, H⟩ := exists_head (B := t1.bucket) (f := view kb t1 s) (home := home) h hh
    have hhead := head_spec w A.lay hh H
    rw [hhy] at hhead
    obtain ⟨hi, hfi, hhi⟩ := H.occ A.lay hh ho'
    rw [hhead, Option.bind_some]
    rcases find_spec w A.lay h (y / t1.bucketBits) t1.bucket i hi (by omega) hfi hhi with ⟨p, g1, g2, g3, g4, g5, g6⟩ | ⟨e, g1, g2, g3, g4, g5⟩
    · rw [g6, Option.bind_some]
      simp only [if_true, get_word w (idx_lt w _), Option.bind_some]
      have hd : isDel (word kb t1 ((s + p) % t1.bucket)) = false := I1.noDel.view w.pos s p
      rw [hd]
      obtain ⟨a, ea, Oa⟩ := mark_obs w (idx_lt w (s + p)) ((t1.size + 2 ^ 64 - 1) % 2 ^ 64)
      simp only [Bool.false_eq_true, if_false, ea, Option.bind_some]
      rw [w.keyBits] at Oa
      exact ⟨t1, _, rfl, I1, Oa, by
        have h0 : 0 < t1.used := by
          rcases Nat.eq_zero_or_pos t1.used with h0 | h0
          · exact absurd g3 (filled_full (f := view kb t1 s) (p := 0) (n := t1.bucket) (by rw [← A.count, h0]; exact Nat.zero_le _) (Nat.zero_le _) g2)
          · exact h0
        have h1 := I1.size
        have h2 := I1.small
        have h3 := filled_le (view kb t1 s) t1.bucket
        have h4 := A.count
        show (t1.size + 2 ^ 64 - 1) % 2 ^ 64 ≤ _
        omega⟩
    · rw [g5, Option.bind_some]
      simp only [Bool.false_eq_true, if_false]
      exact ⟨t1, t1, rfl, I1, O, by omega⟩
  · rw [if_neg ho]
    exact ⟨t1, t1, rfl, I1, O, by omega⟩

end Verif.CHT
