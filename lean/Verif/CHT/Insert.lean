/-
Moving slots and writing a new element.
-/
import Verif.CHT.Loops

namespace Verif.CHT
open Verif.Bits Verif.Fit

variable {kb vw : Nat} {t : Tab} {s : Nat} {home : Nat → Nat}

/-- Only `arr_` and `values_` differ. -/
def Same (t t' : Tab) : Prop := { t' with arr := t.arr, values := t.values } = t

theorem Same.bucket {t t' : Tab} (h : Same t t') : t'.bucket = t.bucket := (congrArg Tab.bucket (show { t' with arr := t.arr, values := t.values } = t from h) :)
theorem Same.bits {t t' : Tab} (h : Same t t') : t'.bucketBits = t.bucketBits := (congrArg Tab.bucketBits (show { t' with arr := t.arr, values := t.values } = t from h) :)
theorem Same.keyBits {t t' : Tab} (h : Same t t') : t'.keyBits = t.keyBits := (congrArg Tab.keyBits (show { t' with arr := t.arr, values := t.values } = t from h) :)
theorem Same.size {t t' : Tab} (h : Same t t') : t'.size = t.size := (congrArg Tab.size (show { t' with arr := t.arr, values := t.values } = t from h) :)
theorem Same.used {t t' : Tab} (h : Same t t') : t'.used = t.used := (congrArg Tab.used (show { t' with arr := t.arr, values := t.values } = t from h) :)
theorem Same.maxSize {t t' : Tab} (h : Same t t') : t'.maxSize = t.maxSize := (congrArg Tab.maxSize (show { t' with arr := t.arr, values := t.values } = t from h) :)
theorem Same.minSize {t t' : Tab} (h : Same t t') : t'.minSize = t.minSize := (congrArg Tab.minSize (show { t' with arr := t.arr, values := t.values } = t from h) :)

theorem Same.trans {t t' t'' : Tab} (h : Same t t') (h' : Same t' t'') : Same t t'' := by
  unfold Same at *
  have : { t'' with arr := t.arr, values := t.values } = { t' with arr := t.arr, values := t.values } := by
    conv => rhs; rw [← h']
  rw [this, h]

theorem set_view (w : WT kb vw t) {p x : Nat} (hp : p < t.bucket) (hx : x < 2 ^ (kb - t.bucketBits + 4)) :
    ∃ a, t.arr.set ((s + p) % t.bucket) x = some a ∧ WT kb vw { t with arr := a } ∧
      ∀ q, q < t.bucket → view kb { t with arr := a } s q = if q = p then decode (qmask (kb - t.bucketBits)) x else view kb t s q := by
  obtain ⟨a, e, h1, h2⟩ := set_word w (idx_lt w (s + p)) hx
  refine ⟨a, e, h1, ?_⟩
  intro q hq
  simp only [view, h2]
  by_cases hqp : q = p
  · subst hqp
    simp
  · rw [if_neg hqp, if_neg (fun h => hqp (idx_inj hq hp h))]

theorem set_vals (w : WT kb vw t) {p x : Nat} (hp : p < t.bucket) (hx : x < 2 ^ vw) :
    ∃ a, t.values.set ((s + p) % t.bucket) x = some a ∧ WT kb vw { t with values := a } ∧
      ∀ q, q < t.bucket → vals vw { t with values := a } s q = if q = p then x else vals vw t s q := by
  obtain ⟨a, e, h1, h2⟩ := set_val w (idx_lt w (s + p)) hx
  refine ⟨a, e, h1, ?_⟩
  intro q hq
  simp only [vals, h2]
  by_cases hqp : q = p
  · subst hqp
    simp
  · rw [if_neg hqp, if_neg (fun h => hqp (idx_inj hq hp h))]

/-- What moving leaves in slot `q`, with `e` the first slot that moves and `y` the empty slot. -/
def moved (f : Nat → Slot) (e y q : Nat) : Slot := if e < q ∧ q ≤ y then ⟨(f q).occ, (f (q - 1)).cont, true, (f q).del, (f (q - 1)).quo⟩ else f q

theorem shift_spec (e : Nat) : ∀ (d n : Nat) (t : Tab), WT kb vw t → e + d + 1 < t.bucket → d + 1 ≤ n →
    ∃ t', Tab.shift ((s + e) % t.bucket) n ((s + (e + d + 1)) % t.bucket) t = some t' ∧ WT kb vw t' ∧ Same t t' ∧
      (∀ q, q < t.bucket → view kb t' s q = moved (view kb t s) e (e + d + 1) q) ∧
      (∀ q, q < t.bucket → vals vw t' s q = if e < q ∧ q ≤ e + d + 1 then vals vw t s (q - 1) else vals vw t s q) := by
  intro d
  induction d with
  | zero =>
    intro n t w hB hn
    obtain ⟨n, rfl⟩ : ∃ m, n = m + 1 := ⟨n - 1, by omega⟩
    have hpr : t.pred ((s + (e + 0 + 1)) % t.bucket) = (s + e) % t.bucket := by
      rw [pred_idx w _ (by omega)]
      rfl
    obtain ⟨a1, e1, w1, v1⟩ := set_view (s := s) (p := e + 0 + 1) w hB
      (x := (word kb t ((s + (e + 0 + 1)) % t.bucket) &&& (kOcc ||| kDel)) ||| (word kb t ((s + e) % t.bucket) &&& (t.quoMask ||| kCont)) ||| kSh) (by
        refine Nat.or_lt_two_pow (Nat.or_lt_two_pow (Nat.and_lt_two_pow _ ?_) (Nat.lt_of_le_of_lt Nat.and_le_left (word_lt _))) ?_
        · exact Nat.lt_of_lt_of_le (show kOcc ||| kDel < 2 ^ 4 by decide) (Nat.pow_le_pow_right (by decide) (by omega))
        · exact Nat.lt_of_lt_of_le (show kSh < 2 ^ 4 by decide) (Nat.pow_le_pow_right (by decide) (by omega)))
    obtain ⟨a2, e2, w2, v2⟩ := set_vals (s := s) (p := e + 0 + 1) w1 hB (x := valOf vw t ((s + e) % t.bucket)) (val_lt _)
    refine ⟨{ t with arr := a1, values := a2 }, ?_, w2, rfl, ?_, ?_⟩
    · simp only [Tab.shift, Option.bind_eq_bind, get_word w (idx_lt w _), Option.bind_some, hpr, e1, FVec.copyElem, get_val w (idx_lt w _)]
      have : t.values.set ((s + (e + 0 + 1)) % t.bucket) (valOf vw t ((s + e) % t.bucket)) = some a2 := e2
      simp only [this, Option.bind_some, if_true, Option.pure_def]
    · intro q hq
      have : view kb { t with arr := a1, values := a2 } s q = view kb { t with arr := a1 } s q := rfl
      rw [this, v1 q hq, moved]
      by_cases hqe : q = e + 0 + 1
      · rw [if_pos hqe, if_pos (by omega), w.quoMask, decode_shift, hqe]
        rfl
      · rw [if_neg hqe, if_neg (by omega)]
    · intro q hq
      rw [v2 q hq]
      by_cases hqe : q = e + 0 + 1
      · rw [if_pos hqe, if_pos (by omega), hqe]
        rfl
      · rw [if_neg hqe, if_neg (by omega)]
        rfl
  | succ d ih =>
    intro n t w hB hn
    obtain ⟨n, rfl⟩ : ∃ m, n = m + 1 := ⟨n - 1, by omega⟩
    have hpr : t.pred ((s + (e + (d + 1) + 1)) % t.bucket) = (s + (e + d + 1)) % t.bucket := by
      rw [pred_idx w _ (by omega)]
      rfl
    obtain ⟨a1, e1, w1, v1⟩ := set_view (s := s) (p := e + (d + 1) + 1) w hB
      (x := (word kb t ((s + (e + (d + 1) + 1)) % t.bucket) &&& (kOcc ||| kDel)) ||| (word kb t ((s + (e + d + 1)) % t.bucket) &&& (t.quoMask ||| kCont)) ||| kSh) (by
        refine Nat.or_lt_two_pow (Nat.or_lt_two_pow (Nat.and_lt_two_pow _ ?_) (Nat.lt_of_le_of_lt Nat.and_le_left (word_lt _))) ?_
        · exact Nat.lt_of_lt_of_le (show kOcc ||| kDel < 2 ^ 4 by decide) (Nat.pow_le_pow_right (by decide) (by omega))
        · exact Nat.lt_of_lt_of_le (show kSh < 2 ^ 4 by decide) (Nat.pow_le_pow_right (by decide) (by omega)))
    obtain ⟨a2, e2, w2, v2⟩ := set_vals (s := s) (p := e + (d + 1) + 1) w1 hB (x := valOf vw t ((s + (e + d + 1)) % t.bucket)) (val_lt _)
    obtain ⟨t', e3, w3, s3, v3, u3⟩ := ih n { t with arr := a1, values := a2 } w2 (show e + d + 1 < t.bucket by omega) (by omega)
    refine ⟨t', ?_, w3, Same.trans (t' := { t with arr := a1, values := a2 }) rfl s3, ?_, ?_⟩
    · simp only [Tab.shift, Option.bind_eq_bind, get_word w (idx_lt w _), Option.bind_some, hpr, e1, FVec.copyElem, get_val w (idx_lt w _)]
      have : t.values.set ((s + (e + (d + 1) + 1)) % t.bucket) (valOf vw t ((s + (e + d + 1)) % t.bucket)) = some a2 := e2
      simp only [this, Option.bind_some]
      rw [if_neg]
      · exact e3
      · intro h
        have := idx_inj (show e < t.bucket by omega) (show e + d + 1 < t.bucket by omega) h
        omega
    · intro q hq
      have hv : ∀ q, q < t.bucket → view kb { t with arr := a1, values := a2 } s q = if q = e + (d + 1) + 1 then
          ⟨(view kb t s (e + (d + 1) + 1)).occ, (view kb t s (e + d + 1)).cont, true, (view kb t s (e + (d + 1) + 1)).del, (view kb t s (e + d + 1)).quo⟩ else view kb t s q := by
        intro q hq
        have : view kb { t with arr := a1, values := a2 } s q = view kb { t with arr := a1 } s q := rfl
        rw [this, v1 q hq, w.quoMask, decode_shift]
        rfl
      rw [v3 q hq]
      unfold moved
      by_cases h1 : e < q ∧ q ≤ e + d + 1
      · rw [if_pos h1, if_pos (by omega), hv q hq, hv (q - 1) (by omega), if_neg (by omega), if_neg (by omega)]
      · rw [if_neg h1, hv q hq]
        by_cases hqe : q = e + (d + 1) + 1
        · rw [if_pos hqe, if_pos (by omega), hqe]
          rfl
        · rw [if_neg hqe, if_neg (by omega)]
    · intro q hq
      have hv : ∀ q, q < t.bucket → vals vw { t with arr := a1, values := a2 } s q = if q = e + (d + 1) + 1 then vals vw t s (e + d + 1) else vals vw t s q := by
        intro q hq
        rw [v2 q hq]
        rfl
      rw [u3 q hq]
      by_cases h1 : e < q ∧ q ≤ e + d + 1
      · rw [if_pos h1, if_pos (by omega), hv (q - 1) (by omega), if_neg (by omega)]
      · rw [if_neg h1, hv q hq]
        by_cases hqe : q = e + (d + 1) + 1
        · rw [if_pos hqe, if_pos (by omega), hqe]
          rfl
        · rw [if_neg hqe, if_neg (by omega)]

theorem makeRoom_spec (w : WT kb vw t) {e y : Nat} (hey : e ≤ y) (hy : y < t.bucket) (hny : ¬ (view kb t s y).fil)
    (hfe : ∀ q, e ≤ q → q < y → (view kb t s q).fil) : ∃ t', t.makeRoom ((s + e) % t.bucket) = some t' ∧ WT kb vw t' ∧ Same t t' ∧
      (∀ q, q < t.bucket → view kb t' s q = moved (view kb t s) e y q) ∧
      (∀ q, q < t.bucket → vals vw t' s q = if e < q ∧ q ≤ y then vals vw t s (q - 1) else vals vw t s q) := by
  obtain ⟨x, hx, _, _, _, _, _, hz⟩ := read_view w s e
  unfold Tab.makeRoom
  simp only [hx, Option.bind_eq_bind, Option.bind_some, Option.pure_def]
  by_cases h : e = y
  · subst h
    rw [if_pos (hz.2 hny)]
    refine ⟨t, rfl, w, rfl, ?_, ?_⟩
    · intro q _
      rw [moved, if_neg (by omega)]
    · intro q _
      rw [if_neg (by omega)]
  · rw [if_neg (fun hn => hz.1 hn (hfe e (Nat.le_refl _) (by omega)))]
    rw [nextNull_spec w hny (y - e - 1) e t.bucket (by omega) (by omega) (fun q h1 h2 => hfe q (by omega) h2), Option.bind_some]
    obtain ⟨t', h1, h2, h3, h4, h5⟩ := shift_spec (s := s) e (y - e - 1) t.bucket t w (by omega) (by omega)
    rw [show e + (y - e - 1) + 1 = y by omega] at h1 h4 h5
    exact ⟨t', h1, h2, h3, h4, h5⟩

theorem new_lt {qb q a : Nat} (x y : Bool) (hq : q < 2 ^ qb) :
    (a &&& kOcc) ||| (q <<< 4) ||| (if x then kCont else 0) ||| (if y then kSh else 0) < 2 ^ (qb + 4) := by
  have h4 : ∀ z, z < 2 ^ 4 → z < 2 ^ (qb + 4) := fun z hz => Nat.lt_of_lt_of_le hz (Nat.pow_le_pow_right (by decide) (by omega))
  refine Nat.or_lt_two_pow (Nat.or_lt_two_pow (Nat.or_lt_two_pow (Nat.and_lt_two_pow _ (h4 _ (by decide))) ?_) (h4 _ ?_)) (h4 _ ?_)
  · rw [Nat.shiftLeft_eq, Nat.pow_add]
    exact Nat.mul_lt_mul_of_pos_right hq (by decide)
  · cases x <;> decide
  · cases y <;> decide

theorem mark_spec (w : WT kb vw t) {h e quo : Nat} (hh : h < t.bucket) (he : e < t.bucket) (hq : quo < 2 ^ (kb - t.bucketBits)) :
    ∃ t', t.mark ((s + h) % t.bucket) ((s + e) % t.bucket) quo = some t' ∧ WT kb vw t' ∧ Same t t' ∧ (∀ q, vals vw t' s q = vals vw t s q) ∧
      (∀ q, q < t.bucket → view kb t' s q =
        if q = e then ⟨(view kb t s e).occ || decide (e = h), (view kb t s h).occ, (view kb t s h).occ || decide (e ≠ h), false, quo⟩
        else if q = h then { view kb t s q with occ := true } else view kb t s q) := by
  have hw := get_word w (idx_lt w (s + h))
  have ho : isOcc (word kb t ((s + h) % t.bucket)) = (view kb t s h).occ := rfl
  unfold Tab.mark
  simp only [hw, Option.bind_eq_bind, Option.bind_some, Option.pure_def, ho]
  by_cases hoc : (view kb t s h).occ = true
  · rw [if_pos hoc, get_word w (idx_lt w _), Option.bind_some]
    have hn := new_lt (a := word kb t ((s + e) % t.bucket)) true true hq
    obtain ⟨a1, e1, w1, v1⟩ := set_view (s := s) (p := e) w he hn
    have e1' : t.arr.set ((s + e) % t.bucket) ((word kb t ((s + e) % t.bucket) &&& kOcc) ||| (quo <<< 4) ||| kCont ||| kSh) = some a1 := e1
    rw [e1', Option.bind_some]
    refine ⟨_, rfl, w1, rfl, fun _ => rfl, ?_⟩
    intro q hqB
    rw [v1 q hqB, decode_new _ _ _ _ _ hq, hoc]
    have hd : decode (qmask (kb - t.bucketBits)) (word kb t ((s + e) % t.bucket)) = view kb t s e := rfl
    rw [hd]
    by_cases hqe : q = e
    · rw [if_pos hqe, if_pos hqe]
      congr 1
      by_cases heh : e = h
      · subst heh; simp [hoc]
      · simp [heh]
    · rw [if_neg hqe, if_neg hqe]
      by_cases hqh : q = h
      · subst hqh
        rw [if_pos rfl]
        conv => rhs; rw [← hoc]
      · rw [if_neg hqh]
  · rw [if_neg hoc]
    have hoc' : (view kb t s h).occ = false := by simpa using hoc
    have hlt : word kb t ((s + h) % t.bucket) ||| kOcc < 2 ^ (kb - t.bucketBits + 4) := by
      refine Nat.or_lt_two_pow (word_lt _) ?_
      exact Nat.lt_of_lt_of_le (show kOcc < 2 ^ 4 by decide) (Nat.pow_le_pow_right (by decide) (by omega))
    obtain ⟨a1, e1, w1, v1⟩ := set_view (s := s) (p := h) w hh hlt
    rw [e1, Option.bind_some]
    have hw1 : a1.get ((s + e) % t.bucket) = some (word kb { t with arr := a1 } ((s + e) % t.bucket)) := get_word w1 (idx_lt w _)
    rw [hw1, Option.bind_some]
    have hn := new_lt (a := word kb { t with arr := a1 } ((s + e) % t.bucket)) false (decide (e ≠ h)) hq
    obtain ⟨a2, e2, w2, v2⟩ := set_view (s := s) (p := e) w1 he hn
    have hif : (if (s + e) % t.bucket ≠ (s + h) % t.bucket then kSh else 0) = (if decide (e ≠ h) = true then kSh else 0) := by
      by_cases heh : e = h
      · subst heh; simp
      · have hd : decide (e ≠ h) = true := by simpa using heh
        rw [hd, if_pos (show (s + e) % t.bucket ≠ (s + h) % t.bucket from fun hc => heh (idx_inj he hh hc)), if_pos rfl]
    have e2' : a1.set ((s + e) % t.bucket) ((word kb { t with arr := a1 } ((s + e) % t.bucket) &&& kOcc) ||| (quo <<< 4) |||
        (if (s + e) % t.bucket ≠ (s + h) % t.bucket then kSh else 0)) = some a2 := by
      rw [hif]
      simpa only [Bool.false_eq_true, if_false, Nat.or_zero] using e2
    rw [e2', Option.bind_some]
    refine ⟨_, rfl, w2, rfl, fun _ => rfl, ?_⟩
    intro q hqB
    have v2' := v2 q hqB
    have hd : decode (qmask (kb - t.bucketBits)) (word kb { t with arr := a1 } ((s + e) % t.bucket)) = view kb { t with arr := a1 } s e := rfl
    rw [decode_new _ _ _ _ _ hq] at v2'
    have : view kb { t with arr := a2 } s q = view kb { { t with arr := a1 } with arr := a2 } s q := rfl
    rw [this, v2', hd, v1 e he, v1 q hqB, decode_or_occ]
    have hd2 : decode (qmask (kb - t.bucketBits)) (word kb t ((s + h) % t.bucket)) = view kb t s h := rfl
    rw [hd2, hoc']
    by_cases hqe : q = e
    · rw [if_pos hqe, if_pos hqe]
      by_cases heh : e = h
      · subst heh; simp
      · simp [heh]
    · rw [if_neg hqe, if_neg hqe]
      by_cases hqh : q = h
      · subst hqh; simp
      · simp [hqh]

/-- The insertion of a new element gives the slots of `insSlot`. -/
theorem insert_spec (w : WT kb vw t) {h e y quo v : Nat} (hh : h < t.bucket) (hhe : h ≤ e) (hey : e ≤ y) (hy : y < t.bucket) (hny : ¬ (view kb t s y).fil)
    (hfe : ∀ q, e ≤ q → q < y → (view kb t s q).fil) (hq : quo < 2 ^ (kb - t.bucketBits)) (hv : v < 2 ^ vw) :
    ∃ t', t.insert ((s + h) % t.bucket) ((s + e) % t.bucket) quo v = some t' ∧ WT kb vw t' ∧
      t'.bucket = t.bucket ∧ t'.bucketBits = t.bucketBits ∧ t'.maxSize = t.maxSize ∧ t'.minSize = t.minSize ∧ t'.size = (t.size + 1) % 2 ^ 64 ∧ t'.used = t.used + 1 ∧
      (∀ q, q < t.bucket → view kb t' s q = insSlot (view kb t s) h e y quo q) ∧
      (∀ q, q < t.bucket → vals vw t' s q = if q = e then v else if e < q ∧ q ≤ y then vals vw t s (q - 1) else vals vw t s q) := by
  obtain ⟨t1, e1, w1, s1, v1, u1⟩ := makeRoom_spec w hey hy hny hfe
  have b1 := s1.bucket
  obtain ⟨t2, e2, w2, s2, u2, v2⟩ := mark_spec (s := s) (h := h) (e := e) (quo := quo) w1 (by omega) (by omega) (by rw [s1.bits]; exact hq)
  have b2 := s2.bucket
  obtain ⟨a, e3, w3, u3⟩ := set_vals (s := s) (p := e) (x := v) w2 (by omega) hv
  unfold Tab.insert
  simp only [e1, Option.bind_eq_bind, Option.bind_some, Option.pure_def]
  rw [b1] at e2
  rw [b2, b1] at e3
  rw [e2, Option.bind_some, e3, Option.bind_some]
  refine ⟨_, rfl, ⟨w3.keyBits, w3.bucket, w3.mask, w3.quoMask, w3.arr, w3.arrSize, w3.values, w3.valuesSize⟩, ?_, ?_, ?_, ?_, ?_, ?_, ?_, ?_⟩
  · show t2.bucket = _; omega
  · show t2.bucketBits = _; rw [s2.bits, s1.bits]
  · show t2.maxSize = _; rw [s2.maxSize, s1.maxSize]
  · show t2.minSize = _; rw [s2.minSize, s1.minSize]
  · show (t2.size + 1) % 2 ^ 64 = _; rw [s2.size, s1.size]
  · show t2.used + 1 = _; rw [s2.used, s1.used]
  · intro q hqB
    show view kb t2 s q = _
    rw [v2 q (by omega), v1 q hqB, v1 e (by omega), v1 h hh]
    have m1 : moved (view kb t s) e y h = view kb t s h := by rw [moved, if_neg (by omega)]
    have m2 : moved (view kb t s) e y e = view kb t s e := by rw [moved, if_neg (by omega)]
    rw [m1, m2, insSlot]
    by_cases hqe : q = e
    · rw [if_pos hqe, if_pos hqe]
    · rw [if_neg hqe, if_neg hqe, moved]
      by_cases hm : e < q ∧ q ≤ y
      · rw [if_neg (by omega), if_pos hm, if_pos hm]
      · rw [if_neg hm, if_neg hm]
  · intro q hqB
    have := u3 q (by omega)
    have hh2 : vals vw { t2 with values := a } s q = vals vw { t2 with values := a, size := (t2.size + 1) % 2 ^ 64, used := t2.used + 1 } s q := rfl
    rw [← hh2, this, u2 q, u1 q hqB]

end Verif.CHT
