/-
The words of the slots, and reading and writing them.
-/
import Verif.CHT.Rotate
import Verif.Fit.Lemmas
import Mathlib.Data.Nat.Bitwise

namespace Verif.CHT
open Verif.Bits Verif.Fit

/-- What the code reads from the word of a slot. -/
def decode (qm w : Nat) : Slot := ⟨isOcc w, isCont w, isSh w, isDel w, (w &&& qm) >>> 4⟩

/-- The mask of a quotient of `qb` bits. -/
def qmask (qb : Nat) : Nat := (2 ^ qb - 1) <<< 4

theorem and_pow (w k : Nat) : (w &&& 2 ^ k != 0) = w.testBit k := by
  rw [Nat.and_comm, Nat.two_pow_and]
  cases w.testBit k <;> simp

theorem isOcc_eq (w : Nat) : isOcc w = w.testBit 0 := and_pow w 0
theorem isCont_eq (w : Nat) : isCont w = w.testBit 1 := and_pow w 1
theorem isSh_eq (w : Nat) : isSh w = w.testBit 2 := and_pow w 2
theorem isDel_eq (w : Nat) : isDel w = w.testBit 3 := and_pow w 3

theorem qmask_testBit (qb i : Nat) : (qmask qb).testBit i = (decide (4 ≤ i) && decide (i - 4 < qb)) := by
  simp only [qmask, Nat.testBit_shiftLeft, Nat.testBit_two_pow_sub_one, ge_iff_le]

theorem quo_testBit (qb w i : Nat) : ((w &&& qmask qb) >>> 4).testBit i = (w.testBit (4 + i) && decide (i < qb)) := by
  simp only [Nat.testBit_shiftRight, Nat.testBit_and, qmask_testBit]
  congr 1
  simp

theorem isNull_iff (qm w : Nat) : isNull w = true ↔ ¬ (decode qm w).fil := by
  have h : isNull w = true ↔ w % 2 ^ 4 = 0 := by simp [isNull]
  rw [h]
  simp only [decode, Slot.fil, isOcc_eq, isCont_eq, isSh_eq, isDel_eq, not_or, Bool.not_eq_true]
  constructor
  · intro h0
    have : ∀ i, i < 4 → w.testBit i = false := by
      intro i hi
      have := Nat.testBit_mod_two_pow w 4 i
      rw [h0] at this
      simpa [hi] using this.symm
    exact ⟨this 0 (by omega), this 1 (by omega), this 2 (by omega), this 3 (by omega)⟩
  · rintro ⟨h0, h1, h2, h3⟩
    refine Nat.eq_of_testBit_eq ?_
    intro i
    rw [Nat.testBit_mod_two_pow, Nat.zero_testBit]
    match i with
    | 0 => simp [h0]
    | 1 => simp [h1]
    | 2 => simp [h2]
    | 3 => simp [h3]
    | i + 4 => simp

/-- The word written by the loop that moves slots. -/
theorem decode_shift (qb a b : Nat) : decode (qmask qb) ((a &&& (kOcc ||| kDel)) ||| (b &&& (qmask qb ||| kCont)) ||| kSh) =
    ⟨(decode (qmask qb) a).occ, (decode (qmask qb) b).cont, true, (decode (qmask qb) a).del, (decode (qmask qb) b).quo⟩ := by
  have c9 : ∀ i, (kOcc ||| kDel).testBit i = (decide (i = 0) || decide (i = 3)) := by
    intro i
    match i with
    | 0 => rfl
    | 1 => rfl
    | 2 => rfl
    | 3 => rfl
    | i + 4 =>
      rw [Nat.testBit_lt_two_pow (x := kOcc ||| kDel) (i := i + 4) (Nat.lt_of_lt_of_le (show kOcc ||| kDel < 2 ^ 4 by decide) (Nat.pow_le_pow_right (by decide) (by omega)))]
      simp
  have c2 : ∀ i, kCont.testBit i = decide (i = 1) := by
    intro i
    rw [show kCont = 2 ^ 1 from rfl, Nat.testBit_two_pow]
    simp [eq_comm]
  have c4 : ∀ i, kSh.testBit i = decide (i = 2) := by
    intro i
    rw [show kSh = 2 ^ 2 from rfl, Nat.testBit_two_pow]
    simp [eq_comm]
  simp only [decode, isOcc_eq, isCont_eq, isSh_eq, isDel_eq, Nat.testBit_or, Nat.testBit_and, c9, c2, c4, qmask_testBit, Slot.mk.injEq]
  refine ⟨by simp, by simp, by simp, by simp, ?_⟩
  refine Nat.eq_of_testBit_eq ?_
  intro i
  rw [quo_testBit, quo_testBit]
  simp only [Nat.testBit_or, Nat.testBit_and, c9, c2, c4, qmask_testBit]
  have h0 : decide (4 + i = 0) = false := by simp
  have h1 : decide (4 + i = 1) = false := by simp; omega
  have h2 : decide (4 + i = 2) = false := by simp; omega
  have h3 : decide (4 + i = 3) = false := by simp; omega
  have h4 : decide (4 ≤ 4 + i) = true := by simp
  have h5 : 4 + i - 4 = i := by omega
  rw [h0, h1, h2, h3, h4, h5]
  cases b.testBit (4 + i) <;> cases decide (i < qb) <;> simp

theorem decode_or_occ (qb w : Nat) : decode (qmask qb) (w ||| kOcc) = { decode (qmask qb) w with occ := true } := by
  have c1 : ∀ i, kOcc.testBit i = decide (i = 0) := by
    intro i
    rw [show kOcc = 2 ^ 0 from rfl, Nat.testBit_two_pow]
    simp [eq_comm]
  simp only [decode, isOcc_eq, isCont_eq, isSh_eq, isDel_eq, Nat.testBit_or, c1, Slot.mk.injEq]
  refine ⟨by simp, by simp, by simp, by simp, ?_⟩
  refine Nat.eq_of_testBit_eq ?_
  intro i
  rw [quo_testBit, quo_testBit]
  simp only [Nat.testBit_or, c1]
  simp

theorem kDel_testBit (i : Nat) : kDel.testBit i = decide (i = 3) := by
  rw [show kDel = 2 ^ 3 from rfl, Nat.testBit_two_pow]
  simp [eq_comm]

/-- Marking a slot as deleted. -/
theorem decode_or_del (qb w : Nat) : decode (qmask qb) (w ||| kDel) = { decode (qmask qb) w with del := true } := by
  simp only [decode, isOcc_eq, isCont_eq, isSh_eq, isDel_eq, Nat.testBit_or, kDel_testBit, Slot.mk.injEq]
  refine ⟨by simp, by simp, by simp, by simp, ?_⟩
  refine Nat.eq_of_testBit_eq ?_
  intro i
  rw [quo_testBit, quo_testBit]
  simp only [Nat.testBit_or, kDel_testBit]
  have h3 : decide (4 + i = 3) = false := by simp; omega
  rw [h3, Bool.or_false]

/-- Removing the mark. -/
theorem decode_clear (qb w : Nat) (hw : w < 2 ^ 64) : decode (qmask qb) (w &&& (2 ^ 64 - 1 - kDel)) = { decode (qmask qb) w with del := false } := by
  have hb : ∀ i, (w &&& (2 ^ 64 - 1 - kDel)).testBit i = (w.testBit i && !decide (i = 3)) := by
    intro i
    rw [Nat.testBit_and]
    by_cases hi : i < 64
    · congr 1
      have : ∀ i, i < 64 → (2 ^ 64 - 1 - kDel).testBit i = !decide (i = 3) := by decide
      exact this i hi
    · rw [Nat.testBit_lt_two_pow (Nat.lt_of_lt_of_le hw (Nat.pow_le_pow_right (by decide) (by omega)))]
      rfl
  simp only [decode, isOcc_eq, isCont_eq, isSh_eq, isDel_eq, hb, Slot.mk.injEq]
  refine ⟨by simp, by simp, by simp, by simp, ?_⟩
  refine Nat.eq_of_testBit_eq ?_
  intro i
  rw [quo_testBit, quo_testBit, hb]
  have h3 : decide (4 + i = 3) = false := by simp; omega
  rw [h3, Bool.not_false, Bool.and_true]

/-- The word of a new element; `x` are the continuation and shifted flags. -/
theorem decode_new (qb a q : Nat) (x : Bool) (y : Bool) (hq : q < 2 ^ qb) :
    decode (qmask qb) ((a &&& kOcc) ||| (q <<< 4) ||| (if x then kCont else 0) ||| (if y then kSh else 0)) = ⟨(decode (qmask qb) a).occ, x, y, false, q⟩ := by
  have c1 : ∀ i, kOcc.testBit i = decide (i = 0) := by
    intro i
    rw [show kOcc = 2 ^ 0 from rfl, Nat.testBit_two_pow]
    simp [eq_comm]
  have c2 : ∀ i, (if x then kCont else 0).testBit i = (x && decide (i = 1)) := by
    intro i
    cases x with
    | false => simp
    | true =>
      rw [if_pos rfl, show kCont = 2 ^ 1 from rfl, Nat.testBit_two_pow]
      simp [eq_comm]
  have c4 : ∀ i, (if y then kSh else 0).testBit i = (y && decide (i = 2)) := by
    intro i
    cases y with
    | false => simp
    | true =>
      rw [if_pos rfl, show kSh = 2 ^ 2 from rfl, Nat.testBit_two_pow]
      simp [eq_comm]
  simp only [decode, isOcc_eq, isCont_eq, isSh_eq, isDel_eq, Nat.testBit_or, Nat.testBit_and, Nat.testBit_shiftLeft, c1, c2, c4, Slot.mk.injEq]
  refine ⟨by simp, by simp, by simp, by simp, ?_⟩
  refine Nat.eq_of_testBit_eq ?_
  intro i
  rw [quo_testBit]
  simp only [Nat.testBit_or, Nat.testBit_and, Nat.testBit_shiftLeft, c1, c2, c4]
  have h0 : decide (4 + i = 0) = false := by simp
  have h1 : decide (4 + i = 1) = false := by simp; omega
  have h2 : decide (4 + i = 2) = false := by simp; omega
  have h4 : decide (4 + i ≥ 4) = true := by simp
  have h5 : 4 + i - 4 = i := by omega
  rw [h0, h1, h2, h4, h5]
  simp only [Bool.and_false, Bool.false_or, Bool.or_false, Bool.true_and]
  by_cases hi : i < qb
  · simp [hi]
  · rw [Nat.testBit_lt_two_pow (Nat.lt_of_lt_of_le hq (Nat.pow_le_pow_right (by decide) (by omega)))]
    simp

/-- The members of a table that are fixed by its parameters. -/
structure WT (kb vw : Nat) (t : Tab) : Prop where
  keyBits : t.keyBits = kb
  bucket : t.bucket = 2 ^ t.bucketBits
  mask : t.bucketMask = t.bucket - 1
  quoMask : t.quoMask = qmask (kb - t.bucketBits)
  arr : WF t.arr (kb - t.bucketBits + 4)
  arrSize : t.arr.size = t.bucket
  values : WF t.values vw
  valuesSize : t.values.size = t.bucket

/-- The word of a slot. -/
def word (kb : Nat) (t : Tab) (i : Nat) : Nat := (elems t.arr (kb - t.bucketBits + 4)).getD i 0

/-- The value of a slot. -/
def valOf (vw : Nat) (t : Tab) (i : Nat) : Nat := (elems t.values vw).getD i 0

/-- The slots counted from slot `s`. -/
def view (kb : Nat) (t : Tab) (s p : Nat) : Slot := decode (qmask (kb - t.bucketBits)) (word kb t ((s + p) % t.bucket))

/-- The values counted from slot `s`. -/
def vals (vw : Nat) (t : Tab) (s p : Nat) : Nat := valOf vw t ((s + p) % t.bucket)

variable {kb vw : Nat} {t : Tab}

theorem WT.pos (w : WT kb vw t) : 0 < t.bucket := by rw [w.bucket]; exact Nat.two_pow_pos _

theorem get_word (w : WT kb vw t) {i : Nat} (hi : i < t.bucket) : t.arr.get i = some (word kb t i) := by
  rw [get_spec _ _ w.arr i (by rw [w.arrSize]; exact hi), word, List.getD_eq_getElem?_getD,
    List.getElem?_eq_getElem (by rw [elems_length, w.arrSize]; exact hi)]
  rfl

theorem word_lt (i : Nat) : word kb t i < 2 ^ (kb - t.bucketBits + 4) := by
  unfold word
  rw [List.getD_eq_getElem?_getD]
  cases h : (elems t.arr (kb - t.bucketBits + 4))[i]? with
  | none => exact Nat.two_pow_pos _
  | some x => exact elems_lt _ _ x (List.mem_of_getElem? h)

theorem get_val (w : WT kb vw t) {i : Nat} (hi : i < t.bucket) : t.values.get i = some (valOf vw t i) := by
  rw [get_spec _ _ w.values i (by rw [w.valuesSize]; exact hi), valOf, List.getD_eq_getElem?_getD,
    List.getElem?_eq_getElem (by rw [elems_length, w.valuesSize]; exact hi)]
  rfl

theorem val_lt (i : Nat) : valOf vw t i < 2 ^ vw := by
  unfold valOf
  rw [List.getD_eq_getElem?_getD]
  cases h : (elems t.values vw)[i]? with
  | none => exact Nat.two_pow_pos _
  | some x => exact elems_lt _ _ x (List.mem_of_getElem? h)

/-- Writing the word of a slot. -/
theorem set_word (w : WT kb vw t) {i x : Nat} (hi : i < t.bucket) (hx : x < 2 ^ (kb - t.bucketBits + 4)) :
    ∃ a, t.arr.set i x = some a ∧ WT kb vw { t with arr := a } ∧ ∀ j, word kb { t with arr := a } j = if j = i then x else word kb t j := by
  obtain ⟨a, e, h1, h2, h3, _⟩ := set_spec _ _ w.arr i x (by rw [w.arrSize]; exact hi) hx
  refine ⟨a, e, ⟨w.keyBits, w.bucket, w.mask, w.quoMask, h1, by rw [← w.arrSize]; exact h2, w.values, w.valuesSize⟩, ?_⟩
  intro j
  simp only [word, h3, List.getD_eq_getElem?_getD]
  by_cases hj : j = i
  · rw [if_pos hj, hj, List.getElem?_set_self (by rw [elems_length, w.arrSize]; exact hi)]
    rfl
  · rw [if_neg hj, List.getElem?_set_ne (by omega)]

/-- Writing the value of a slot. -/
theorem set_val (w : WT kb vw t) {i x : Nat} (hi : i < t.bucket) (hx : x < 2 ^ vw) :
    ∃ a, t.values.set i x = some a ∧ WT kb vw { t with values := a } ∧ ∀ j, valOf vw { t with values := a } j = if j = i then x else valOf vw t j := by
  obtain ⟨a, e, h1, h2, h3, _⟩ := set_spec _ _ w.values i x (by rw [w.valuesSize]; exact hi) hx
  refine ⟨a, e, ⟨w.keyBits, w.bucket, w.mask, w.quoMask, w.arr, w.arrSize, h1, by rw [← w.valuesSize]; exact h2⟩, ?_⟩
  intro j
  simp only [valOf, h3, List.getD_eq_getElem?_getD]
  by_cases hj : j = i
  · rw [if_pos hj, hj, List.getElem?_set_self (by rw [elems_length, w.valuesSize]; exact hi)]
    rfl
  · rw [if_neg hj, List.getElem?_set_ne (by omega)]

theorem view_per (s p : Nat) : view kb t s (p + t.bucket) = view kb t s p := by
  unfold view
  rw [← Nat.add_assoc, Nat.add_mod_right]

theorem vals_per (s p : Nat) : vals vw t s (p + t.bucket) = vals vw t s p := by
  unfold vals
  rw [← Nat.add_assoc, Nat.add_mod_right]

theorem idx_lt (w : WT kb vw t) (x : Nat) : x % t.bucket < t.bucket := Nat.mod_lt _ w.pos

theorem succ_idx (w : WT kb vw t) (x : Nat) : t.succ (x % t.bucket) = (x + 1) % t.bucket := by
  have hp := w.pos
  have hl := Nat.mod_lt x hp
  unfold Tab.succ
  rw [Nat.add_mod x 1]
  by_cases h1 : t.bucket = 1
  · rw [h1]; simp [Nat.mod_one]
  · rw [Nat.mod_eq_of_lt (show 1 < t.bucket by omega)]
    split
    · rename_i h
      rw [h, Nat.mod_self]
    · rename_i h
      rw [Nat.mod_eq_of_lt (show x % t.bucket + 1 < t.bucket by omega)]

theorem pred_idx (w : WT kb vw t) (x : Nat) (hx : 0 < x) : t.pred (x % t.bucket) = (x - 1) % t.bucket := by
  have hp := w.pos
  obtain ⟨y, rfl⟩ : ∃ y, x = y + 1 := ⟨x - 1, by omega⟩
  have hl := Nat.mod_lt y hp
  rw [← succ_idx w y, Nat.add_sub_cancel]
  unfold Tab.succ Tab.pred
  split
  · rename_i h
    rw [if_pos rfl]
    omega
  · rw [if_neg (by omega)]
    rfl

theorem idx_inj {B s p q : Nat} (hp : p < B) (hq : q < B) (h : (s + p) % B = (s + q) % B) : p = q := by
  have key : ∀ p q, p ≤ q → q < B → (s + p) % B = (s + q) % B → p = q := by
    intro p q hpq hq h
    have h1 : (q - p) % B = 0 := by
      have := Nat.sub_mod_eq_zero_of_mod_eq h.symm
      rwa [Nat.add_sub_add_left] at this
    rw [Nat.mod_eq_of_lt (by omega)] at h1
    omega
  rcases Nat.le_total p q with hle | hle
  · exact key p q hle hq h
  · exact (key q p hle hp h.symm).symm

/-- Reading the word of a slot. -/
theorem read_view (w : WT kb vw t) (s p : Nat) : ∃ x, t.arr.get ((s + p) % t.bucket) = some x ∧ isOcc x = (view kb t s p).occ ∧ isCont x = (view kb t s p).cont ∧
    isSh x = (view kb t s p).sh ∧ isDel x = (view kb t s p).del ∧ t.quo x = (view kb t s p).quo ∧ (isNull x = true ↔ ¬ (view kb t s p).fil) :=
  ⟨_, get_word w (idx_lt w _), rfl, rfl, rfl, rfl, by simp only [Tab.quo, w.quoMask]; rfl, isNull_iff _ _⟩

end Verif.CHT
