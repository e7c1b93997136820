/-
New tables, growth, `set` and `reserve`.
-/
import Verif.CHT.Resize
import Verif.Bits.Props

namespace Verif.CHT
open Verif.Bits Verif.Fit

variable {P : Par} {kb vw : Nat} {t : Tab} {M : Nat → Option Nat} {s : Nat} {home : Nat → Nat}

theorem ctz_pow {b : Nat} (hb : b < 64) : ctz64 (BitVec.ofNat 64 (2 ^ b)) = b := by
  refine C04_unique _ _ _ (C04_ctz64 _) ⟨by omega, ?_, ?_⟩
  · intro j hj
    rw [BitVec.getLsbD_ofNat, Nat.testBit_two_pow]
    simp
    omega
  · intro _
    rw [BitVec.getLsbD_ofNat, Nat.testBit_two_pow]
    simp [hb]

theorem ofSize_spec (w n : Nat) (h1 : 1 ≤ w) (h63 : w ≤ 63) : ∃ v, ofSize w n = some v ∧ WF v w ∧ v.size = n ∧ elems v w = List.replicate n 0 := by
  obtain ⟨v, e, hv, hl, _⟩ := init_spec w h1 h63 (.size n) trivial
  have hl' : elems v w = List.replicate n 0 := hl
  exact ⟨v, e, hv, by rw [← elems_length v w, hl', List.length_replicate], hl'⟩

/-- A table of null slots. -/
theorem empty_at {n : Nat} (t : Tab) (harr : elems t.arr (kb - t.bucketBits + 4) = List.replicate n 0) (hu : t.used = 0) :
    At P kb vw t (fun _ => none) 0 id ∧ NoDel kb t := by
  have hword : ∀ i, word kb t i = 0 := by
    intro i
    unfold word
    rw [harr, List.getD_eq_getElem?_getD, List.getElem?_replicate]
    split <;> rfl
  have hv : ∀ s p, view kb t s p = ⟨false, false, false, false, 0⟩ := by
    intro s p
    unfold view
    rw [hword]
    simp only [decode, isOcc_eq, isCont_eq, isSh_eq, isDel_eq, Nat.zero_testBit, Nat.zero_and, Nat.zero_shiftRight]
  have hf : ∀ s p, ¬ (view kb t s p).fil := by
    intro s p
    rw [hv]
    simp [Slot.fil]
  refine ⟨⟨?_, ?_, ?_, ?_⟩, fun i _ => by rw [hword, isDel_eq, Nat.zero_testBit]⟩
  · refine ⟨?_, ?_, ?_, ?_, ?_, ?_, ?_, ?_⟩
    · intro p _ h; exact absurd h (hf 0 p)
    · intro p _ h; exact absurd h (hf 0 p)
    · intro p q _ _ h; exact absurd h (hf 0 p)
    · intro p _
      rw [hv]
      simp [Slot.fil]
    · rw [hv]
    · intro p _
      rw [hv, hv]
      simp [Slot.fil]
    · intro p _
      rw [hv]
      simp only [Bool.false_eq_true, false_iff]
      rintro ⟨q, _, h, _⟩
      exact hf 0 q h
    · intro p q _ _ h; exact absurd h (hf 0 p)
  · intro p _ h; exact absurd h (hf 0 p)
  · intro k _ v
    simp only [reduceCtorEq, false_iff]
    rintro ⟨p, _, h, _⟩
    exact hf 0 p h
  · have := filled_none (f := view kb t 0) (p := 0) (d := t.bucket) (fun q _ _ => hf 0 q)
    rw [Nat.zero_add] at this
    rw [hu, this]
    rfl

theorem empty_inv {n : Nat} (t : Tab) (w : WT kb vw t) (harr : elems t.arr (kb - t.bucketBits + 4) = List.replicate n 0)
    (hmax : t.maxSize = t.bucket * P.load / 100) (hmin : t.minSize = t.bucket * (P.load - 1) / 400 + 1) (hroom : 100 ≤ t.bucket * P.load) (hfit : t.bucket * P.load < 2 ^ 64) (hs : t.size = 0) (hu : t.used = 0) (hsm : t.bucket ≤ 2 ^ 63) :
    Inv P kb vw t (fun _ => none) := by
  obtain ⟨h1, h2⟩ := empty_at (P := P) (vw := vw) t harr hu
  exact ⟨w, hmax, hmin, hroom, hfit, h2, by omega, hsm, by omega, 0, id, h1⟩

/-- The widths of the values: the template argument, or the width that was set if that is 0. -/
structure Width (P : Par) (vw : Nat) : Prop where
  pos : 1 ≤ vw
  le : vw ≤ 63
  arg : P.vbits = vw ∨ P.vbits = 0

theorem new_spec (V : Width P vw) (hv : P.vbits = vw) {b : Nat} (hb : b < 64) (hk : kb ≤ 59 + b) (hroom : 100 ≤ 2 ^ b * P.load) (hfit : 2 ^ b * P.load < 2 ^ 64) :
    ∃ t, new P false kb (2 ^ b) = some t ∧ Inv P kb vw t (fun _ => none) ∧ t.used = 0 ∧ t.bucket = 2 ^ b := by
  obtain ⟨va, e1, w1, s1, l1⟩ := ofSize_spec vw (2 ^ b) V.pos V.le
  obtain ⟨ar, e2, w2, s2, l2⟩ := ofSize_spec (kb - b + 4) (2 ^ b) (by omega) (by omega)
  have h0 : Fit.new 0 = some ⟨0, 0#64, 0, []⟩ := by decide
  refine ⟨(⟨kb, 2 ^ b, b, 2 ^ b - 1, 2 ^ b * P.load % 2 ^ 64 / 100, 2 ^ b * (P.load - 1) % 2 ^ 64 / 400 + 1, ar, va, (2 ^ (kb - b) - 1) <<< 4, 0, 0⟩ : Tab),
    by simp only [new, Bool.false_eq_true, if_false, h0, Option.bind_eq_bind, Option.bind_some, ctz_pow hb, hv, e1, e2, Option.pure_def], ?_, rfl, rfl⟩
  exact empty_inv _ ⟨rfl, rfl, rfl, rfl, w2, s2, w1, s1⟩ l2 (by show 2 ^ b * P.load % 2 ^ 64 / 100 = _; rw [Nat.mod_eq_of_lt hfit])
      (by show 2 ^ b * (P.load - 1) % 2 ^ 64 / 400 + 1 = _; rw [Nat.mod_eq_of_lt (Nat.lt_of_le_of_lt (Nat.mul_le_mul_left _ (Nat.sub_le _ _)) hfit)]) hroom hfit rfl rfl (Nat.pow_le_pow_right (by decide) (by omega))

theorem new_spec0 (V : Width P vw) (hv : P.vbits = 0) {b : Nat} (hb : b < 64) (hk : kb ≤ 59 + b) (hroom : 100 ≤ 2 ^ b * P.load) (hfit : 2 ^ b * P.load < 2 ^ 64) :
    ∃ t0 t, new P false kb (2 ^ b) = some t0 ∧ t0.setValueWidth P vw = some (some t) ∧ Inv P kb vw t (fun _ => none) ∧ t.used = 0 ∧ t.bucket = 2 ^ b := by
  obtain ⟨va, e1, w1, s1, l1⟩ := ofSize_spec vw (2 ^ b) V.pos V.le
  obtain ⟨ar, e2, w2, s2, l2⟩ := ofSize_spec (kb - b + 4) (2 ^ b) (by omega) (by omega)
  have h0 : Fit.new 0 = some ⟨0, 0#64, 0, []⟩ := by decide
  have h1 : ∃ v0, ofSize 0 (2 ^ b) = some v0 := by
    unfold ofSize
    rw [h0]
    exact ⟨_, rfl⟩
  obtain ⟨v0, h1⟩ := h1
  refine ⟨(⟨kb, 2 ^ b, b, 2 ^ b - 1, 2 ^ b * P.load % 2 ^ 64 / 100, 2 ^ b * (P.load - 1) % 2 ^ 64 / 400 + 1, ar, v0, (2 ^ (kb - b) - 1) <<< 4, 0, 0⟩ : Tab), { (⟨kb, 2 ^ b, b, 2 ^ b - 1, 2 ^ b * P.load % 2 ^ 64 / 100, 2 ^ b * (P.load - 1) % 2 ^ 64 / 400 + 1, ar, v0, (2 ^ (kb - b) - 1) <<< 4, 0, 0⟩ : Tab) with values := va },
    by simp only [new, Bool.false_eq_true, if_false, h0, Option.bind_eq_bind, Option.bind_some, ctz_pow hb, hv, h1, e2, Option.pure_def], ?_, ?_, rfl, rfl⟩
  · simp only [Tab.setValueWidth, hv, ne_eq, not_true_eq_false, or_self, if_false, e1, Option.bind_eq_bind, Option.bind_some, Option.pure_def]
  · exact empty_inv _ ⟨rfl, rfl, rfl, rfl, w2, s2, w1, s1⟩ l2 (by show 2 ^ b * P.load % 2 ^ 64 / 100 = _; rw [Nat.mod_eq_of_lt hfit])
      (by show 2 ^ b * (P.load - 1) % 2 ^ 64 / 400 + 1 = _; rw [Nat.mod_eq_of_lt (Nat.lt_of_le_of_lt (Nat.mul_le_mul_left _ (Nat.sub_le _ _)) hfit)]) hroom hfit rfl rfl (Nat.pow_le_pow_right (by decide) (by omega))

theorem fresh_spec (V : Width P vw) (w : WT kb vw t) {b : Nat} (hb : b < 64) (hk : kb ≤ 59 + b) (hroom : 100 ≤ 2 ^ b * P.load) (hfit : 2 ^ b * P.load < 2 ^ 64) :
    ∃ nx, t.fresh P false (2 ^ b) = some nx ∧ Inv P kb vw nx (fun _ => none) ∧ nx.used = 0 ∧ nx.bucket = 2 ^ b := by
  unfold Tab.fresh
  rw [w.keyBits]
  by_cases hv : P.vbits = 0
  · obtain ⟨t0, nx, e1, e2, h1, h2, h3⟩ := new_spec0 V hv hb hk hroom hfit
    rw [e1]
    simp only [Option.bind_eq_bind, Option.bind_some, if_pos hv, w.values.width, e2]
    exact ⟨nx, rfl, h1, h2, h3⟩
  · obtain ⟨nx, e1, h1, h2, h3⟩ := new_spec V (V.arg.resolve_right hv) hb hk hroom hfit
    rw [e1]
    simp only [Option.bind_eq_bind, Option.bind_some, if_neg hv, Option.pure_def]
    exact ⟨nx, rfl, h1, h2, h3⟩

theorem resize_spec (G : Good P kb) (V : Width P vw) (I : Inv P kb vw t M) {b : Nat} (hb : b < 64) (hk : kb ≤ 59 + b) (hroom : 100 ≤ 2 ^ b * P.load) (hfit : 2 ^ b * P.load < 2 ^ 64)
    {Q : Tab → Prop} {setF : Tab → Nat → Nat → Option Tab} (hset : SetOk P kb vw t.used Q setF)
    (hQ : ∀ nx, Inv P kb vw nx (fun _ => none) → nx.bucket = 2 ^ b → Q nx) :
    ∃ t', t.resize P false setF (2 ^ b) = some t' ∧ Inv P kb vw t' M ∧ Q t' ∧ t'.used = t.used := by
  obtain ⟨nx, e1, h1, h2, h3⟩ := fresh_spec V I.wt hb hk hroom hfit
  unfold Tab.resize
  rw [e1]
  exact copy_spec G I hset h1 (hQ nx h1 h3) h2

/-- Copying a table with marks. -/
theorem resize_live (G : Good P kb) (V : Width P vw) (w : WT kb vw t) (A : At P kb vw t M s home) {b : Nat} (hb : b < 64) (hk : kb ≤ 59 + b) (hroom : 100 ≤ 2 ^ b * P.load) (hfit : 2 ^ b * P.load < 2 ^ 64)
    {Q : Tab → Prop} {setF : Tab → Nat → Nat → Option Tab} (hset : SetOk P kb vw (lcount kb t) Q setF)
    (hQ : ∀ nx, Inv P kb vw nx (fun _ => none) → nx.bucket = 2 ^ b → Q nx) :
    ∃ t' M', t.resize P false setF (2 ^ b) = some t' ∧ Inv P kb vw t' M' ∧ Q t' ∧ t'.used = lcount kb t := by
  obtain ⟨nx, e1, h1, h2, h3⟩ := fresh_spec V w hb hk hroom hfit
  unfold Tab.resize
  rw [e1]
  obtain ⟨t', M', _, _, e, I, q, u, _⟩ := copy_live G w A hset h1 (hQ nx h1 h3) h2
  exact ⟨t', M', e, I, q, u⟩

/-- `64 - clz(x)` is the number of bits of `x`. -/
theorem bits_spec (x : Nat) (hx : x < 2 ^ 64) : x < 2 ^ (64 - clz64 (BitVec.ofNat 64 x)) ∧ (0 < x → 2 ^ (64 - clz64 (BitVec.ofNat 64 x)) ≤ 2 * x) ∧ (x = 0 → 64 - clz64 (BitVec.ofNat 64 x) = 0) := by
  obtain ⟨h1, h2, h3⟩ := C05_clz64 (BitVec.ofNat 64 x)
  have hbit : ∀ j, j < 64 → (BitVec.ofNat 64 x).getLsbD j = x.testBit j := by
    intro j hj
    rw [BitVec.getLsbD_ofNat]
    simp [hj]
  generalize clz64 (BitVec.ofNat 64 x) = c at *
  have hlt : x < 2 ^ (64 - c) := by
    refine Nat.lt_pow_two_of_testBit _ ?_
    intro i hi
    by_cases hi64 : i < 64
    · have := h2 (63 - i) (by omega)
      rw [show 64 - 1 - (63 - i) = i by omega, hbit i hi64] at this
      exact this
    · exact Nat.testBit_lt_two_pow (Nat.lt_of_lt_of_le hx (Nat.pow_le_pow_right (by decide) (by omega)))
  have hge : c < 64 → 2 ^ (63 - c) ≤ x := by
    intro hc
    have := h3 hc
    rw [show 64 - 1 - c = 63 - c by omega, hbit _ (by omega)] at this
    exact Nat.ge_two_pow_of_testBit this
  refine ⟨hlt, ?_, ?_⟩
  · intro hpos
    by_cases hc : c < 64
    · have := hge hc
      rw [show 64 - c = (63 - c) + 1 by omega, Nat.pow_succ]
      omega
    · rw [show 64 - c = 0 by omega]
      omega
  · intro h0
    by_cases hc : c < 64
    · have := hge hc
      have := Nat.two_pow_pos (63 - c)
      omega
    · omega

/-- The exponent of the bucket number chosen by `reserve`. -/
def newBits (load n : Nat) : Nat := 64 - clz64 (BitVec.ofNat 64 (n * (100 - 1) % 2 ^ 64 / load + 1 - 1))

theorem newBits_spec {load n : Nat} (h1 : 1 ≤ load) (h100 : load ≤ 100) (hn1 : 1 ≤ n) (hn : n ≤ 2 ^ 56) :
    newBits load n < 64 ∧ 2 ^ newBits load n * load < 2 ^ 64 ∧ 99 * n < 2 ^ newBits load n * load ∧ (newBits load n = 0 → load = 100) ∧ (1 ≤ newBits load n → 99 * n + 2 ≤ 2 ^ newBits load n * load + (n % 2)) := by
  have hx : n * 99 / load ≤ n * 99 := Nat.div_le_self _ _
  obtain ⟨b1, b2, b3⟩ := bits_spec (n * 99 / load) (by omega)
  have hnb : newBits load n = 64 - clz64 (BitVec.ofNat 64 (n * 99 / load)) := by
    unfold newBits
    rw [Nat.add_sub_cancel, Nat.mod_eq_of_lt (a := n * (100 - 1)) (by omega)]
  rw [← hnb] at b1 b2 b3
  have hmul : 99 * n < 2 ^ newBits load n * load := by
    have := (Nat.div_lt_iff_lt_mul (show 0 < load by omega)).1 b1
    omega
  have hfit : 2 ^ newBits load n * load < 2 ^ 64 := by
    rcases Nat.eq_zero_or_pos (n * 99 / load) with h0 | hpos
    · rw [b3 h0]
      omega
    · have h2 := Nat.mul_le_mul_right load (b2 hpos)
      have h3 := Nat.div_mul_le_self (n * 99) load
      rw [Nat.mul_assoc] at h2
      omega
  refine ⟨?_, hfit, hmul, ?_, ?_⟩
  · by_contra hlt
    have h64 : 2 ^ 64 ≤ 2 ^ newBits load n := Nat.pow_le_pow_right (by decide) (by omega)
    rcases Nat.eq_zero_or_pos (n * 99 / load) with h0 | hpos
    · have := b3 h0
      omega
    · have := b2 hpos
      omega
  · intro h0
    rw [h0] at hmul
    omega
  · intro h0
    obtain ⟨m, hm⟩ : ∃ m, newBits load n = m + 1 := ⟨newBits load n - 1, by omega⟩
    rw [hm, Nat.pow_succ] at hmul ⊢
    have : 2 ^ m * 2 * load = 2 * (2 ^ m * load) := by ring
    rw [this] at hmul ⊢
    omega

theorem reserveWith_eq {setF : Tab → Nat → Nat → Option Tab} {n : Nat} (h : t.size < n) (hb : newBits P.load n < 64) : t.reserveWith P false setF n = t.resize P false setF (2 ^ newBits P.load n) := by
  unfold Tab.reserveWith
  rw [if_neg (by omega)]
  exact if_pos hb

theorem put_inv (G : Good P kb) (h100 : P.load ≤ 100) (I : Inv P kb vw t M) (hu : t.used < t.maxSize) {k v : Nat} (hk : k < 2 ^ kb) (hv : v < 2 ^ vw) :
    ∃ t', t.put P k v = some t' ∧ Inv P kb vw t' (upd M k v) ∧ t'.used = t.used + (if M k = none then 1 else 0) ∧ t'.bucket = t.bucket ∧ t'.maxSize = t.maxSize := by
  obtain ⟨s, home, A⟩ := I.has
  have hB : t.used < t.bucket := by
    have h1 := I.maxSize
    have : t.bucket * P.load ≤ t.bucket * 100 := Nat.mul_le_mul_left _ h100
    omega
  obtain ⟨t', e, w, ⟨k1, k2, k3, k4⟩, h, u1, s1, _⟩ := put_spec G I.wt A hB hk hv
  refine ⟨t', e, ⟨w, by rw [k3, k1]; exact I.maxSize, by rw [k4, k1]; exact I.minSize, by rw [k1]; exact I.room, by rw [k1]; exact I.fits, (s1 I.noDel).1, ?_, by rw [k1]; exact I.small, ?_, h⟩, u1, k1, k3⟩
  · have := I.small
    rw [(s1 I.noDel).2, u1, I.size]
    split <;> omega
  · rw [u1, k3]
    split <;> omega

theorem setD_not_filled (G : Good P kb) (h100 : P.load ≤ 100) (I : Inv P kb vw t M) (hu : t.used < t.maxSize) {k v : Nat} (hk : k < 2 ^ kb) (hv : v < 2 ^ vw) (d : Nat) :
    ∃ t', setD P false (d + 1) t k v = some t' ∧ Inv P kb vw t' (upd M k v) ∧ t'.used = t.used + (if M k = none then 1 else 0) ∧ t'.bucket = t.bucket ∧ t'.maxSize = t.maxSize := by
  have hf : t.filled = false := by
    unfold Tab.filled
    simp only [beq_eq_false_iff_ne, ne_eq]
    omega
  simp only [setD, hf, Bool.false_eq_true, if_false, Option.pure_def, Option.bind_eq_bind, Option.bind_some]
  exact put_inv G h100 I hu hk hv

/-- Growth: the elements fit into the new table with room to spare. -/
theorem grow_spec (G : Good P kb) (V : Width P vw) (h1 : 1 ≤ P.load) (h100 : P.load ≤ 100) (I : Inv P kb vw t M) (hu : t.used = t.maxSize) (hbig : t.used ≤ 2 ^ 55) (d : Nat) :
    ∃ t', t.reserveWith P false (setD P false (d + 1)) (t.size * 2 % 2 ^ 64) = some t' ∧ Inv P kb vw t' M ∧ t'.used = t.used ∧ t'.used < t'.maxSize ∧ t.bucket < t'.bucket ∧ t'.bucket = 2 ^ newBits P.load (t.size * 2) := by
  have hm := I.maxSize
  have hr := I.room
  have hpos : 1 ≤ t.used := by omega
  have hsz := I.size
  rw [Nat.mod_eq_of_lt (by omega)]
  obtain ⟨n1, nf, n2, n3, n4⟩ := newBits_spec (n := t.size * 2) h1 h100 (by omega) (by omega)
  rw [reserveWith_eq (by omega) n1]
  have hnb : 1 ≤ newBits P.load (t.size * 2) := by
    by_contra h0
    have h0' : newBits P.load (t.size * 2) = 0 := by omega
    have := n3 h0'
    rw [h0', this] at n2
    omega
  have n5 := n4 hnb
  have hgt : t.bucket * P.load < 2 ^ newBits P.load (t.size * 2) * P.load := by omega
  have hgtB : t.bucket < 2 ^ newBits P.load (t.size * 2) := Nat.lt_of_mul_lt_mul_right hgt
  have hkb : kb ≤ 59 + newBits P.load (t.size * 2) := by
    have h63 := I.wt.arr.le
    have : t.bucketBits < newBits P.load (t.size * 2) := by
      have hb := I.wt.bucket
      rw [hb] at hgtB
      exact (Nat.pow_lt_pow_iff_right (by decide)).1 hgtB
    omega
  have hmax : t.used < 2 ^ newBits P.load (t.size * 2) * P.load / 100 := by
    have h6 : 100 * (t.used + 1) ≤ 2 ^ newBits P.load (t.size * 2) * P.load := by omega
    omega
  obtain ⟨t', e1, I', q1, u1⟩ := resize_spec (Q := fun nx => nx.maxSize = 2 ^ newBits P.load (t.size * 2) * P.load / 100 ∧ nx.bucket = 2 ^ newBits P.load (t.size * 2)) G V I n1 hkb (by omega) nf
    (setF := setD P false (d + 1)) (by
      intro nx M' k v hI hQ hlt hk hv hno
      obtain ⟨nx', g1, g2, g3, g4, g5⟩ := setD_not_filled G h100 hI (by rw [hQ.1]; omega) hk hv d
      refine ⟨nx', g1, g2, ⟨by rw [g5]; exact hQ.1, by rw [g4]; exact hQ.2⟩, ?_⟩
      rw [g3, if_pos hno])
    (by
      intro nx hI hb
      exact ⟨by rw [hI.maxSize, hb], hb⟩)
  exact ⟨t', e1, I', u1, by rw [q1.1]; omega, by rw [q1.2]; exact hgtB, q1.2⟩

theorem setD_spec (G : Good P kb) (V : Width P vw) (h1 : 1 ≤ P.load) (h100 : P.load ≤ 100) (I : Inv P kb vw t M) (hbig : t.used ≤ 2 ^ 55) {k v : Nat} (hk : k < 2 ^ kb)
    (hv : v < 2 ^ vw) (d : Nat) : ∃ t', setD P false (d + 2) t k v = some t' ∧ Inv P kb vw t' (upd M k v) ∧ t'.used = t.used + (if M k = none then 1 else 0) := by
  by_cases hu : t.used = t.maxSize
  · obtain ⟨t1, e1, I1, u1, l1, _⟩ := grow_spec G V h1 h100 I hu hbig d
    obtain ⟨t2, e2, I2, u2, _, _⟩ := put_inv G h100 I1 l1 hk hv
    refine ⟨t2, ?_, I2, by rw [u2, u1]⟩
    have hf : t.filled = true := by simp [Tab.filled, hu]
    rw [setD]
    simp only [hf, if_true, e1, Option.bind_eq_bind, Option.bind_some]
    exact e2
  · obtain ⟨t2, e2, I2, u2, _, _⟩ := setD_not_filled G h100 I (by have := I.used; omega) hk hv (d + 1)
    exact ⟨t2, e2, I2, u2⟩

theorem reserve_spec (G : Good P kb) (V : Width P vw) (h1 : 1 ≤ P.load) (h100 : P.load ≤ 100) (hkb : kb ≤ 59 ∨ (kb = 60 ∧ P.load ≤ 99)) (I : Inv P kb vw t M) (hbig : t.used ≤ 2 ^ 55)
    {n : Nat} (hn : n ≤ 2 ^ 56) : ∃ t', t.reserve P false n = some t' ∧ Inv P kb vw t' M ∧ t'.used = t.used := by
  unfold Tab.reserve
  by_cases hle : n ≤ t.size
  · rw [Tab.reserveWith, if_pos hle]
    exact ⟨t, rfl, I, rfl⟩
  · obtain ⟨n1, nf, n2, n3, n4⟩ := newBits_spec (n := n) h1 h100 (by omega) hn
    rw [reserveWith_eq (by omega) n1]
    have hroom : 100 ≤ 2 ^ newBits P.load n * P.load := by
      by_cases h0 : newBits P.load n = 0
      · rw [h0, n3 h0]; decide
      · have := n4 (by omega)
        omega
    have hk : kb ≤ 59 + newBits P.load n := by
      rcases hkb with h | ⟨h, hl⟩
      · omega
      · by_cases h0 : newBits P.load n = 0
        · have := n3 h0
          omega
        · omega
    obtain ⟨t', e1, I', _, u1⟩ := resize_spec (Q := fun _ => True) G V I n1 hk hroom nf (setF := setD P false 3) (by
      intro nx M' k v hI _ hlt hk hv hno
      obtain ⟨nx', g1, g2, g3⟩ := setD_spec G V h1 h100 hI (by omega) hk hv 1
      exact ⟨nx', g1, g2, trivial, by rw [g3, if_pos hno]⟩) (fun _ _ _ => trivial)
    exact ⟨t', e1, I', u1⟩

end Verif.CHT
