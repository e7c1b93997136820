/-
Helper lemmas: base 2^w digit decomposition of the SWAR popcount code.
-/
import Verif.Bits.Model
import Verif.Bits.Spec

namespace Verif.Bits

/-- Ones of a natural number among the low `n` bits. -/
def onesN (n x : Nat) : Nat := (List.range n).countP (fun i => x.testBit i)

theorem ones_eq {n : Nat} (x : BitVec n) : ones x = onesN n x.toNat := rfl

theorem onesBelow_eq {n : Nat} (x : BitVec n) (k : Nat) : onesBelow x k = onesN k x.toNat := rfl

theorem testBit_add_mul {w a : Nat} (b : Nat) (ha : a < 2 ^ w) (j : Nat) :
    (a + 2 ^ w * b).testBit j = if j < w then a.testBit j else b.testBit (j - w) := by
  rw [Nat.add_comm]; exact Nat.testBit_two_pow_mul_add b ha j

theorem onesN_split {w a : Nat} (n b : Nat) (ha : a < 2 ^ w) :
    onesN (w + n) (a + 2 ^ w * b) = onesN w a + onesN n b := by
  unfold onesN
  rw [List.range_add, List.countP_append, List.countP_map]
  congr 1
  · apply List.countP_congr
    intro i hi
    have := List.mem_range.1 hi
    simp [testBit_add_mul b ha, this]
  · apply List.countP_congr
    intro i _
    simp [testBit_add_mul b ha]
    omega

theorem onesN_add (w n x : Nat) : onesN (w + n) x = onesN w x + onesN n (x / 2 ^ w) := by
  have h : x = x % 2 ^ w + 2 ^ w * (x / 2 ^ w) := by rw [Nat.mod_add_div]
  have h2 : onesN w x = onesN w (x % 2 ^ w) := by
    unfold onesN
    apply List.countP_congr
    intro i hi
    have := List.mem_range.1 hi
    simp [Nat.testBit_mod_two_pow, this]
  rw [h2]
  conv => lhs; rw [h]
  rw [onesN_split n _ (Nat.mod_lt _ (Nat.two_pow_pos w))]

theorem and_split {w a c : Nat} (b d : Nat) (ha : a < 2 ^ w) (hc : c < 2 ^ w) :
    (a + 2 ^ w * b) &&& (c + 2 ^ w * d) = (a &&& c) + 2 ^ w * (b &&& d) := by
  apply Nat.eq_of_testBit_eq
  intro i
  rw [Nat.testBit_and, testBit_add_mul b ha, testBit_add_mul d hc,
    testBit_add_mul _ (Nat.and_lt_two_pow a hc)]
  split <;> simp

/-- Little-endian digits in base `2^w`. -/
def ofD (w : Nat) : List Nat → Nat
  | [] => 0
  | a :: l => a + 2 ^ w * ofD w l

theorem ofD_and {w : Nat} : ∀ (l m : List Nat), l.length = m.length →
    (∀ a ∈ l, a < 2 ^ w) → (∀ a ∈ m, a < 2 ^ w) →
    ofD w l &&& ofD w m = ofD w (List.zipWith (· &&& ·) l m)
  | [], [], _, _, _ => by simp [ofD]
  | a :: l, c :: m, h, hl, hm => by
    simp only [List.length_cons, Nat.add_right_cancel_iff] at h
    simp only [List.mem_cons, forall_eq_or_imp] at hl hm
    simp only [ofD, List.zipWith_cons_cons]
    rw [and_split _ _ hl.1 hm.1, ofD_and l m h hl.2 hm.2]

theorem onesN_ofD {w : Nat} : ∀ (l : List Nat), (∀ a ∈ l, a < 2 ^ w) →
    onesN (w * l.length) (ofD w l) = (l.map (onesN w)).sum
  | [], _ => by simp [ofD, onesN]
  | a :: l, h => by
    simp only [List.mem_cons, forall_eq_or_imp] at h
    simp only [ofD, List.length_cons, List.map_cons, List.sum_cons]
    rw [Nat.mul_add, Nat.mul_one, Nat.add_comm, onesN_split _ _ h.1, onesN_ofD l h.2]

/-- The eight bytes of a 64 bit number. -/
def bytes8 (x : Nat) : List Nat :=
  [x % 256, x / 256 % 256, x / 65536 % 256, x / 16777216 % 256, x / 4294967296 % 256,
   x / 1099511627776 % 256, x / 281474976710656 % 256, x / 72057594037927936 % 256]

theorem ofD_bytes8 {x : Nat} (h : x < 2 ^ 64) : ofD 8 (bytes8 x) = x := by
  simp only [ofD, bytes8]; omega

theorem bytes8_lt (x : Nat) : ∀ a ∈ bytes8 x, a < 2 ^ 8 := by
  simp only [bytes8, List.mem_cons, List.not_mem_nil, or_false]
  omega

theorem exists_bytes {x : Nat} (h : x < 2 ^ 64) :
    ∃ a b c d e f g i : Nat, a < 256 ∧ b < 256 ∧ c < 256 ∧ d < 256 ∧ e < 256 ∧ f < 256 ∧ g < 256 ∧
      i < 256 ∧ x = ofD 8 [a, b, c, d, e, f, g, i] := by
  refine ⟨_, _, _, _, _, _, _, _, ?_, ?_, ?_, ?_, ?_, ?_, ?_, ?_, (ofD_bytes8 h).symm⟩ <;>
    exact Nat.mod_lt _ (by decide)

/-- The byte level effect of the three SWAR steps. -/
def f1 (a : Nat) : Nat := a - (a / 2 &&& 0x55)
def f2 (a : Nat) : Nat := (a &&& 0x33) + (a / 4 &&& 0x33)
def f3 (a : Nat) : Nat := (a + a / 16) &&& 0x0F

theorem byte1 : ∀ a : Fin 256, ∀ r : Fin 2,
    ((a.val / 2 + 128 * r.val) &&& 0x55) = (a.val / 2 &&& 0x55) ∧ (a.val / 2 &&& 0x55) ≤ a.val := by
  decide +kernel

theorem byte2 : ∀ a : Fin 256, ∀ r : Fin 4,
    ((a.val / 4 + 64 * r.val) &&& 0x33) = (a.val / 4 &&& 0x33) := by
  decide +kernel

theorem byte3 : ∀ a : Fin 256, ∀ r : Fin 5, a.val % 16 ≤ 4 → a.val / 16 ≤ 4 →
    ((a.val + a.val / 16 + 16 * r.val) &&& 0x0F) = f3 a.val := by
  decide +kernel

theorem byte12 : ∀ a : Fin 256, f1 a.val < 256 ∧ f2 (f1 a.val) < 256 ∧ f2 (f1 a.val) % 16 ≤ 4 ∧
    f2 (f1 a.val) / 16 ≤ 4 ∧ f3 (f2 (f1 a.val)) = onesN 8 a.val ∧ onesN 8 a.val ≤ 8 := by
  decide +kernel

/-- For words whose pairs already hold counts of at most 1 per pair (`popcnt11` etc.). -/
theorem byte55 : ∀ a : Fin 256, a.val &&& 0x55 = a.val →
    f2 a.val < 256 ∧ f2 a.val % 16 ≤ 4 ∧ f2 a.val / 16 ≤ 4 ∧ f3 (f2 a.val) = onesN 8 a.val := by
  decide +kernel

theorem stage1 : ∀ l : List Nat, (∀ a ∈ l, a < 256) →
    (ofD 8 l / 2 &&& ofD 8 (l.map fun _ => 0x55)) ≤ ofD 8 l ∧
    ofD 8 l - (ofD 8 l / 2 &&& ofD 8 (l.map fun _ => 0x55)) = ofD 8 (l.map f1)
  | [], _ => by simp [ofD]
  | a :: l, h => by
    simp only [List.mem_cons, forall_eq_or_imp] at h
    obtain ⟨ih1, ih2⟩ := stage1 l h.2
    simp only [ofD, List.map_cons]
    generalize ofD 8 l = L at *
    have e : (a + 2 ^ 8 * L) / 2 = (a / 2 + 128 * (L % 2)) + 2 ^ 8 * (L / 2) := by omega
    have b1 := byte1 ⟨a, h.1⟩ ⟨L % 2, by omega⟩
    simp only at b1
    rw [e, and_split _ _ (by omega) (by decide), b1.1]
    generalize L / 2 &&& ofD 8 (l.map fun _ => 0x55) = M at *
    generalize ofD 8 (l.map f1) = R at *
    simp only [f1]
    have := b1.2
    generalize a / 2 &&& 0x55 = q at *
    omega

theorem stage2 : ∀ l : List Nat, (∀ a ∈ l, a < 256) →
    (ofD 8 l &&& ofD 8 (l.map fun _ => 0x33)) + (ofD 8 l / 4 &&& ofD 8 (l.map fun _ => 0x33)) =
      ofD 8 (l.map f2)
  | [], _ => by simp [ofD]
  | a :: l, h => by
    simp only [List.mem_cons, forall_eq_or_imp] at h
    have ih := stage2 l h.2
    simp only [ofD, List.map_cons]
    generalize ofD 8 l = L at *
    have e : (a + 2 ^ 8 * L) / 4 = (a / 4 + 64 * (L % 4)) + 2 ^ 8 * (L / 4) := by omega
    have b1 := byte2 ⟨a, h.1⟩ ⟨L % 4, by omega⟩
    simp only at b1
    rw [e, and_split _ _ (by omega) (by decide), and_split _ _ (by omega) (by decide), b1, ← ih]
    simp only [f2]
    omega

theorem ofD_mod16 : ∀ l : List Nat, (∀ a ∈ l, a % 16 ≤ 4) → ofD 8 l % 16 ≤ 4
  | [], _ => by simp [ofD]
  | a :: l, h => by
    simp only [List.mem_cons, forall_eq_or_imp] at h
    simp only [ofD]
    omega

theorem stage3 : ∀ l : List Nat, (∀ a ∈ l, a < 256 ∧ a % 16 ≤ 4 ∧ a / 16 ≤ 4) →
    (ofD 8 l + ofD 8 l / 16) &&& ofD 8 (l.map fun _ => 0x0F) = ofD 8 (l.map f3)
  | [], _ => by simp [ofD]
  | a :: l, h => by
    simp only [List.mem_cons, forall_eq_or_imp] at h
    have ih := stage3 l h.2
    have hm := ofD_mod16 l (fun a ha => (h.2 a ha).2.1)
    simp only [ofD, List.map_cons]
    generalize ofD 8 l = L at *
    have e : (a + 2 ^ 8 * L) + (a + 2 ^ 8 * L) / 16 =
        (a + a / 16 + 16 * (L % 16)) + 2 ^ 8 * (L + L / 16) := by omega
    have b1 := byte3 ⟨a, h.1.1⟩ ⟨L % 16, by omega⟩ h.1.2.1 h.1.2.2
    simp only at b1
    rw [e, and_split _ _ (by omega) (by decide), b1, ih]

theorem sum8 (a b c d e f g i : Nat) (ha : a ≤ 8) (hb : b ≤ 8) (hc : c ≤ 8) (hd : d ≤ 8) (he : e ≤ 8)
    (hf : f ≤ 8) (hg : g ≤ 8) (hi : i ≤ 8) :
    (0x0101010101010101 * ofD 8 [a, b, c, d, e, f, g, i]) % 2 ^ 64 / 2 ^ 56 =
      a + b + c + d + e + f + g + i := by
  have key : ∀ lo s h : Nat, lo < 2 ^ 56 → s < 2 ^ 8 → (lo + 2 ^ 56 * s + 2 ^ 64 * h) % 2 ^ 64 / 2 ^ 56 = s := by
    intro lo s h h1 h2
    omega
  rw [← key (2 ^ 0 * (a) + 2 ^ 8 * (a + b) + 2 ^ 16 * (a + b + c) + 2 ^ 24 * (a + b + c + d) + 2 ^ 32 * (a + b + c + d + e) + 2 ^ 40 * (a + b + c + d + e + f) + 2 ^ 48 * (a + b + c + d + e + f + g))
    (a + b + c + d + e + f + g + i)
    (2 ^ 0 * (b + c + d + e + f + g + i) + 2 ^ 8 * (c + d + e + f + g + i) + 2 ^ 16 * (d + e + f + g + i) + 2 ^ 24 * (e + f + g + i) + 2 ^ 32 * (f + g + i) + 2 ^ 40 * (g + i) + 2 ^ 48 * (i)) (by omega) (by omega)]
  congr 2
  simp only [ofD]
  omega

end Verif.Bits
