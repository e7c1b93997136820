/-
Property theorem C83: what `ShowAsBinary` writes.
-/
import Verif.Log.Model

namespace Verif.Log

/-- The number written by binary digits; other characters are skipped. -/
def readBinary (l : List Char) : Nat := l.foldl (fun a c => if c = '0' then 2 * a else if c = '1' then 2 * a + 1 else a) 0

theorem readBinary_fold : ∀ (l : List Char) (a : Nat), l.foldl (fun a c => if c = '0' then 2 * a else if c = '1' then 2 * a + 1 else a) a =
    a * 2 ^ (l.countP fun c => c == '0' || c == '1') + readBinary l := by
  intro l
  induction l with
  | nil => intro a; simp [readBinary]
  | cons c l ih =>
    intro a
    unfold readBinary
    rw [List.foldl_cons, List.foldl_cons, ih, ih (if c = '0' then _ else _)]
    by_cases h0 : c = '0'
    · subst h0
      simp [Nat.pow_succ, Nat.mul_comm, Nat.mul_assoc]
    · by_cases h1 : c = '1'
      · subst h1
        simp [Nat.pow_succ, Nat.add_mul, Nat.mul_comm, Nat.add_assoc, Nat.mul_assoc]
      · simp [h0, h1]

/-- The layout: eight digits and a space for every byte, then the line end. -/
inductive Layout : Nat → List Char → Prop
  | nil : Layout 0 ['\n']
  | cons (n : Nat) (ds rest : List Char) (hl : ds.length = 8) (hd : ∀ c ∈ ds, c = '0' ∨ c = '1') (hr : Layout n rest) :
    Layout (n + 1) (ds ++ ' ' :: rest)

theorem digit (x : Int) : (Nat.digitChar (x % 2).toNat = '0' ∧ x % 2 = 0) ∨ (Nat.digitChar (x % 2).toNat = '1' ∧ x % 2 = 1) := by
  rcases Int.emod_two_eq x with h | h <;> rw [h]
  · exact Or.inl ⟨rfl, rfl⟩
  · exact Or.inr ⟨rfl, rfl⟩

theorem emod_pow_succ (v : Int) (i : Nat) : v % 2 ^ (i + 1) = 2 ^ i * ((v / 2 ^ i) % 2) + v % 2 ^ i := by
  have hp : (0 : Int) < 2 ^ i := Int.pow_pos (by decide)
  have h1 := Int.emod_add_mul_ediv v (2 ^ i)
  have h2 := Int.emod_add_mul_ediv (v / 2 ^ i) 2
  have h3 := Int.emod_nonneg v (Int.ne_of_gt hp)
  have h4 := Int.emod_lt_of_pos v hp
  rcases Int.emod_two_eq (v / 2 ^ i) with h | h
  · rw [h] at h2 ⊢
    have : v = v % 2 ^ i + 2 ^ (i + 1) * (v / 2 ^ i / 2) := by
      conv => lhs; rw [← h1, ← h2]
      rw [Int.pow_succ, Int.mul_assoc, Int.zero_add]
    conv => lhs; rw [this]
    rw [Int.add_mul_emod_self_left, Int.emod_eq_of_lt h3 (by rw [Int.pow_succ]; omega)]
    omega
  · rw [h] at h2 ⊢
    have : v = (v % 2 ^ i + 2 ^ i) + 2 ^ (i + 1) * (v / 2 ^ i / 2) := by
      conv => lhs; rw [← h1, ← h2]
      rw [Int.pow_succ, Int.mul_assoc, Int.mul_add, Int.mul_one, Int.add_assoc]
    conv => lhs; rw [this]
    rw [Int.add_mul_emod_self_left, Int.emod_eq_of_lt (by omega) (by rw [Int.pow_succ]; omega)]
    omega

theorem showLoop_spec (w : Nat) (v : Int) : ∀ n, n ≤ max w 32 → ∃ out, showLoop w v n = some out ∧
    (out.countP fun c => c == '0' || c == '1') = n ∧ (readBinary out : Int) = v % 2 ^ n ∧
    ((n = 0 ∧ Layout 0 out) ∨ ∃ ds r q, out = ds ++ ' ' :: r ∧ 8 * q + ds.length = n ∧ 1 ≤ ds.length ∧ ds.length ≤ 8 ∧
      (∀ c ∈ ds, c = '0' ∨ c = '1') ∧ Layout q r) := by
  intro n
  induction n with
  | zero =>
    intro _
    refine ⟨['\n'], rfl, rfl, ?_, Or.inl ⟨rfl, Layout.nil⟩⟩
    rw [Int.pow_zero, Int.emod_one]; rfl
  | succ i ih =>
    intro hi
    obtain ⟨out, e, hc, hr, hz⟩ := ih (by omega)
    unfold showLoop
    rw [if_pos (by omega), e]
    have hdig := digit (v / 2 ^ i)
    have hdc : Nat.digitChar ((v / 2 ^ i) % 2).toNat = '0' ∨ Nat.digitChar ((v / 2 ^ i) % 2).toNat = '1' := by
      rcases hdig with ⟨h, _⟩ | ⟨h, _⟩
      · exact Or.inl h
      · exact Or.inr h
    refine ⟨_, rfl, ?_, ?_, ?_⟩
    · have : (if i % 8 = 0 then ' ' :: out else out).countP (fun c => c == '0' || c == '1') = i := by
        split
        · rw [List.countP_cons, hc]; rfl
        · exact hc
      rw [List.countP_cons, this]
      rcases hdc with h | h <;> rw [h] <;> rfl
    · rw [emod_pow_succ, ← hr]
      have hcnt : (if i % 8 = 0 then ' ' :: out else out).countP (fun c => c == '0' || c == '1') = i := by
        split
        · rw [List.countP_cons, hc]; rfl
        · exact hc
      have hrd : readBinary (if i % 8 = 0 then ' ' :: out else out) = readBinary out := by
        split
        · simp [readBinary]
        · rfl
      unfold readBinary
      rw [List.foldl_cons, readBinary_fold, hcnt, hrd]
      rcases hdig with ⟨h, h'⟩ | ⟨h, h'⟩
      · rw [h, h']; simp [readBinary]
      · rw [h, h']; simp [readBinary]
    · right
      by_cases h8 : i % 8 = 0
      · rw [if_pos h8]
        have hlay : Layout (i / 8) out := by
          rcases hz with ⟨rfl, hz⟩ | ⟨ds, r, q, ho, hq, h1, h2, hd, hz⟩
          · exact hz
          · rw [ho, show i / 8 = q + 1 by omega]
            exact Layout.cons q ds r (by omega) hd hz
        exact ⟨[_], out, i / 8, rfl, by simp only [List.length_cons, List.length_nil]; omega, by simp, by simp, by simpa using hdc, hlay⟩
      · rw [if_neg h8]
        rcases hz with ⟨rfl, _⟩ | ⟨ds, r, q, ho, hq, h1, h2, hd, hz⟩
        · omega
        · refine ⟨_ :: ds, r, q, by rw [ho]; rfl, by simp only [List.length_cons]; omega, by simp, by simp only [List.length_cons]; omega, ?_, hz⟩
          intro c hcm
          rcases List.mem_cons.1 hcm with rfl | hcm
          · exact hdc
          · exact hd c hcm

/-- C83: `ShowAsBinary(value, size)`, for a type of `w` bits and at most as many bytes as the promoted type has, writes `size` groups of eight
binary digits, each followed by a space, and a line end; the digits are those of the last `8 size` bits of the value, the first digit the
highest. -/
theorem C83_show (w : Nat) (v : Int) (size : Nat) (hs : size * 8 ≤ max w 32) (hw : w ≤ 64) :
    ∃ out, showAsBinary w v size = some out ∧ Layout size out ∧ out.length = 9 * size + 1 ∧ (readBinary out : Int) = v % 2 ^ (8 * size) := by
  have hlay : ∀ n l, Layout n l → l.length = 9 * n + 1 := by
    intro n l h
    induction h with
    | nil => rfl
    | cons n ds rest hl _ _ ih => simp only [List.length_append, List.length_cons, hl, ih]; omega
  rcases Nat.eq_zero_or_pos size with rfl | hpos
  · refine ⟨['\n'], by rfl, Layout.nil, rfl, ?_⟩
    rw [Nat.mul_zero, Int.pow_zero, Int.emod_one]; rfl
  · obtain ⟨out, e, _, hr, hz⟩ := showLoop_spec w v (8 * size) (by omega)
    refine ⟨out, ?_, ?_, ?_, hr⟩
    · unfold showAsBinary
      simp only
      rw [if_pos (by omega), show (size * 8 + 2 ^ 64 - 1) % 2 ^ 64 % 2 ^ 32 + 1 = 8 * size by omega]
      exact e
    all_goals
      have : Layout size out := by
        rcases hz with ⟨h0, _⟩ | ⟨ds, r, q, ho, hq, h1, h2, hd, hz⟩
        · omega
        · rw [ho, show size = q + 1 by omega]
          exact Layout.cons q ds r (by omega) hd hz
      first
      | exact this
      | exact hlay _ _ this

example := C83_show 16 700 2 (by decide) (by decide)

/-- C83: with the default size, the digits of an unsigned value of `w` bits read back give the value; those of a negative value give it
modulo `2 ^ w`. -/
theorem C83_default (w : Nat) (hw : w = 8 ∨ w = 16 ∨ w = 32 ∨ w = 64) (v : Int) :
    ∃ out, showAsBinary w v (w / 8) = some out ∧ Layout (w / 8) out ∧
      (0 ≤ v → v < 2 ^ w → (readBinary out : Int) = v) ∧ (v < 0 → -2 ^ w ≤ v → (readBinary out : Int) = v + 2 ^ w) := by
  obtain ⟨out, e, hl, _, hr⟩ := C83_show w v (w / 8) (by omega) (by omega)
  refine ⟨out, e, hl, fun h0 h1 => ?_, fun h0 h1 => ?_⟩ <;> rw [hr, show 8 * (w / 8) = w by omega]
  · exact Int.emod_eq_of_lt h0 h1
  · rw [← Int.add_emod_right, Int.emod_eq_of_lt (by omega) (by omega)]

example := C83_default 16 (by decide) (-700)

/-- C83: for a size of more bytes than the promoted type has, a shift is undefined. -/
theorem C83_show_ub (w : Nat) (v : Int) (size : Nat) (hs : max w 32 < size * 8) (h : size * 8 ≤ 2 ^ 31) : showAsBinary w v size = none := by
  unfold showAsBinary
  simp only
  rw [if_pos (by omega), show (size * 8 + 2 ^ 64 - 1) % 2 ^ 64 % 2 ^ 32 = size * 8 - 1 by omega]
  unfold showLoop
  rw [if_neg (by omega)]

example : showAsBinary 16 (0xA5C : Int) 2 = some "00001010 01011100 \n".toList := by decide +kernel
example : showAsBinary 32 (-2) 4 = some "11111111 11111111 11111111 11111110 \n".toList := by decide +kernel

end Verif.Log
