/-
Helper lemmas: the masking cascades of ctz and clz.
-/
import Verif.Bits.Model
import Verif.Bits.Spec
import Mathlib.Data.Nat.Find

namespace Verif.Bits

theorem ne_zero_iff {n : Nat} (x : BitVec n) : x ≠ 0#n ↔ ∃ u, x.getLsbD u = true := by
  constructor
  · intro h
    apply Classical.byContradiction
    intro hne
    apply h
    apply BitVec.eq_of_getLsbD_eq
    intro i hi
    rw [BitVec.getLsbD_zero]
    cases hb : x.getLsbD i
    · rfl
    · exact absurd ⟨i, hb⟩ hne
  · rintro ⟨u, hu⟩ rfl
    simp at hu

/-- State invariant of a cascade: `t` is set, extreme among the set bits, and all set bits agree
with `t` above bit index `s`. -/
structure Inv {n : Nat} (k : Nat) (t s : Nat) (x : BitVec n) : Prop where
  tset : x.getLsbD t = true
  ext : ∀ u, x.getLsbD u = true → (k = 0 ∧ t ≤ u) ∨ (k = 1 ∧ u ≤ t)
  grp : ∀ u, x.getLsbD u = true → u / 2 ^ s = t / 2 ^ s

theorem cascade_step {n : Nat} (k t s b c : Nat) (m x : BitVec n)
    (hm : ∀ u, u < n → m.getLsbD u = (u / 2 ^ s % 2 == k)) (h : Inv k t (s + 1) x) :
    Inv k t s (cascade m b (x, c)).1 ∧
    (cascade m b (x, c)).2 = if t / 2 ^ s % 2 = k then c ||| b else c := by
  have hlt : ∀ u, x.getLsbD u = true → u < n := fun u hu => BitVec.lt_of_getLsbD hu
  have hand : ∀ u, (x &&& m).getLsbD u = true ↔ x.getLsbD u = true ∧ u / 2 ^ s % 2 = k := by
    intro u
    rw [BitVec.getLsbD_and, Bool.and_eq_true]
    constructor
    · rintro ⟨h1, h2⟩
      rw [hm u (hlt u h1)] at h2
      exact ⟨h1, by simpa using h2⟩
    · rintro ⟨h1, h2⟩
      rw [hm u (hlt u h1)]
      exact ⟨h1, by simpa using h2⟩
  have hdiv : ∀ u, u / 2 ^ (s + 1) = u / 2 ^ s / 2 := by
    intro u
    rw [Nat.pow_succ, Nat.div_div_eq_div_mul]
  have hk : ∀ u, x.getLsbD u = true → u / 2 ^ s % 2 = k → t / 2 ^ s % 2 = k := by
    intro u hu huk
    have hg := h.grp u hu
    rw [hdiv, hdiv] at hg
    rcases h.ext u hu with ⟨rfl, hle⟩ | ⟨rfl, hle⟩
    · have := Nat.div_le_div_right (c := 2 ^ s) hle
      omega
    · have := Nat.div_le_div_right (c := 2 ^ s) hle
      omega
  by_cases ht : t / 2 ^ s % 2 = k
  · have hne : x &&& m ≠ 0#n := (ne_zero_iff _).2 ⟨t, (hand t).2 ⟨h.tset, ht⟩⟩
    simp only [cascade, hne, ne_eq, not_false_eq_true, if_true, ht]
    refine ⟨⟨(hand t).2 ⟨h.tset, ht⟩, fun u hu => h.ext u ((hand u).1 hu).1, ?_⟩, trivial⟩
    intro u hu
    have h1 := (hand u).1 hu
    have hg := h.grp u h1.1
    rw [hdiv, hdiv] at hg
    omega
  · have hz : ¬ (x &&& m ≠ 0#n) := by
      intro hne
      obtain ⟨u, hu⟩ := (ne_zero_iff _).1 hne
      have h1 := (hand u).1 hu
      exact ht (hk u h1.1 h1.2)
    simp only [cascade, hz, if_false, ht]
    refine ⟨⟨h.tset, h.ext, ?_⟩, trivial⟩
    intro u hu
    have hg := h.grp u hu
    rw [hdiv, hdiv] at hg
    have h1 : ¬ u / 2 ^ s % 2 = k := fun hc => ht (hk u hu hc)
    rcases h.ext u hu with ⟨rfl, hle⟩ | ⟨rfl, hle⟩ <;> omega

theorem exists_low {n : Nat} (x : BitVec n) (h : x ≠ 0#n) :
    ∃ t, t < n ∧ x.getLsbD t = true ∧ ∀ u, x.getLsbD u = true → t ≤ u := by
  have hex := (ne_zero_iff x).1 h
  refine ⟨Nat.find hex, ?_, Nat.find_spec hex, fun u hu => Nat.find_min' hex hu⟩
  exact BitVec.lt_of_getLsbD (Nat.find_spec hex)

theorem exists_high {n : Nat} (x : BitVec n) (h : x ≠ 0#n) :
    ∃ t, t < n ∧ x.getLsbD t = true ∧ ∀ u, x.getLsbD u = true → u ≤ t := by
  obtain ⟨u, hu⟩ := (ne_zero_iff x).1 h
  have hlt : ∀ u, x.getLsbD u = true → u < n := fun u hu => BitVec.lt_of_getLsbD hu
  have hex : ∃ d, d < n ∧ x.getLsbD (n - 1 - d) = true :=
    ⟨n - 1 - u, by have := hlt u hu; omega, by rw [show n - 1 - (n - 1 - u) = u by have := hlt u hu; omega]; exact hu⟩
  refine ⟨n - 1 - Nat.find hex, by have := (Nat.find_spec hex).1; omega, (Nat.find_spec hex).2, ?_⟩
  intro v hv
  have hv' := hlt v hv
  have := Nat.find_min' hex (m := n - 1 - v) ⟨by omega, by rw [show n - 1 - (n - 1 - v) = v by omega]; exact hv⟩
  omega

theorem isCtz_of {n : Nat} (x : BitVec n) (t : Nat) (ht : t < n) (h1 : x.getLsbD t = true)
    (h2 : ∀ u, x.getLsbD u = true → t ≤ u) : IsCtz x t := by
  refine ⟨by omega, ?_, fun _ => h1⟩
  intro j hj
  cases hb : x.getLsbD j
  · rfl
  · have := h2 j hb; omega

theorem isClz_of {n : Nat} (x : BitVec n) (t : Nat) (ht : t < n) (h1 : x.getLsbD t = true)
    (h2 : ∀ u, x.getLsbD u = true → u ≤ t) : IsClz x (n - 1 - t) := by
  refine ⟨by omega, ?_, fun _ => by rw [show n - 1 - (n - 1 - t) = t by omega]; exact h1⟩
  intro j hj
  cases hb : x.getLsbD (n - 1 - j)
  · rfl
  · have := h2 _ hb; omega

theorem isCtz_zero (n : Nat) : IsCtz (0#n) n := by
  refine ⟨Nat.le_refl _, fun j _ => by simp, fun h => by omega⟩

theorem isClz_zero (n : Nat) : IsClz (0#n) n := by
  refine ⟨Nat.le_refl _, fun j _ => by simp, fun h => by omega⟩

/-- The result of a `k = 0` cascade over 64 bits as a function of the extreme position. -/
theorem inv_start {n : Nat} (k t s : Nat) (x : BitVec n) (hn : n ≤ 2 ^ s) (h1 : x.getLsbD t = true)
    (h2 : ∀ u, x.getLsbD u = true → (k = 0 ∧ t ≤ u) ∨ (k = 1 ∧ u ≤ t)) : Inv k t s x := by
  refine ⟨h1, h2, ?_⟩
  intro u hu
  have a1 := BitVec.lt_of_getLsbD hu
  have a2 := BitVec.lt_of_getLsbD h1
  rw [Nat.div_eq_of_lt (by omega), Nat.div_eq_of_lt (by omega)]

/-- What a cascade over the bit indices `ss` computes when the extreme position is `t`. -/
def casRes (k t : Nat) (ss : List Nat) : Nat :=
  ss.foldl (fun c s => if t / 2 ^ s % 2 = k then c ||| 2 ^ s else c) 0

theorem cascade_step' {n : Nat} (k t s : Nat) (m : BitVec n) (p : BitVec n × Nat)
    (hm : ∀ u, u < n → m.getLsbD u = (u / 2 ^ s % 2 == k)) (h : Inv k t (s + 1) p.1) (ss : List Nat)
    (hc : p.2 = casRes k t ss) :
    Inv k t s (cascade m (2 ^ s) p).1 ∧ (cascade m (2 ^ s) p).2 = casRes k t (ss ++ [s]) := by
  have := cascade_step k t s (2 ^ s) p.2 m p.1 hm h
  refine ⟨this.1, ?_⟩
  rw [this.2, casRes, List.foldl_append, ← casRes, hc]
  rfl

theorem ctz64_eq (x : BitVec 64) (h : x ≠ 0#64) (t : Nat) (h1 : x.getLsbD t = true)
    (h2 : ∀ u, x.getLsbD u = true → t ≤ u) : ctz64 x = casRes 0 t [5, 4, 3, 2, 1, 0] ^^^ 63 := by
  have i0 : Inv 0 t 6 (x, 0).1 := inv_start 0 t 6 x (by decide) h1 (fun u hu => Or.inl ⟨rfl, h2 u hu⟩)
  have s5 := cascade_step' 0 t 5 0x00000000FFFFFFFF#64 (x, 0) (by decide +kernel) i0 [] rfl
  have s4 := cascade_step' 0 t 4 0x0000FFFF0000FFFF#64 (cascade 0x00000000FFFFFFFF#64 32 (x, 0)) (by decide +kernel) s5.1 [5] s5.2
  have s3 := cascade_step' 0 t 3 0x00FF00FF00FF00FF#64 (cascade 0x0000FFFF0000FFFF#64 16 (cascade 0x00000000FFFFFFFF#64 32 (x, 0))) (by decide +kernel) s4.1 [5, 4] s4.2
  have s2 := cascade_step' 0 t 2 0x0F0F0F0F0F0F0F0F#64 (cascade 0x00FF00FF00FF00FF#64 8 (cascade 0x0000FFFF0000FFFF#64 16 (cascade 0x00000000FFFFFFFF#64 32 (x, 0)))) (by decide +kernel) s3.1 [5, 4, 3] s3.2
  have s1 := cascade_step' 0 t 1 0x3333333333333333#64 (cascade 0x0F0F0F0F0F0F0F0F#64 4 (cascade 0x00FF00FF00FF00FF#64 8 (cascade 0x0000FFFF0000FFFF#64 16 (cascade 0x00000000FFFFFFFF#64 32 (x, 0))))) (by decide +kernel) s2.1 [5, 4, 3, 2] s2.2
  have s0 := cascade_step' 0 t 0 0x5555555555555555#64 (cascade 0x3333333333333333#64 2 (cascade 0x0F0F0F0F0F0F0F0F#64 4 (cascade 0x00FF00FF00FF00FF#64 8 (cascade 0x0000FFFF0000FFFF#64 16 (cascade 0x00000000FFFFFFFF#64 32 (x, 0)))))) (by decide +kernel) s1.1 [5, 4, 3, 2, 1] s1.2
  unfold ctz64
  rw [if_neg h]
  exact congrArg (· ^^^ 63) s0.2

theorem ctz32_eq (x : BitVec 32) (h : x ≠ 0#32) (t : Nat) (h1 : x.getLsbD t = true)
    (h2 : ∀ u, x.getLsbD u = true → t ≤ u) : ctz32 x = casRes 0 t [4, 3, 2, 1, 0] ^^^ 31 := by
  have i0 : Inv 0 t 5 (x, 0).1 := inv_start 0 t 5 x (by decide) h1 (fun u hu => Or.inl ⟨rfl, h2 u hu⟩)
  have s4 := cascade_step' 0 t 4 0x0000FFFF#32 (x, 0) (by decide +kernel) i0 [] rfl
  have s3 := cascade_step' 0 t 3 0x00FF00FF#32 (cascade 0x0000FFFF#32 16 (x, 0)) (by decide +kernel) s4.1 [4] s4.2
  have s2 := cascade_step' 0 t 2 0x0F0F0F0F#32 (cascade 0x00FF00FF#32 8 (cascade 0x0000FFFF#32 16 (x, 0))) (by decide +kernel) s3.1 [4, 3] s3.2
  have s1 := cascade_step' 0 t 1 0x33333333#32 (cascade 0x0F0F0F0F#32 4 (cascade 0x00FF00FF#32 8 (cascade 0x0000FFFF#32 16 (x, 0)))) (by decide +kernel) s2.1 [4, 3, 2] s2.2
  have s0 := cascade_step' 0 t 0 0x55555555#32 (cascade 0x33333333#32 2 (cascade 0x0F0F0F0F#32 4 (cascade 0x00FF00FF#32 8 (cascade 0x0000FFFF#32 16 (x, 0))))) (by decide +kernel) s1.1 [4, 3, 2, 1] s1.2
  unfold ctz32
  rw [if_neg h]
  exact congrArg (· ^^^ 31) s0.2

theorem clz64_eq (x : BitVec 64) (h : x ≠ 0#64) (t : Nat) (h1 : x.getLsbD t = true)
    (h2 : ∀ u, x.getLsbD u = true → u ≤ t) : clz64 x = casRes 1 t [5, 4, 3, 2, 1, 0] ^^^ 63 := by
  have i0 : Inv 1 t 6 (x, 0).1 := inv_start 1 t 6 x (by decide) h1 (fun u hu => Or.inr ⟨rfl, h2 u hu⟩)
  have s5 := cascade_step' 1 t 5 0xFFFFFFFF00000000#64 (x, 0) (by decide +kernel) i0 [] rfl
  have s4 := cascade_step' 1 t 4 0xFFFF0000FFFF0000#64 (cascade 0xFFFFFFFF00000000#64 32 (x, 0)) (by decide +kernel) s5.1 [5] s5.2
  have s3 := cascade_step' 1 t 3 0xFF00FF00FF00FF00#64 (cascade 0xFFFF0000FFFF0000#64 16 (cascade 0xFFFFFFFF00000000#64 32 (x, 0))) (by decide +kernel) s4.1 [5, 4] s4.2
  have s2 := cascade_step' 1 t 2 0xF0F0F0F0F0F0F0F0#64 (cascade 0xFF00FF00FF00FF00#64 8 (cascade 0xFFFF0000FFFF0000#64 16 (cascade 0xFFFFFFFF00000000#64 32 (x, 0)))) (by decide +kernel) s3.1 [5, 4, 3] s3.2
  have s1 := cascade_step' 1 t 1 0xCCCCCCCCCCCCCCCC#64 (cascade 0xF0F0F0F0F0F0F0F0#64 4 (cascade 0xFF00FF00FF00FF00#64 8 (cascade 0xFFFF0000FFFF0000#64 16 (cascade 0xFFFFFFFF00000000#64 32 (x, 0))))) (by decide +kernel) s2.1 [5, 4, 3, 2] s2.2
  have s0 := cascade_step' 1 t 0 0xAAAAAAAAAAAAAAAA#64 (cascade 0xCCCCCCCCCCCCCCCC#64 2 (cascade 0xF0F0F0F0F0F0F0F0#64 4 (cascade 0xFF00FF00FF00FF00#64 8 (cascade 0xFFFF0000FFFF0000#64 16 (cascade 0xFFFFFFFF00000000#64 32 (x, 0)))))) (by decide +kernel) s1.1 [5, 4, 3, 2, 1] s1.2
  unfold clz64
  rw [if_neg h]
  exact congrArg (· ^^^ 63) s0.2

theorem clz32_eq (x : BitVec 32) (h : x ≠ 0#32) (t : Nat) (h1 : x.getLsbD t = true)
    (h2 : ∀ u, x.getLsbD u = true → u ≤ t) : clz32 x = casRes 1 t [4, 3, 2, 1, 0] ^^^ 63 := by
  have i0 : Inv 1 t 5 (x, 0).1 := inv_start 1 t 5 x (by decide) h1 (fun u hu => Or.inr ⟨rfl, h2 u hu⟩)
  have s4 := cascade_step' 1 t 4 0xFFFF0000#32 (x, 0) (by decide +kernel) i0 [] rfl
  have s3 := cascade_step' 1 t 3 0xFF00FF00#32 (cascade 0xFFFF0000#32 16 (x, 0)) (by decide +kernel) s4.1 [4] s4.2
  have s2 := cascade_step' 1 t 2 0xF0F0F0F0#32 (cascade 0xFF00FF00#32 8 (cascade 0xFFFF0000#32 16 (x, 0))) (by decide +kernel) s3.1 [4, 3] s3.2
  have s1 := cascade_step' 1 t 1 0xCCCCCCCC#32 (cascade 0xF0F0F0F0#32 4 (cascade 0xFF00FF00#32 8 (cascade 0xFFFF0000#32 16 (x, 0)))) (by decide +kernel) s2.1 [4, 3, 2] s2.2
  have s0 := cascade_step' 1 t 0 0xAAAAAAAA#32 (cascade 0xCCCCCCCC#32 2 (cascade 0xF0F0F0F0#32 4 (cascade 0xFF00FF00#32 8 (cascade 0xFFFF0000#32 16 (x, 0))))) (by decide +kernel) s1.1 [4, 3, 2, 1] s1.2
  unfold clz32
  rw [if_neg h]
  exact congrArg (· ^^^ 63) s0.2

theorem ctz64_isCtz (x : W64) : IsCtz x (ctz64 x) := by
  by_cases h : x = 0#64
  · subst h; exact isCtz_zero 64
  · obtain ⟨t, ht, h1, h2⟩ := exists_low x h
    rw [ctz64_eq x h t h1 h2]
    have : ∀ t, t < 64 → casRes 0 t [5, 4, 3, 2, 1, 0] ^^^ 63 = t := by decide +kernel
    rw [this t ht]
    exact isCtz_of x t ht h1 h2

theorem ctz32_isCtz (x : W32) : IsCtz x (ctz32 x) := by
  by_cases h : x = 0#32
  · subst h; exact isCtz_zero 32
  · obtain ⟨t, ht, h1, h2⟩ := exists_low x h
    rw [ctz32_eq x h t h1 h2]
    have : ∀ t, t < 32 → casRes 0 t [4, 3, 2, 1, 0] ^^^ 31 = t := by decide +kernel
    rw [this t ht]
    exact isCtz_of x t ht h1 h2

theorem clz64_isClz (x : W64) : IsClz x (clz64 x) := by
  by_cases h : x = 0#64
  · subst h; exact isClz_zero 64
  · obtain ⟨t, ht, h1, h2⟩ := exists_high x h
    rw [clz64_eq x h t h1 h2]
    have : ∀ t, t < 64 → casRes 1 t [5, 4, 3, 2, 1, 0] ^^^ 63 = 64 - 1 - t := by decide +kernel
    rw [this t ht]
    exact isClz_of x t ht h1 h2

theorem clz32_shifted (x : W32) (h : x ≠ 0#32) : ∃ r, IsClz x r ∧ clz32 x = r + 32 := by
  obtain ⟨t, ht, h1, h2⟩ := exists_high x h
  rw [clz32_eq x h t h1 h2]
  have : ∀ t, t < 32 → casRes 1 t [4, 3, 2, 1, 0] ^^^ 63 = (32 - 1 - t) + 32 := by decide +kernel
  rw [this t ht]
  exact ⟨_, isClz_of x t ht h1 h2, rfl⟩

theorem isClz_unique {n : Nat} (x : BitVec n) (r r' : Nat) (h : IsClz x r) (h' : IsClz x r') :
    r = r' := by
  obtain ⟨a1, a2, a3⟩ := h
  obtain ⟨b1, b2, b3⟩ := h'
  rcases Nat.lt_trichotomy r r' with hlt | rfl | hlt
  · have := b2 r hlt
    rw [a3 (by omega)] at this
    exact absurd this (by decide)
  · rfl
  · have := a2 r' hlt
    rw [b3 (by omega)] at this
    exact absurd this (by decide)

theorem isCtz_unique {n : Nat} (x : BitVec n) (r r' : Nat) (h : IsCtz x r) (h' : IsCtz x r') :
    r = r' := by
  obtain ⟨a1, a2, a3⟩ := h
  obtain ⟨b1, b2, b3⟩ := h'
  rcases Nat.lt_trichotomy r r' with hlt | rfl | hlt
  · have := b2 r hlt
    rw [a3 (by omega)] at this
    exact absurd this (by decide)
  · rfl
  · have := a2 r' hlt
    rw [b3 (by omega)] at this
    exact absurd this (by decide)

end Verif.Bits
