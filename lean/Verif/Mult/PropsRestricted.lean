/-
Property theorems C127: reads and writes of a field through an integer type chosen by the caller (`restricted_get` and
`restricted_set` of both kinds of block references of MultipleVector).
-/
import Verif.Mult.PropsTyped

namespace Verif.Mult
open Verif.Serial

/-- Conversion of an integer to the type of `t` bytes, signed or not (two's complement, as gcc and clang do). -/
def conv (t : Nat) (sg : Bool) (x : Int) : Int := if sg then Int.bmod x (2 ^ (8 * t)) else x % 2 ^ (8 * t)

/-- `x << k` where `x` has the type of `t` bytes: types below four bytes are computed as `int`. [expr.shift] of C++17: undefined if `k` is
not below the width; for a signed type also if `x` is negative or `x * 2^k` does not fit into the unsigned type of the same width. -/
def shl (t : Nat) (sg : Bool) (x : Int) (k : Nat) : Option Int :=
  if 8 * max 4 t ≤ k then none
  else if sg || decide (t < 4) then
    if x < 0 ∨ 2 ^ (8 * max 4 t) ≤ x * 2 ^ k then none else some (Int.bmod (x * 2 ^ k) (2 ^ (8 * max 4 t)))
  else some (x * 2 ^ k % 2 ^ (8 * max 4 t))

/-- The loop of `get_<Id, T>` of a const block reference, MultipleVector.hpp:158-162: here the byte is converted to `T`, and not to
`id_type`, before it is shifted. `n` bytes left, next `i`. -/
def getTB (bs : List Byte) (off t : Nat) (sg : Bool) : (n i value : Nat) → Option Nat
  | 0, _, value => some value
  | n + 1, i, value => do
    let b ← bs[off + i]?
    let y ← shl t sg (conv t sg b.toNat) (i * 8)
    getTB bs off t sg n (i + 1) (value ||| (y % 2 ^ 64).toNat)

/-- `block(i).restricted_get<f, T>()` of a const object, MultipleVector.hpp:139-142 and 153-165; the value returned is converted to `T`. -/
def MVec.getRC (v : MVec) (i f t : Nat) (sg : Bool) : Option Int := do
  let b ← v.blockSize
  let e ← v.table[f]?
  let x ← getTB v.bytes (i * b + e.1) t sg (min e.2 t) 0 0
  pure (conv t sg x)

/-- `block(i).restricted_get<f, T>()` of an object that is not const, MultipleVector.hpp:40-43 and 77-88. -/
def MVec.getRM (v : MVec) (i f t : Nat) (sg : Bool) : Option Int := (v.getR i f t).map fun x => conv t sg x

/-- `block(i).restricted_set<f, T>(x)`, MultipleVector.hpp:54-57 and 100-110, and the value returned. -/
def MVec.setRT (v : MVec) (i f t : Nat) (x : Int) : Option (MVec × Int) := do
  let b ← v.blockSize
  let e ← v.table[f]?
  let bs ← setTB (i * b + e.1) x t (min e.2 t) 0 v.bytes
  pure ({ v with bytes := bs }, x)

/-! ### Helper facts -/

theorem pow256n (t : Nat) : (256 : Nat) ^ t = 2 ^ (8 * t) := by rw [Nat.pow_mul]

theorem two_pow_dvd {a b : Nat} (h : a ≤ b) : (2 : Int) ^ a ∣ 2 ^ b := by
  have := Nat.pow_dvd_pow 2 h
  exact_mod_cast this

theorem conv_mod (t : Nat) (sg : Bool) (x : Int) : conv t sg x % 2 ^ (8 * t) = x % 2 ^ (8 * t) := by
  unfold conv
  cases sg with
  | true =>
    have := Int.bmod_emod (x := x) (m := 2 ^ (8 * t))
    simpa using this
  | false => simp

theorem conv_congr (t : Nat) (sg : Bool) (x y : Int) (h : x % 2 ^ (8 * t) = y % 2 ^ (8 * t)) : conv t sg x = conv t sg y := by
  unfold conv
  cases sg with
  | true =>
    simp only [if_true]
    have e : ∀ z : Int, Int.bmod z (2 ^ (8 * t)) = Int.bmod (z % 2 ^ (8 * t)) (2 ^ (8 * t)) := by
      intro z
      have := Int.emod_bmod (x := z) (n := 2 ^ (8 * t))
      simpa using this.symm
    rw [e x, e y, h]
  | false => simpa using h

/-- A byte converted to a type is the byte, except for a signed type of one byte. -/
theorem conv_byte (t : Nat) (sg : Bool) (b : Nat) (hb : b < 256) (ht : t = 1 ∨ t = 2 ∨ t = 4 ∨ t = 8) :
    conv t sg b = if sg = true ∧ t = 1 ∧ 128 ≤ b then (b : Int) - 256 else b := by
  unfold conv
  cases sg with
  | true =>
    rw [if_pos rfl]
    rcases ht with rfl | rfl | rfl | rfl <;> simp only [Nat.reduceMul, Nat.reducePow, Int.bmod_def, true_and] <;> split <;> split <;> omega
  | false =>
    rw [if_neg (by decide), if_neg (by simp)]
    rcases ht with rfl | rfl | rfl | rfl <;> simp only [Nat.reduceMul, Int.reducePow] <;> omega

theorem shl_mod (t : Nat) (sg : Bool) (b i : Nat) (hb : b < 256) (hi : i < t) :
    ∃ y, shl t sg b (i * 8) = some y ∧ y % 2 ^ (8 * t) = ((b * 2 ^ (i * 8) : Nat) : Int) % 2 ^ (8 * t) := by
  have hlt : (b : Int) * 2 ^ (i * 8) < 2 ^ (8 * max 4 t) := by
    have h1 : b * 2 ^ (i * 8) < 2 ^ 8 * 2 ^ (i * 8) := Nat.mul_lt_mul_of_pos_right hb (Nat.two_pow_pos _)
    rw [← Nat.pow_add] at h1
    have h2 : (2 : Nat) ^ (8 + i * 8) ≤ 2 ^ (8 * max 4 t) := Nat.pow_le_pow_right (by decide) (by omega)
    have h3 := Nat.lt_of_lt_of_le h1 h2
    exact_mod_cast h3
  have hd : (2 : Int) ^ (8 * t) ∣ 2 ^ (8 * max 4 t) := two_pow_dvd (by omega)
  unfold shl
  rw [if_neg (by omega)]
  by_cases hs : (sg || decide (t < 4)) = true
  · rw [if_pos hs, if_neg (by omega)]
    refine ⟨_, rfl, ?_⟩
    have h1 := Int.bmod_emod (x := (b : Int) * 2 ^ (i * 8)) (m := 2 ^ (8 * max 4 t))
    have h2 : Int.bmod ((b : Int) * 2 ^ (i * 8)) (2 ^ (8 * max 4 t)) % 2 ^ (8 * max 4 t) = (b : Int) * 2 ^ (i * 8) % 2 ^ (8 * max 4 t) := by simpa using h1
    rw [← Int.emod_emod_of_dvd _ hd, h2, Int.emod_emod_of_dvd _ hd]
    push_cast
    rfl
  · rw [if_neg hs]
    refine ⟨_, rfl, ?_⟩
    rw [Int.emod_emod_of_dvd _ hd]
    push_cast
    rfl

theorem getTB_spec (bs : List Byte) (off t : Nat) (sg : Bool) (w : Nat) (hoff : off + w ≤ bs.length) (ht : t = 1 ∨ t = 2 ∨ t = 4 ∨ t = 8) (hw : w ≤ t)
    (hb : ∀ b, bs[off]? = some b → ¬ (sg = true ∧ t = 1 ∧ 128 ≤ b.toNat)) :
    ∀ (n i value : Nat), n + i = w → value % 2 ^ (8 * t) = leB bs off i → ∃ x, getTB bs off t sg n i value = some x ∧ x % 2 ^ (8 * t) = leB bs off w
  | 0, i, value, h, hv => by
    obtain rfl : i = w := by omega
    exact ⟨value, rfl, hv⟩
  | n + 1, i, value, h, hv => by
    have hlt : off + i < bs.length := by omega
    have hby := (bs[off + i]).isLt
    have hc : conv t sg (bs[off + i]).toNat = ((bs[off + i]).toNat : Int) := by
      rw [conv_byte t sg _ hby ht, if_neg]
      rintro ⟨h1, h2, h3⟩
      have hi : i = 0 := by omega
      subst hi
      exact hb bs[off] (List.getElem?_eq_getElem (by omega)) ⟨h1, h2, h3⟩
    obtain ⟨y, ey, hy⟩ := shl_mod t sg (bs[off + i]).toNat i hby (by omega)
    rw [getTB, List.getElem?_eq_getElem hlt]
    simp only [Option.bind_eq_bind, Option.bind_some, hc, ey]
    refine getTB_spec bs off t sg w hoff ht hw hb n (i + 1) _ (by omega) ?_
    have hp : (2:Nat) ^ (i * 8) = 256 ^ i := by rw [Nat.mul_comm, Nat.pow_mul]
    have hl : leB bs off i < 2 ^ (i * 8) := by rw [hp]; exact leB_lt bs i off
    have hyn : (y % 2 ^ 64).toNat % 2 ^ (8 * t) = (bs[off + i]).toNat * 2 ^ (i * 8) := by
      have hlt2 : (bs[off + i]).toNat * 2 ^ (i * 8) < 2 ^ (8 * t) := by
        have h1 : (bs[off + i]).toNat * 2 ^ (i * 8) < 2 ^ 8 * 2 ^ (i * 8) := Nat.mul_lt_mul_of_pos_right hby (Nat.two_pow_pos _)
        rw [← Nat.pow_add] at h1
        exact Nat.lt_of_lt_of_le h1 (Nat.pow_le_pow_right (by decide) (by omega))
      have hd : (2 : Int) ^ (8 * t) ∣ 2 ^ 64 := two_pow_dvd (by omega)
      have e1 : ((y % 2 ^ 64).toNat : Int) = y % 2 ^ 64 := Int.toNat_of_nonneg (Int.emod_nonneg _ (by decide))
      have e2 : (((y % 2 ^ 64).toNat % 2 ^ (8 * t) : Nat) : Int) = (((bs[off + i]).toNat * 2 ^ (i * 8) : Nat) : Int) := by
        rw [Int.natCast_emod, e1]
        have e3 : ((2 ^ (8 * t) : Nat) : Int) = 2 ^ (8 * t) := by push_cast; rfl
        rw [e3, Int.emod_emod_of_dvd _ hd, hy, ← e3, ← Int.natCast_emod, Nat.mod_eq_of_lt hlt2]
      exact Int.ofNat.inj e2
    rw [Nat.or_mod_two_pow, hv, hyn, leB_snoc, Nat.or_comm, Nat.mul_comm, ← Nat.two_pow_add_eq_or_of_lt hl, hp]
    simp only [List.getD_eq_getElem?_getD, List.getElem?_eq_getElem hlt, Option.getD_some]
    omega

/-! ### C127 -/

/-- The field as it is read with `get`, for a vector reached by a history. -/
theorem reached {sizes : List Nat} (hl : Layout sizes) {os : List Op} (ho : opsOk sizes [] os) {v : MVec} (e : runOps (new sizes) os = some v) {n : Nat}
    (hn : v.size = some n) : WF v sizes n := by
  obtain ⟨v1, e1, r⟩ := run_rep hl os (new sizes) [] (new_rep sizes) ho
  rw [e] at e1
  obtain rfl := Option.some.inj e1
  have hn' := r.wf.sz hl
  rw [hn] at hn'
  rw [Option.some.inj hn']
  exact r.wf

theorem pow256i (t : Nat) : (256 : Int) ^ t = 2 ^ (8 * t) := by rw [Int.pow_mul]; rfl

/-- A number that is not negative and fits into fewer bytes is not changed. -/
theorem conv_small (s t : Nat) (sg : Bool) (z : Int) (h0 : 0 ≤ z) (hz : z < 256 ^ s) (hst : s < t) : conv t sg z = z := by
  have h1 : (256 : Nat) ^ s ≤ 256 ^ (t - 1) := Nat.pow_le_pow_right (by decide) (by omega)
  have h2 : z < ((256 ^ (t - 1) : Nat) : Int) := by
    refine Int.lt_of_lt_of_le hz ?_
    have := Int.ofNat_le.mpr h1
    rwa [Int.natCast_pow] at this
  have h3 : (2 : Nat) ^ (8 * t) = 256 * 256 ^ (t - 1) := by
    rw [← pow256n, show t = (t - 1) + 1 by omega, Nat.pow_succ, Nat.add_sub_cancel, Nat.mul_comm]
  have h4 : (2 : Int) ^ (8 * t) = ((2 ^ (8 * t) : Nat) : Int) := by rw [Int.natCast_pow]; rfl
  unfold conv
  generalize 256 ^ (t - 1) = q at h2 h3
  cases sg with
  | true =>
    rw [if_pos rfl, Int.bmod_def, h3]
    rw [Int.emod_eq_of_lt h0 (by omega), if_pos (by omega)]
  | false =>
    rw [if_neg (by decide), h4, h3]
    exact Int.emod_eq_of_lt h0 (by omega)

/-- The lowest byte of the field. -/
theorem low_byte {v : MVec} {sizes : List Nat} {n : Nat} (h : WF v sizes n) (hl : Layout sizes) (i f : Nat) (hi : i < n) (hf : f < sizes.length) :
    ∃ b : Byte, v.bytes[i * sizes.sum + (sizes.take f).sum]? = some b ∧ b.toNat = fld v sizes i f % 256 := by
  have hs := hl.2 sizes[f] (List.getElem_mem hf)
  have hin := field_in sizes f hf
  have hsl := slot sizes.sum hi
  have hlt : i * sizes.sum + (sizes.take f).sum < v.bytes.length := by rw [h.len]; omega
  refine ⟨_, List.getElem?_eq_getElem hlt, ?_⟩
  have hgd : sizes.getD f 0 = sizes[f] := by simp [List.getD_eq_getElem?_getD, hf]
  unfold fld
  rw [hgd, show sizes[f] = 1 + (sizes[f] - 1) by omega, leB_split, Nat.pow_one, Nat.add_mul_mod_self_left]
  simp only [leB, List.getD_eq_getElem?_getD, List.getElem?_eq_getElem hlt, Option.getD_some]
  have := (v.bytes[i * sizes.sum + (sizes.take f).sum]).isLt
  omega

theorem getRC_spec {v : MVec} {sizes : List Nat} {n : Nat} (h : WF v sizes n) (hl : Layout sizes) (i f t : Nat) (sg : Bool) (hi : i < n)
    (hf : f < sizes.length) (ht : t = 1 ∨ t = 2 ∨ t = 4 ∨ t = 8) (hb : ¬ (sg = true ∧ t = 1 ∧ 128 ≤ fld v sizes i f % 256)) :
    v.getRC i f t sg = some (conv t sg (fld v sizes i f)) := by
  have hs := hl.2 sizes[f] (List.getElem_mem hf)
  have hin := field_in sizes f hf
  have hsl := slot sizes.sum hi
  obtain ⟨b, eb, hbv⟩ := low_byte h hl i f hi hf
  have hlen : i * sizes.sum + (sizes.take f).sum + min sizes[f] t ≤ v.bytes.length := by rw [h.len]; omega
  obtain ⟨x, ex, hx⟩ := getTB_spec v.bytes (i * sizes.sum + (sizes.take f).sum) t sg (min sizes[f] t) hlen ht (Nat.min_le_right _ _) (by
    intro b' e'
    rw [eb] at e'
    cases e'
    rwa [hbv]) (min sizes[f] t) 0 0 rfl (by simp [leB])
  unfold MVec.getRC
  rw [h.block hl, h.table, entries_getElem?, List.getElem?_eq_getElem hf]
  simp only [Option.bind_eq_bind, Option.bind_some, Option.map_some, Nat.zero_add, ex]
  refine congrArg some (conv_congr t sg _ _ ?_)
  have hg := getR_spec h hl i f t hi hf
  unfold MVec.getR at hg
  rw [h.block hl, h.table, entries_getElem?, List.getElem?_eq_getElem hf] at hg
  simp only [Option.bind_eq_bind, Option.bind_some, Option.map_some, Nat.zero_add] at hg
  have hg2 := getB_spec v.bytes (i * sizes.sum + (sizes.take f).sum) (min sizes[f] t) hlen (by omega) (min sizes[f] t) 0 rfl
  simp only [leB] at hg2
  rw [hg2] at hg
  have hg3 := Option.some.inj hg
  rw [← hx, pow256n] at hg3
  exact_mod_cast hg3

/-- C127, reads. For every vector reached by a history, every record, field and integer type of 1, 2, 4 or 8 bytes: `restricted_get` returns
the field, as `get` returns it, converted to the type. For a const object this does not hold for a signed type of one byte; see
`C127_get_refuted`. -/
theorem C127_get_partial (sizes : List Nat) (hne : sizes ≠ []) (hs : ∀ s ∈ sizes, 1 ≤ s ∧ s ≤ 8) (os : List Op) (ho : opsOk sizes [] os)
    (v : MVec) (e : runOps (new sizes) os = some v) (n i f t : Nat) (sg : Bool) (hn : v.size = some n) (hi : i < n) (hf : f < sizes.length)
    (ht : t = 1 ∨ t = 2 ∨ t = 4 ∨ t = 8) :
    ∃ x, v.get i f = some x ∧ v.getRM i f t sg = some (conv t sg x) ∧
      (¬ (sg = true ∧ t = 1 ∧ 128 ≤ x % 256) → v.getRC i f t sg = some (conv t sg x)) := by
  have hl : Layout sizes := ⟨hne, hs⟩
  have h := reached hl ho e hn
  refine ⟨_, get_spec h hl i f hi hf, ?_, getRC_spec h hl i f t sg hi hf ht⟩
  unfold MVec.getRM
  rw [getR_spec h hl i f t hi hf]
  refine congrArg some (conv_congr t sg _ _ ?_)
  rw [pow256n]
  exact_mod_cast Nat.mod_mod _ _

/-- C127: `restricted_get<f, int8_t>()` of a const object shifts a negative number if the lowest byte of the field is 128 or more, which C++17
leaves undefined (gcc and clang return the right value). -/
theorem C127_get_refuted (sizes : List Nat) (hne : sizes ≠ []) (hs : ∀ s ∈ sizes, 1 ≤ s ∧ s ≤ 8) (os : List Op) (ho : opsOk sizes [] os)
    (v : MVec) (e : runOps (new sizes) os = some v) (n i f x : Nat) (hn : v.size = some n) (hi : i < n) (hf : f < sizes.length)
    (hx : v.get i f = some x) (hb : 128 ≤ x % 256) : v.getRC i f 1 true = none := by
  have hl : Layout sizes := ⟨hne, hs⟩
  have h := reached hl ho e hn
  rw [get_spec h hl i f hi hf] at hx
  cases hx
  obtain ⟨b, eb, hbv⟩ := low_byte h hl i f hi hf
  have h1 := (hs sizes[f] (List.getElem_mem hf)).1
  unfold MVec.getRC
  rw [h.block hl, h.table, entries_getElem?, List.getElem?_eq_getElem hf]
  simp only [Option.bind_eq_bind, Option.bind_some, Option.map_some, Nat.zero_add]
  rw [show min sizes[f] 1 = 0 + 1 by omega, getTB, Nat.add_zero, eb]
  have hc := conv_byte 1 true b.toNat b.isLt (Or.inl rfl)
  rw [if_pos ⟨rfl, rfl, by rw [hbv]; exact hb⟩] at hc
  have hlt := b.isLt
  simp only [Option.bind_eq_bind, Option.bind_some, hc]
  unfold shl
  rw [if_neg (by decide), if_pos (by decide), if_pos (Or.inl (by omega))]
  rfl

/-- C127, writes. `restricted_set<f, T>(x)` returns `x`, replaces the low bytes of the field that the type has, and touches nothing else.
Afterwards `restricted_get<f, T>()` returns `x` if the field is as wide as the type, and otherwise the lowest bytes of `x` as a number that is not
negative. -/
theorem C127_set (sizes : List Nat) (hne : sizes ≠ []) (hs : ∀ s ∈ sizes, 1 ≤ s ∧ s ≤ 8) (os : List Op) (ho : opsOk sizes [] os)
    (v : MVec) (e : runOps (new sizes) os = some v) (n i f t : Nat) (sg : Bool) (x : Int) (hn : v.size = some n) (hi : i < n) (hf : f < sizes.length)
    (hx : conv t sg x = x) :
    ∃ v' y, v.setRT i f t x = some (v', x) ∧ v'.size = some n ∧ v.get i f = some y ∧
      v'.get i f = some (y / 256 ^ t * 256 ^ t + (x % 256 ^ (min sizes[f] t)).toNat) ∧
      (t ≤ sizes[f] → v'.getRM i f t sg = some x) ∧
      (sizes[f] < t → v'.getRM i f t sg = some (x % 256 ^ sizes[f])) ∧
      ∀ j g, j < n → g < sizes.length → (j ≠ i ∨ g ≠ f) → ∃ y, v.get j g = some y ∧ v'.get j g = some y := by
  have hl : Layout sizes := ⟨hne, hs⟩
  have h := reached hl ho e hn
  have hsf := hs sizes[f] (List.getElem_mem hf)
  have hgd : sizes.getD f 0 = sizes[f] := by simp [List.getD_eq_getElem?_getD, hf]
  have hylt : fld v sizes i f < 256 ^ sizes[f] := by unfold fld; rw [hgd]; exact leB_lt _ _ _
  obtain ⟨v', e', w, a, b⟩ := setR_spec h hl i f t (x % 2 ^ 64).toNat hi hf
  have hm : (x % 2 ^ 64).toNat % 256 ^ (min sizes[f] t) = (x % 256 ^ (min sizes[f] t)).toNat := by
    have hd : (2 : Int) ^ (8 * min sizes[f] t) ∣ 2 ^ 64 := two_pow_dvd (by omega)
    have e2 := pow256i (min sizes[f] t)
    have e1 : ((256 ^ (min sizes[f] t) : Nat) : Int) = 2 ^ (8 * min sizes[f] t) := by rw [Int.natCast_pow]; exact e2
    apply Int.ofNat.inj
    show (((x % 2 ^ 64).toNat % 256 ^ (min sizes[f] t) : Nat) : Int) = ((x % 256 ^ (min sizes[f] t)).toNat : Int)
    rw [Int.natCast_emod, e1, Int.toNat_of_nonneg (Int.emod_nonneg _ (by decide)), e2, Int.emod_emod_of_dvd _ hd,
      Int.toNat_of_nonneg (Int.emod_nonneg _ (Int.ne_of_gt (Int.pow_pos (by decide))))]
  rw [hm] at a
  have hfld : fld v' sizes i f = fld v sizes i f / 256 ^ t * 256 ^ t + (x % 256 ^ (min sizes[f] t)).toNat := by
    rw [a]
    congr 1
    by_cases hts : t ≤ sizes[f]
    · rw [Nat.min_eq_right hts]
    · rw [Nat.min_eq_left (by omega), Nat.div_eq_of_lt hylt, Nat.zero_mul, Nat.div_eq_of_lt (Nat.lt_of_lt_of_le hylt (Nat.pow_le_pow_right (by decide) (by omega))),
        Nat.zero_mul]
  have hrm : v'.getRM i f t sg = some (conv t sg (x % 256 ^ (min sizes[f] t))) := by
    unfold MVec.getRM
    rw [getR_spec w hl i f t hi hf, hfld, Nat.mul_add_mod_self_right]
    refine congrArg some (conv_congr t sg _ _ ?_)
    have hz : ((x % 256 ^ (min sizes[f] t)).toNat : Int) = x % 256 ^ (min sizes[f] t) := Int.toNat_of_nonneg (Int.emod_nonneg _ (Int.ne_of_gt (Int.pow_pos (by decide))))
    rw [pow256n, ← hz]
    generalize (x % 256 ^ (min sizes[f] t)).toNat = z
    exact_mod_cast Nat.mod_mod _ _
  refine ⟨v', fld v sizes i f, ?_, w.sz hl, get_spec h hl i f hi hf, ?_, ?_, ?_, ?_⟩
  · unfold MVec.setR at e'
    unfold MVec.setRT
    rw [h.block hl, h.table, entries_getElem?, List.getElem?_eq_getElem hf] at e' ⊢
    simp only [Option.map_some, Option.bind_eq_bind, Option.bind_some] at e' ⊢
    rw [setTB_eq _ _ _ _ _ _ (by omega) (by omega)]
    revert e'
    cases setB (i * sizes.sum + (0 + (List.take f sizes).sum)) (x % 2 ^ 64).toNat (min sizes[f] t) 0 v.bytes with
    | none => intro h; cases h
    | some bs => intro h; cases h; rfl
  · rw [get_spec w hl i f hi hf, hfld]
  · intro hts
    rw [hrm, Nat.min_eq_right hts]
    have e2 := pow256i t
    rw [e2, conv_congr t sg (x % 2 ^ (8 * t)) x (Int.emod_emod_of_dvd _ (Int.dvd_refl _)), hx]
  · intro hts
    rw [hrm, Nat.min_eq_left (by omega)]
    exact congrArg some (conv_small sizes[f] t sg _ (Int.emod_nonneg _ (Int.ne_of_gt (Int.pow_pos (by decide)))) (Int.emod_lt_of_pos _ (Int.pow_pos (by decide))) hts)
  · intro j g hj hg hne'
    exact ⟨_, get_spec h hl j g hj hg, by rw [get_spec w hl j g hj hg, b j g hj hg hne']⟩

/-- A vector with fields of one, three and eight bytes. -/
def sample : MVec := (runOps (new [1, 3, 8]) [.pushBack [200, 0x8001, 9], .emplaceBack]).getD (new [])

example := C127_get_partial [1, 3, 8] (by decide) (by decide) [.pushBack [200, 0x8001, 9], .emplaceBack] (by simp [opsOk, opOk]) sample (by decide) 2 0 1 2 true
  (by decide) (by decide) (by decide) (by decide)

/-- The field 0x8001 read as `int16_t`, through both kinds of references. -/
example : sample.getRM 0 1 2 true = some (-32767) ∧ sample.getRC 0 1 2 true = some (-32767) ∧ sample.getRC 0 1 1 true = some 1 := by decide

example := C127_get_refuted [1, 3, 8] (by decide) (by decide) [.pushBack [200, 0x8001, 9], .emplaceBack] (by simp [opsOk, opOk]) sample (by decide) 2 0 0 200
  (by decide) (by decide) (by decide) (by decide) (by decide)

/-- A field of three bytes, set to -2 given as an `int`, comes back as 0xfffffe. -/
example := C127_set [1, 3, 8] (by decide) (by decide) [.pushBack [200, 0x8001, 9], .emplaceBack] (by simp [opsOk, opOk]) sample (by decide) 2 0 1 4 true (-2)
  (by decide) (by decide) (by decide) (by decide)

example : ((sample.setRT 0 1 4 (-2)).bind fun r => r.1.getRM 0 1 4 true) = some 0xfffffe ∧ ((sample.setRT 0 2 4 (-2)).bind fun r => r.1.getRM 0 2 4 true) = some (-2) := by decide

end Verif.Mult
