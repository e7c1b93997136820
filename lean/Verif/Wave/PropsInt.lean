/-
Property theorems C34 and C35 for `std::vector<T>` with a signed `T` (for example `char`, where bytes from 128 on are negative).
-/
import Verif.Wave.Props
import Verif.Fit.PropsInt

namespace Verif.Wave
open Verif.Bits

/-- `(value >> (height_ - 1 - depth)) & 1U` for a signed `value`, WaveletTree.hpp:44: the shift of a negative value is arithmetic (gcc and
clang; required since C++20). -/
def bitOfI (h depth : Nat) (v : Int) : Bool := v / 2 ^ (h - 1 - depth) % 2 == 1

/-- The loop over depths for one value, WaveletTree.hpp:43-47, as `insLoop`. -/
def insLoopI (h : Nat) (v : Int) : (k depth id : Nat) → List BV.BVec → Option (List BV.BVec)
  | 0, _, _, bs => some bs
  | k + 1, depth, id, bs => do
    let bit := bitOfI h depth v
    let b ← bs[id - 1]?
    let b ← b.pushBack bit
    let bs ← wr bs (id - 1) b
    insLoopI h v k (depth + 1) ((id <<< 1) ||| bit.toNat) bs

/-- The loop over the values, WaveletTree.hpp:40-48, as `insAll`. -/
def insAllI (h : Nat) : List Int → List BV.BVec → Option (List BV.BVec)
  | [], bs => some bs
  | v :: vs, bs => do
    let bs ← insLoopI h v h 0 1 bs
    insAllI h vs bs

/-- The constructor for an integer type `T`, WaveletTree.hpp:30-53: the maximum is taken in the order of `T` and converted to `size_t`. -/
def makeInt : List Int → Option WT
  | [] => none
  | a :: l => do
    let maxChar := (l.foldl max a % 2 ^ 64).toNat
    let h ← Calc.sizeFitsInBits maxChar
    if h < 31 then do
      let bs ← insAllI h (a :: l) (List.replicate ((1 <<< h) - 1) BV.empty)
      let ns ← buildNodes bs
      pure ⟨h, maxChar + 1, 0, ns⟩
    else none

theorem bitOfI_eq (h d : Nat) (v : Int) (hd : d < h) : bitOfI h d v = bitOf h d (v % 2 ^ h).toNat := by
  have hp : (0 : Int) < 2 ^ h := Int.pow_pos (by decide)
  obtain ⟨n, hn⟩ : ∃ n : Nat, v % 2 ^ h = n := ⟨(v % 2 ^ h).toNat, (Int.toNat_of_nonneg (Int.emod_nonneg _ (by omega))).symm⟩
  have hv : v = 2 ^ (h - 1 - d) * (2 * (2 ^ d * (v / 2 ^ h))) + n := by
    have h1 := Int.mul_ediv_add_emod v (2 ^ h)
    have h2 : (2 : Int) ^ h = 2 ^ (h - 1 - d) * (2 * 2 ^ d) := by
      rw [← Int.pow_succ', ← Int.pow_add]; congr 1; omega
    have h3 : ∀ q : Int, 2 ^ h * q = 2 ^ (h - 1 - d) * (2 * (2 ^ d * q)) := by
      intro q; rw [h2, Int.mul_assoc, Int.mul_assoc]
    rw [hn, h3] at h1
    exact h1.symm
  rw [bitOf_eq, hn, Int.toNat_natCast, bitOfI]
  generalize hq : v / 2 ^ h = q at hv
  rw [hv, Int.mul_add_ediv_left _ _ (by exact Int.ne_of_gt (Int.pow_pos (by decide)))]
  have : (n : Int) / 2 ^ (h - 1 - d) = ((n / 2 ^ (h - 1 - d) : Nat) : Int) := by
    rw [Int.natCast_ediv, Int.natCast_pow]; rfl
  rw [this]
  generalize 2 ^ d * q = z
  generalize n / 2 ^ (h - 1 - d) = m
  by_cases hm : m % 2 = 1
  · simp [hm]; omega
  · simp [hm]; omega

theorem insLoopI_eq (h : Nat) (v : Int) : ∀ (k d id : Nat) (bs : List BV.BVec), d + k ≤ h →
    insLoopI h v k d id bs = insLoop h (v % 2 ^ h).toNat k d id bs
  | 0, _, _, _, _ => rfl
  | k + 1, d, id, bs, hk => by
    simp only [insLoopI, insLoop, bitOfI_eq h d v (by omega)]
    congr 1; funext b
    congr 1; funext b'
    congr 1; funext bs'
    exact insLoopI_eq h v k (d + 1) _ bs' (by omega)

theorem insAllI_eq (h : Nat) : ∀ (l : List Int) (bs : List BV.BVec), insAllI h l bs = insAll h (l.map fun x => (x % 2 ^ h).toNat) bs
  | [], _ => rfl
  | v :: vs, bs => by
    simp only [insAllI, insAll, List.map_cons, insLoopI_eq h v h 0 1 bs (by omega)]
    congr 1; funext bs'
    exact insAllI_eq h vs bs'

/-- What the constructor builds: the tree of the values modulo `2^h`, `h` the least width that holds the greatest value. -/
theorem makeInt_spec (l : List Int) (hl : ∀ x ∈ l, -2 ^ 63 ≤ x ∧ x < 2 ^ 30) (b : Int) (hb : b ∈ l) (hb0 : 0 ≤ b) :
    ∃ t h, makeInt l = some t ∧ t.height = h ∧ Ok (l.map fun x => (x % 2 ^ h).toNat) t ∧ 1 ≤ h ∧ h ≤ 30 ∧ (∀ x ∈ l, x < 2 ^ h) ∧
      ∀ h', 1 ≤ h' → (∀ x ∈ l, x < 2 ^ h') → h ≤ h' := by
  cases l with
  | nil => simp at hb
  | cons a l =>
    obtain ⟨h1, h2, h3⟩ := Fit.foldl_max_int l a
    have hmax : ∀ x ∈ a :: l, x ≤ l.foldl max a := by
      intro x hx
      rcases List.mem_cons.mp hx with rfl | hx
      · exact h1
      · exact h2 x hx
    have hm := hl _ h3
    have hbm := hmax b hb
    generalize hM : l.foldl max a = M at *
    obtain ⟨m, rfl⟩ : ∃ m : Nat, M = m := ⟨M.toNat, by omega⟩
    have hmod : ((m : Int) % 2 ^ 64).toNat = m := by omega
    have hm30 : m < 2 ^ 30 := by omega
    obtain ⟨h, eh, p1, p2, p3⟩ := Calc.C13_sizeFitsInBits m (by omega)
    have hle : h ≤ 30 := p3 30 (by decide) hm30
    have hpz : (0 : Int) < 2 ^ h := Int.pow_pos (by decide)
    have hmz : (m : Int) < 2 ^ h := by exact_mod_cast p2
    -- the residues and the tree the other constructor makes of them
    have hrl : ∀ y ∈ (a :: l).map (fun x => (x % 2 ^ h).toNat), y < 2 ^ h := by
      intro y hy
      obtain ⟨x, _, rfl⟩ := List.mem_map.mp hy
      have g1 := Int.emod_nonneg x (Int.ne_of_gt hpz)
      have g2 := Int.emod_lt_of_pos x hpz
      have : ((x % 2 ^ h).toNat : Int) < ((2 ^ h : Nat) : Int) := by
        rw [Int.toNat_of_nonneg g1, Int.natCast_pow]; exact g2
      exact_mod_cast this
    have hmr : m ∈ (a :: l).map (fun x => (x % 2 ^ h).toNat) := by
      refine List.mem_map.mpr ⟨m, h3, ?_⟩
      rw [Int.emod_eq_of_lt (by omega) hmz, Int.toNat_natCast]
    generalize hr : (a :: l).map (fun x => (x % 2 ^ h).toNat) = r at *
    have hne : r ≠ [] := by rintro rfl; simp at hmr
    have h30 : ∀ y ∈ r, y < 2 ^ 30 := fun y hy => Nat.lt_of_lt_of_le (hrl y hy) (Nat.pow_le_pow_right (by decide) hle)
    obtain ⟨t, et, ok, _, _⟩ := make_spec r hne h30
    have hfr : r.foldl max 0 < 2 ^ h := foldl_max_lt _ r 0 (Nat.pow_pos (by decide)) hrl
    have hmf : m ≤ r.foldl max 0 := (foldl_max_ge r 0).2 m hmr
    have hf30 : r.foldl max 0 < 2 ^ 30 := Nat.lt_of_lt_of_le hfr (Nat.pow_le_pow_right (by decide) hle)
    obtain ⟨h', eh', q1, q2, q3⟩ := Calc.C13_sizeFitsInBits (r.foldl max 0) (by omega)
    have hh : h' = h := Nat.le_antisymm (q3 h p1 hfr) (p3 h' q1 (by omega))
    subst hh
    unfold make at et
    rw [if_neg hne] at et
    simp only [eh', Option.bind_eq_bind, Option.bind_some] at et
    rw [if_pos (by omega)] at et
    cases hbs : insAll h' r (List.replicate ((1 <<< h') - 1) BV.empty) with
    | none => rw [hbs] at et; simp at et
    | some bs =>
      rw [hbs] at et
      simp only [Option.bind_some] at et
      cases hns : buildNodes bs with
      | none => rw [hns] at et; simp at et
      | some ns =>
        rw [hns] at et
        simp only [Option.bind_some, Option.pure_def, Option.some.injEq] at et
        subst et
        refine ⟨⟨h', m + 1, 0, ns⟩, h', ?_, rfl, ?_, p1, hle, ?_, ?_⟩
        · simp only [makeInt, hM, hmod, eh, Option.bind_eq_bind, Option.bind_some]
          rw [if_pos (by omega), insAllI_eq, hr, hbs]
          simp only [Option.bind_some, hns, Option.pure_def]
        · rw [hr]
          exact ⟨ok.lt, ok.pos, ok.small, ok.len, ok.node⟩
        · intro x hx
          exact Int.lt_of_le_of_lt (hmax x hx) hmz
        · intro w hw hall
          exact p3 w hw (by exact_mod_cast hall _ h3)

/-- C34 for integers: as soon as some value is not negative, `operator[]` returns the value modulo `2^h`, `h` the least width that can hold the
greatest value (and modulo 256). So values from 0 to 255 come back; a byte from 128 on, stored as a negative `char`, loses its high bits. -/
theorem C34_ints (l : List Int) (hl : ∀ x ∈ l, -2 ^ 63 ≤ x ∧ x < 2 ^ 30) (b : Int) (hb : b ∈ l) (hb0 : 0 ≤ b) :
    ∃ t h, makeInt l = some t ∧ t.sizeOf = some l.length ∧ 1 ≤ h ∧ (∀ x ∈ l, x < 2 ^ h) ∧ (∀ h', 1 ≤ h' → (∀ x ∈ l, x < 2 ^ h') → h ≤ h') ∧
      ∀ i x, l[i]? = some x → t.get i = some ((x % 2 ^ h).toNat % 256) := by
  obtain ⟨t, h, e, _, ok, p1, _, p2, p3⟩ := makeInt_spec l hl b hb hb0
  refine ⟨t, h, e, by rw [size_spec ok, List.length_map], p1, p2, p3, fun i x hx => ?_⟩
  exact get_spec ok i _ (by rw [List.getElem?_map, hx]; rfl)

/-- C35 for integers: `rank(i)` counts the earlier positions whose value agrees with that of position `i` modulo `2^h`. -/
theorem C35_ints (l : List Int) (hl : ∀ x ∈ l, -2 ^ 63 ≤ x ∧ x < 2 ^ 30) (b : Int) (hb : b ∈ l) (hb0 : 0 ≤ b) :
    ∃ t h, makeInt l = some t ∧ 1 ≤ h ∧ (∀ x ∈ l, x < 2 ^ h) ∧ (∀ h', 1 ≤ h' → (∀ x ∈ l, x < 2 ^ h') → h ≤ h') ∧
      ∀ i x, l[i]? = some x → t.rank i = some ((l.take i).countP fun y => decide (y % 2 ^ h = x % 2 ^ h)) := by
  obtain ⟨t, h, e, _, ok, p1, _, p2, p3⟩ := makeInt_spec l hl b hb hb0
  refine ⟨t, h, e, p1, p2, p3, fun i x hx => ?_⟩
  rw [(rank_spec ok i (x % 2 ^ h).toNat (by rw [List.getElem?_map, hx]; rfl)).1, ← List.map_take, List.count, List.countP_map]
  congr 1
  apply List.countP_congr
  intro y _
  have hpz : (0 : Int) < 2 ^ h := Int.pow_pos (by decide)
  have g1 := Int.emod_nonneg x (Int.ne_of_gt hpz)
  have g2 := Int.emod_nonneg y (Int.ne_of_gt hpz)
  simp only [Function.comp, beq_iff_eq, decide_eq_true_eq]
  omega

/-- C34, the domain: a vector of negative values only makes the height computation undefined. -/
theorem C34_negative_ub (l : List Int) (hl : ∀ x ∈ l, -2 ^ 63 ≤ x ∧ x < 0) : makeInt l = none := by
  cases l with
  | nil => rfl
  | cons a l =>
    obtain ⟨h1, h2, h3⟩ := Fit.foldl_max_int l a
    have hm := hl _ h3
    have : Calc.sizeFitsInBits (l.foldl max a % 2 ^ 64).toNat = none := by
      apply Calc.sizeFitsLoop_none _ 1 (by decide) _ 64 0 (by decide)
      intro k hk
      have := Nat.pow_le_pow_right (show 0 < 2 by decide) (show k * 1 ≤ 63 by omega)
      omega
    simp only [makeInt, this, Option.bind_eq_bind, Option.bind_none]

example := C34_ints [3, -1, 100, -128] (by decide) 3 (by decide) (by decide)
example := C35_ints [3, -1, 100, -128] (by decide) 3 (by decide) (by decide)
example := C34_negative_ub [-3, -1] (by decide)

/-- The letters `a`, `é` in ISO 8859-1, as `char`: 97 and -23; the tree returns 97 and 105, the letter `i`. -/
example : (makeInt [97, -23]).map (fun t => (t.get 0, t.get 1)) = some (some 97, some 105) := by decide +kernel

end Verif.Wave
