/-
Property theorems C69 (iterators of FitVector).
-/
import Verif.Fit.Iter
import Verif.Fit.Props

namespace Verif.Fit
open Verif.Bits

/-- The bit an iterator stands at. -/
def FIter.pos (it : FIter) : Int := 64 * it.seg + it.start

theorem advance_start (it : FIter) (d : Int) : (it.advance d).start < 64 := Nat.mod_lt _ (by decide)

theorem advance_nonneg (it : FIter) (d : Nat) : (it.advance d).pos = it.pos + d ∧ (it.advance d).width = it.width := by
  refine ⟨?_, rfl⟩
  unfold FIter.pos FIter.advance
  simp only [ge_iff_le, Int.natCast_nonneg, if_true, Int.toNat_natCast]
  have h1 : ((d : Int) % 64).toNat = d % 64 := by omega
  rw [h1]
  omega

/-- Full property: `begin() + k` stands at element `k`. False, since the iterators count in bits: see `C69_refuted`. What holds: a move by `k` times
the width from any element leads to the element `k` further on, reading gives that element, and a move over all of them leads to `end()`. -/
theorem C69_moves_partial (v : FVec) (hm : widthMask v.width = some v.mask) (i k : Nat) :
    (v.iter i).advance (k * v.width : Nat) = v.iter (i + k) ∧
    v.deref (v.iter i) = v.get i ∧
    v.begin.advance (v.size * v.width : Nat) = v.end' := by
  have key : ∀ i k, (v.iter i).advance (k * v.width : Nat) = v.iter (i + k) := by
    intro i k
    unfold FIter.advance FVec.iter
    simp only [ge_iff_le, Int.natCast_nonneg, if_true, Int.toNat_natCast, FIter.mk.injEq, and_true]
    have h1 : (((k * v.width : Nat) : Int) % 64).toNat = k * v.width % 64 := by omega
    rw [h1, Nat.add_mul]
    omega
  refine ⟨key i k, ?_, ?_⟩
  · unfold FVec.deref FVec.iter FVec.get
    have : 64 * (i * v.width / 64) + i * v.width % 64 = i * v.width := Nat.div_add_mod _ _
    simp only [hm, Option.bind_eq_bind, Option.bind_some, Int.toNat_natCast, this]
    rw [if_neg (by omega)]
  · have := key 0 v.size
    rwa [Nat.zero_add] at this

example : ∃ v, ofVector [5, 0, 7, 3] = some v ∧ widthMask v.width = some v.mask ∧ v.size = 4 ∧
    v.deref (v.begin.advance 6) = some 7 := by
  refine ⟨⟨3, 7#64, 4, [0x7c5#64]⟩, ?_⟩
  decide +kernel

/-- For elements of one bit the full property holds. -/
theorem C69_width_one (v : FVec) (hw : v.width = 1) (hm : widthMask v.width = some v.mask) (k : Nat) :
    v.deref (v.begin.advance k) = v.get k := by
  obtain ⟨a, -, -⟩ := C69_moves_partial v hm 0 k
  obtain ⟨-, b, -⟩ := C69_moves_partial v hm k 0
  rw [hw, Nat.mul_one, Nat.zero_add] at a
  rw [FVec.begin, a, b]

example : ∃ v, ofVector [1, 0, 1, 1] = some v ∧ v.width = 1 ∧ widthMask v.width = some v.mask ∧ v.deref (v.begin.advance 3) = some 1 := by
  refine ⟨⟨1, 1#64, 4, [13#64]⟩, ?_⟩
  decide +kernel

/-- A move back ends at the right bit exactly if it stays inside the word. -/
theorem C69_back (it : FIter) (hs : it.start < 64) (d : Nat) (hd : 0 < d) :
    (it.retreat d).pos = it.pos - d ↔ d ≤ it.start := by
  unfold FIter.retreat FIter.pos FIter.advance
  have e : ¬ (-(d : Int) ≥ 0) := by omega
  simp only [e, if_false, Int.neg_neg]
  have h1 : ((-(d : Int)) % 64).toNat = (64 - d % 64) % 64 := by omega
  rw [h1]
  rcases Nat.lt_or_ge it.start d with h | h
  · have hge : 0 ≤ Int.tdiv ((d : Int) - 64 + it.start + 1) 64 := by
      rcases (by omega : ((d : Int) - 64 + it.start + 1) < 0 ∨ 0 ≤ ((d : Int) - 64 + it.start + 1)) with hn | hn
      · have : Int.tdiv ((d : Int) - 64 + it.start + 1) 64 = 0 := by
          rw [Int.tdiv_eq_ediv, show Int.sign 64 = 1 from rfl]
          split <;> omega
        omega
      · exact Int.tdiv_nonneg hn (by decide)
    constructor
    · intro hx; omega
    · omega
  · have : Int.tdiv ((d : Int) - 64 + it.start + 1) 64 = 0 := by
      rw [Int.tdiv_eq_ediv, show Int.sign 64 = 1 from rfl]
      split <;> omega
    rw [this]
    constructor
    · omega
    · intro _; omega

example : (FIter.mk 2 5 3).start < 64 ∧ ((FIter.mk 2 5 3).retreat 5).pos = 128 ∧ ((FIter.mk 2 5 3).retreat 6).pos = 191 := by decide

/-- The second element of 5, 0, 7, 3 is 0; `begin() += 1` reads 2. -/
theorem C69_refuted : ∃ v, ofVector [5, 0, 7, 3] = some v ∧ v.get 1 = some 0 ∧ v.deref (v.begin.advance 1) = some 2 := by
  refine ⟨⟨3, 7#64, 4, [0x7c5#64]⟩, ?_⟩
  decide +kernel

end Verif.Fit
