/-
Property theorems C118: the setters of a block reference of MultipleVector that take a value of a type chosen by the caller.
-/
import Verif.Mult.Props

namespace Verif.Mult
open Verif.Serial

/-- The loop of `_set_at<T>`, MultipleVector.hpp:114-115, where `T` has `t` bytes and `x` is the value: a type below four bytes is
computed as `int`, and a shift by the width of the promoted type or more is undefined. The shift of a negative value is arithmetic. -/
def setTB (off : Nat) (x : Int) (t : Nat) : (n i : Nat) → List Byte → Option (List Byte)
  | 0, _, bs => some bs
  | n + 1, i, bs =>
    if 8 * max 4 t ≤ i * 8 then none
    else do
      let bs ← wr bs (off + i) (BitVec.ofInt 8 (x >>> (i * 8)))
      setTB off x t n (i + 1) bs

/-- `block(i).set_at(f, x)` with `x` of a type of `t` bytes, MultipleVector.hpp:59-62 and 110-118, and the value returned, which is
converted to `id_type`. -/
def MVec.setT (v : MVec) (i f t : Nat) (x : Int) : Option (MVec × Nat) := do
  let b ← v.blockSize
  let e ← v.table[f]?
  let bs ← setTB (i * b + e.1) x t e.2 0 v.bytes
  pure ({ v with bytes := bs }, (x % 2 ^ 64).toNat)

/-- `block(i) = {xs...}`, MultipleVector.hpp:64-68. The function is declared to return a reference object and has no return statement, so
that its end is undefined after the fields have been set. -/
def MVec.assign (v : MVec) (i : Nat) (xs : List Nat) : Option MVec := do
  let _ ← v.setFields i 0 xs
  none

/-! ### The bytes of a value -/

theorem byte_int (x : Int) (i : Nat) (hi : i < 8) :
    BitVec.ofInt 8 (x >>> (i * 8)) = BitVec.ofNat 8 ((x % 2 ^ 64).toNat >>> (i * 8)) := by
  apply BitVec.eq_of_toNat_eq
  rw [BitVec.toNat_ofInt, BitVec.toNat_ofNat, Int.shiftRight_eq_div_pow, Nat.shiftRight_eq_div_pow]
  have : i = 0 ∨ i = 1 ∨ i = 2 ∨ i = 3 ∨ i = 4 ∨ i = 5 ∨ i = 6 ∨ i = 7 := by omega
  rcases this with rfl | rfl | rfl | rfl | rfl | rfl | rfl | rfl <;> simp only [Nat.reduceMul, Nat.reducePow, Int.reducePow] <;> omega

theorem setTB_eq (off : Nat) (x : Int) (t : Nat) : ∀ (n i : Nat) (bs : List Byte), n + i ≤ max 4 t → n + i ≤ 8 →
    setTB off x t n i bs = setB off (x % 2 ^ 64).toNat n i bs
  | 0, _, _, _, _ => rfl
  | n + 1, i, bs, h1, h2 => by
    rw [setTB, setB, if_neg (by omega), if_neg (by omega), byte_int x i (by omega)]
    cases wr bs (off + i) (BitVec.ofNat 8 ((x % 2 ^ 64).toNat >>> (i * 8))) with
    | none => rfl
    | some bs => exact setTB_eq off x t n (i + 1) bs (by omega) (by omega)

theorem setTB_none (off : Nat) (x : Int) (t : Nat) : ∀ (n i : Nat) (bs : List Byte), i ≤ max 4 t → max 4 t < n + i →
    setTB off x t n i bs = none
  | 0, _, _, _, _ => by omega
  | n + 1, i, bs, h1, h2 => by
    rw [setTB]
    split
    · rfl
    · cases wr bs (off + i) (BitVec.ofInt 8 (x >>> (i * 8))) with
      | none => rfl
      | some bs => exact setTB_none off x t n (i + 1) bs (by omega) (by omega)

/-! ### C118 -/

/-- `set_at` on a vector reached by any history, with a value of an integer type of `t` bytes, signed or not, and a field that is not wider
than the type (or than `int`): the field reads as the value modulo its width, all other fields of all records are as before. What is missing is
the wider field, see `C118_set_at_refuted`. -/
theorem C118_set_at_partial (sizes : List Nat) (hne : sizes ≠ []) (hs : ∀ s ∈ sizes, 1 ≤ s ∧ s ≤ 8) (os : List Op)
    (ho : opsOk sizes [] os) (v : MVec) (e : runOps (new sizes) os = some v) (n i f t : Nat) (x : Int) (hn : v.size = some n)
    (hi : i < n) (hf : f < sizes.length) (hw : sizes[f] ≤ max 4 t) :
    ∃ v', v.setT i f t x = some (v', (x % 2 ^ 64).toNat) ∧ v'.size = some n ∧ v'.get i f = some (x % 256 ^ (sizes[f])).toNat ∧
      ∀ j g, j < n → g < sizes.length → (j ≠ i ∨ g ≠ f) → ∃ y, v.get j g = some y ∧ v'.get j g = some y := by
  obtain ⟨v', e', sz, a, b⟩ := C28_write_read sizes hne hs os ho v e n i f (x % 2 ^ 64).toNat hn hi hf
  have hl : Layout sizes := ⟨hne, hs⟩
  obtain ⟨v1, e1, r⟩ := run_rep hl os (new sizes) [] (new_rep sizes) ho
  rw [e] at e1
  obtain rfl := Option.some.inj e1
  have h8 := (hs sizes[f] (List.getElem_mem hf)).2
  refine ⟨v', ?_, sz, ?_, b⟩
  · unfold MVec.set at e'
    unfold MVec.setT
    rw [r.wf.block hl, r.wf.table, entries_getElem?, List.getElem?_eq_getElem hf] at e' ⊢
    simp only [Option.map_some, Option.bind_eq_bind, Option.bind_some] at e' ⊢
    rw [setTB_eq _ _ _ _ _ _ (by omega) (by omega)]
    revert e'
    cases setB (i * sizes.sum + (0 + (List.take f sizes).sum)) (x % 2 ^ 64).toNat sizes[f] 0 v.bytes with
    | none => intro h; cases h
    | some bs => intro h; cases h; rfl
  · rw [a]
    congr 1
    have h1 := (hs sizes[f] (List.getElem_mem hf)).1
    generalize sizes[f] = w at h1 h8
    have : w = 1 ∨ w = 2 ∨ w = 3 ∨ w = 4 ∨ w = 5 ∨ w = 6 ∨ w = 7 ∨ w = 8 := by omega
    rcases this with rfl | rfl | rfl | rfl | rfl | rfl | rfl | rfl <;> simp only [Nat.reducePow, Int.reducePow] <;> omega

/-- A field of three bytes, set to -2 given as an `int8_t`. -/
example := C118_set_at_partial [1, 3, 8] (by decide) (by decide) [.pushBack [7, 8, 9], .emplaceBack] (by simp [opsOk, opOk])
  ((runOps (new [1, 3, 8]) [.pushBack [7, 8, 9], .emplaceBack]).getD (new [])) (by decide) 2 1 1 1 (-2) (by decide) (by decide) (by decide)
  (by decide)

example : ((((runOps (new [1, 3, 8]) [.pushBack [7, 8, 9], .emplaceBack]).bind fun v => v.setT 1 1 1 (-2)).map Prod.fst).bind fun v => v.get 1 1)
    = some 0xfffffe := by decide

/-- A field wider than the type of the value and than `int`: `set_at` shifts by the width of the type, whatever the value and the state. In
particular `set_at(f, 5)` is undefined for fields of five to eight bytes. -/
theorem C118_set_at_refuted (sizes : List Nat) (hne : sizes ≠ []) (hs : ∀ s ∈ sizes, 1 ≤ s ∧ s ≤ 8) (os : List Op)
    (ho : opsOk sizes [] os) (v : MVec) (e : runOps (new sizes) os = some v) (i f t : Nat) (x : Int)
    (hf : f < sizes.length) (hw : max 4 t < sizes[f]) : v.setT i f t x = none := by
  have hl : Layout sizes := ⟨hne, hs⟩
  obtain ⟨v1, e1, r⟩ := run_rep hl os (new sizes) [] (new_rep sizes) ho
  rw [e] at e1
  obtain rfl := Option.some.inj e1
  unfold MVec.setT
  rw [r.wf.block hl, r.wf.table, entries_getElem?, List.getElem?_eq_getElem hf]
  simp only [Option.map_some, Option.bind_eq_bind, Option.bind_some]
  rw [setTB_none _ _ _ _ _ _ (by omega) (by omega)]
  rfl

example := C118_set_at_refuted [1, 3, 8] (by decide) (by decide) [.pushBack [7, 8, 9], .emplaceBack] (by simp [opsOk, opOk])
  ((runOps (new [1, 3, 8]) [.pushBack [7, 8, 9], .emplaceBack]).getD (new [])) (by decide) 1 2 4 5 (by decide) (by decide)

/-- `block(i) = {...}` is undefined for every vector, record and list of values. -/
theorem C118_assign_refuted (v : MVec) (i : Nat) (xs : List Nat) : v.assign i xs = none := by
  unfold MVec.assign
  cases v.setFields i 0 xs <;> rfl

/-- The fields themselves have been set by then. -/
example : (((runOps (new [1, 3]) [.emplaceBack]).bind fun v => v.setFields 0 0 [5, 6]).bind fun v => v.get 0 1) = some 6 := by decide

end Verif.Mult
