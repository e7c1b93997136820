/-
Property theorems C128 for CHT and CDRWArray in a build with assertions.
-/
import Verif.CDRW.Props

namespace Verif.CHT
open Verif.Bits

/-- `assert(64-bit_util::clz(x) <= bits)`, CHT.hpp:89, 111, 112. -/
def fitsBits (x bits : Nat) : Bool := decide (64 - clz64 (BitVec.ofNat 64 x) ≤ bits)

/-- `get` in a build with assertions, CHT.hpp:88-104. The inner `none` is the abort. -/
def Tab.getA (P : Par) (t : Tab) (key : Nat) : Option (Option (Bool × Nat)) :=
  if fitsBits key t.keyBits then (t.get P key).map some else some none

/-- `set` with the two assertions at its beginning, CHT.hpp:110-112. The assertions further down (line 150, and those reached through `reserve`)
are not evaluated. -/
def Tab.setA (P : Par) (t : Tab) (strict : Bool) (key value : Nat) : Option (Option Tab) :=
  if fitsBits key t.keyBits && fitsBits value t.values.width then (t.set P strict key value).map some else some none

theorem fitsBits_eq (x bits : Nat) (hx : x < 2 ^ 64) : fitsBits x bits = decide (x < 2 ^ bits) := by
  unfold fitsBits
  rw [CDRW.bits_eq x hx]
  exact decide_eq_decide.mpr Nat.size_le

/-- C128, CHT: the assertions on the arguments let through exactly the keys of the declared width and the values of the declared width; the call is
then that of a build without assertions. -/
theorem C128_cht (P : Par) (t : Tab) (strict : Bool) (k v : Nat) (hk : k < 2 ^ 64) (hv : v < 2 ^ 64) :
    (t.getA P k = if k < 2 ^ t.keyBits then (t.get P k).map some else some none) ∧
    (t.setA P strict k v = if k < 2 ^ t.keyBits ∧ v < 2 ^ t.values.width then (t.set P strict k v).map some else some none) := by
  unfold Tab.getA Tab.setA
  rw [fitsBits_eq k _ hk, fitsBits_eq v _ hv]
  simp

example (t : Tab) := C128_cht (defaultPar 5) t false 63 32 (by decide) (by decide)

/-- A table of keys of six bits and values of five: 63 and 31 pass, 64 and 32 do not. -/
example : ((new (defaultPar 5) false 6 32).map fun t => ((t.getA (defaultPar 5) 63).map Option.isSome, (t.getA (defaultPar 5) 64).map Option.isSome,
    (t.setA (defaultPar 5) false 0 31).map Option.isSome, (t.setA (defaultPar 5) false 0 32).map Option.isSome)) =
    some (some true, some false, some true, some false) := by decide +kernel

end Verif.CHT

namespace Verif.CDRW
open Verif.Bits Verif.Fit Verif.CHT

/-- `get` in a build with assertions, CDRWArray.hpp:34-43, with the assertion of the table and that of line 40. The inner `none` is the abort. -/
def Arr.getA (a : Arr) (i : Nat) : Option (Option Nat) := do
  let (ws, ts) ← a.body
  let w ← ws.get i
  if w = 0 then pure (some 0)
  else do
    let t ← ts[w - 1]?
    let r ← t.getA par i
    match r with
    | none => pure none
    | some r => if r.1 then pure (some r.2) else pure none

theorem getA_ok {kb n m : Nat} {a : Arr} {A : Nat → Nat} (hkb : kb ≤ 62) (hn : n ≤ 2 ^ kb) (O : Ok kb n m a A) (hA : ∀ i, i < n → A i < 2 ^ 63)
    {i : Nat} (hi : i < n) : a.getA i = some (some (A i)) := by
  obtain ⟨ws, ts, rfl, w1, s1, hw, hts⟩ := O
  have hlt := hA i hi
  have hget : ws.get i = some (Nat.size (A i)) := by rw [Fit.get_spec ws 7 w1 i (by omega), hw i hi]
  unfold Arr.getA
  simp only [Option.bind_eq_bind, Option.bind_some, hget]
  have hs : Nat.size (A i) ≤ 63 := Nat.size_le.2 hlt
  by_cases h0 : Nat.size (A i) = 0
  · rw [if_pos h0, Nat.size_eq_zero.1 h0]
    rfl
  · rw [if_neg h0]
    obtain ⟨t, M, e, I, _, hM⟩ := hts (Nat.size (A i) - 1) (by omega)
    obtain ⟨s, home, At⟩ := I.has
    rw [e]
    have hk64 : i < 2 ^ 64 := by
      have := Nat.pow_le_pow_right (show 0 < 2 by decide) hkb
      omega
    simp only [Option.bind_some]
    rw [(C128_cht par t false i 0 hk64 (by decide)).1, if_pos (by rw [I.wt.keyBits]; omega), CHT.get_spec (par_good hkb) I.wt At (by omega), hM i hi (by omega)]
    rfl

/-- C128, CDRWArray: in a build with assertions every read of the histories of C46 returns the last value written. Missing: histories that change the bit
length of an element, where the read can abort (`C128_cdrw_refuted`). -/
theorem C128_cdrw_partial (n : Nat) (ops : List (Nat × Nat)) (h0 : 1 ≤ n) (hn : n ≤ 2 ^ 62) (hlen : ops.length ≤ 2 ^ 55) (hok : ∀ o ∈ ops, o.1 < n ∧ o.2 < 2 ^ 63)
    (hfit : ∀ l i v r, ops = l ++ (i, v) :: r → valueOf l i = 0 ∨ Nat.size (valueOf l i) = Nat.size v) :
    ∃ a a', new false n = some a ∧ writes a ops = some a' ∧ ∀ i, i < n → a'.getA i = some (some (valueOf ops i)) := by
  obtain ⟨a, e, O⟩ := new_ok (by omega) hn
  obtain ⟨b1, b2⟩ := sizeBits_spec (n := n) (by omega) hn
  obtain ⟨a', e', O', hlt⟩ := writes_ok b2 b1 O ops hlen hok hfit
  exact ⟨a, a', e, e', fun i hi => getA_ok b2 b1 O' (fun i _ => hlt i) hi⟩

example : ∃ a a', new false 64 = some a ∧ writes a [(3, 2), (5, 3)] = some a' ∧ ∀ i, i < 64 → a'.getA i = some (some (valueOf [(3, 2), (5, 3)] i)) := by
  refine C128_cdrw_partial 64 _ (by decide) (by decide) (by decide) (by decide) ?_
  intro l i v r h
  have hl : l.length < 2 := by
    have := congrArg List.length h
    simp at this
    omega
  have e1 : l = List.take l.length [(3, 2), (5, 3)] := by rw [h]; simp
  have e2 : some (i, v) = [(3, 2), (5, 3)][l.length]? := by rw [h]; simp
  generalize l.length = k at *
  subst e1
  have : k = 0 ∨ k = 1 := by omega
  rcases this with h | h <;> subst h <;> simp only [List.getElem?_cons_zero, List.getElem?_cons_succ, Option.some.injEq, Prod.mk.injEq] at e2 <;>
    obtain ⟨rfl, rfl⟩ := e2 <;> decide

/-- C128, CDRWArray: the history of `C46_array_refuted`, where element 3 reads as zero without assertions, aborts with them. -/
theorem C128_cdrw_refuted : ∃ a a', new false 64 = some a ∧ writes a [(3, 2), (22, 1), (22, 0), (10, 3), (11, 3)] = some a' ∧ a'.getA 3 = some none := by
  have h : ((new false 64).bind (fun a => (writes a [(3, 2), (22, 1), (22, 0), (10, 3), (11, 3)]).map (fun a' => a'.getA 3))) = some (some none) := by decide +kernel
  obtain ⟨a, e1, h⟩ := Option.bind_eq_some_iff.1 h
  obtain ⟨a', e2, h⟩ := Option.map_eq_some_iff.1 h
  exact ⟨a, a', e1, e2, h⟩

end Verif.CDRW
