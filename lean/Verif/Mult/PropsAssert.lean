/-
Property theorems C128 for MultipleVector in a build with assertions.
-/
import Verif.Mult.Props
import Verif.Calc.Props

namespace Verif.Mult
open Verif.Calc

/-- `set_nested_element` in a build with assertions, MultipleVector.hpp:269-276. The inner `none` is the abort; `||` does not evaluate
`SizeFitsInBytes` for a field of 8 bytes. -/
def MVec.setNestedA (v : MVec) (i f x : Nat) : Option (Option MVec) :=
  match v.table[f]? with
  | none => some none
  | some e => do
    let n ← v.size
    if n ≤ i then pure none
    else if e.2 = 8 then (v.set i f x).map some
    else do
      let k ← sizeFitsInBytes x
      if k ≤ e.2 then (v.set i f x).map some else pure none

/-- `nested_element` in a build with assertions, MultipleVector.hpp:278-283. The inner `none` is the abort. -/
def MVec.nestedA (v : MVec) (i f : Nat) : Option (Option Nat) :=
  match v.table[f]? with
  | none => some none
  | some _ => do
    let n ← v.size
    if n ≤ i then pure none else (v.get i f).map some

theorem entries_get : ∀ (sizes : List Nat) (p f : Nat), (entries sizes p)[f]?.map (·.2) = sizes[f]?
  | [], _, _ => rfl
  | _ :: _, _, 0 => rfl
  | _ :: ss, _, f + 1 => entries_get ss _ f

/-- What the table and the size are after a history. -/
theorem run_table (sizes : List Nat) (hne : sizes ≠ []) (hs : ∀ s ∈ sizes, 1 ≤ s ∧ s ≤ 8) (os : List Op) (ho : opsOk sizes [] os) (v : MVec)
    (e : runOps (new sizes) os = some v) : v.table = entries sizes 0 := by
  obtain ⟨v1, e1, r⟩ := run_rep ⟨hne, hs⟩ os (new sizes) [] (new_rep sizes) ho
  rw [e] at e1
  obtain rfl := Option.some.inj e1
  exact r.wf.table

/-- C128, MultipleVector: after every history, `set_nested_element<f>(i, x)` with a field and a record that exist and a value that the field holds
does not abort, and the field then reads as `x`; `nested_element<f>(i)` does not abort either and reads what it reads without assertions. -/
theorem C128_nested (sizes : List Nat) (hne : sizes ≠ []) (hs : ∀ s ∈ sizes, 1 ≤ s ∧ s ≤ 8) (os : List Op) (ho : opsOk sizes [] os) (v : MVec)
    (e : runOps (new sizes) os = some v) (n i f x : Nat) (hn : v.size = some n) (hi : i < n) (hf : f < sizes.length) (hx : x < 256 ^ sizes[f]) :
    (∃ v', v.setNestedA i f x = some (some v') ∧ v.set i f x = some v' ∧ v'.nestedA i f = some (some x)) ∧
    ∃ y, v.nestedA i f = some (some y) ∧ v.get i f = some y := by
  have ht := run_table sizes hne hs os ho v e
  obtain ⟨v', h1, h2, h3, h4⟩ := C28_write_read sizes hne hs os ho v e n i f x hn hi hf
  rw [Nat.mod_eq_of_lt hx] at h3
  have hte := entries_get sizes 0 f
  rw [List.getElem?_eq_getElem hf] at hte
  obtain ⟨en, he, hw⟩ := Option.map_eq_some_iff.1 hte
  have hv't : v'.table = v.table := by
    unfold MVec.set at h1
    simp only [Option.bind_eq_bind, Option.bind_eq_some_iff] at h1
    obtain ⟨_, _, _, _, _, _, h1⟩ := h1
    cases h1
    rfl
  have hsz := hs _ (List.getElem_mem hf)
  refine ⟨⟨v', ?_, h1, ?_⟩, ?_⟩
  · unfold MVec.setNestedA
    rw [ht, he]
    simp only [hn, Option.bind_eq_bind, Option.bind_some]
    rw [if_neg (by omega), h1]
    by_cases h8 : en.2 = 8
    · rw [if_pos h8]; rfl
    · rw [if_neg h8]
      have hx56 : x < 2 ^ 56 := by
        have : 256 ^ sizes[f] ≤ 256 ^ 7 := Nat.pow_le_pow_right (by decide) (by omega)
        exact Nat.lt_of_lt_of_le hx this
      obtain ⟨k, ek, _, _, hk⟩ := C13_sizeFitsInBytes x hx56
      rw [ek, Option.bind_some, if_pos (by rw [hw]; exact hk _ hsz.1 hx)]
      rfl
  · unfold MVec.nestedA
    rw [hv't, ht, he]
    simp only [h2, Option.bind_eq_bind, Option.bind_some]
    rw [if_neg (by omega), h3]; rfl
  · obtain ⟨v1, e1, r⟩ := run_rep ⟨hne, hs⟩ os (new sizes) [] (new_rep sizes) ho
    rw [e] at e1
    obtain rfl := Option.some.inj e1
    have hl : Layout sizes := ⟨hne, hs⟩
    have hn' := r.wf.sz hl
    rw [hn] at hn'
    have hw' := r.wf
    rw [← Option.some.inj hn'] at hw'
    refine ⟨_, ?_, get_spec hw' hl i f hi hf⟩
    unfold MVec.nestedA
    rw [ht, he]
    simp only [hn, Option.bind_eq_bind, Option.bind_some]
    rw [if_neg (by omega), get_spec hw' hl i f hi hf]; rfl

example (v : MVec) (e : runOps (new [1, 2]) [.pushBack [30, 7]] = some v) (hn : v.size = some 1) :=
  C128_nested [1, 2] (by decide) (by decide) [.pushBack [30, 7]] (by simp [opsOk, opOk]) v e 1 0 1 65535 hn (by decide) (by decide) (by decide)

/-- C128: outside of that domain the assertions stop the program: a field or a record that does not exist, or a value of less than `2 ^ 56` that is too
large for the field (without assertions it is cut, C28). -/
theorem C128_nested_domain (sizes : List Nat) (hne : sizes ≠ []) (hs : ∀ s ∈ sizes, 1 ≤ s ∧ s ≤ 8) (os : List Op) (ho : opsOk sizes [] os) (v : MVec)
    (e : runOps (new sizes) os = some v) (n i f x : Nat) (hn : v.size = some n) :
    ((sizes.length ≤ f ∨ n ≤ i) → v.setNestedA i f x = some none ∧ v.nestedA i f = some none) ∧
    (∀ hf : f < sizes.length, i < n → 256 ^ sizes[f] ≤ x → x < 2 ^ 56 → v.setNestedA i f x = some none) := by
  have ht := run_table sizes hne hs os ho v e
  have hte := entries_get sizes 0 f
  refine ⟨fun h => ?_, fun hf hi hx hx56 => ?_⟩
  · unfold MVec.setNestedA MVec.nestedA
    rw [ht]
    by_cases hf : f < sizes.length
    · rw [List.getElem?_eq_getElem hf] at hte
      obtain ⟨en, he, hw⟩ := Option.map_eq_some_iff.1 hte
      rw [he]
      simp only [hn, Option.bind_eq_bind, Option.bind_some]
      rw [if_pos (by omega), if_pos (by omega)]
      exact ⟨rfl, rfl⟩
    · rw [List.getElem?_eq_none (l := sizes) (by omega)] at hte
      rw [Option.map_eq_none_iff.1 hte]
      exact ⟨rfl, rfl⟩
  · rw [List.getElem?_eq_getElem hf] at hte
    obtain ⟨en, he, hw⟩ := Option.map_eq_some_iff.1 hte
    have hsz := hs _ (List.getElem_mem hf)
    have h8 : ¬ en.2 = 8 := by
      intro h8
      have h : 256 ^ 7 ≤ 256 ^ sizes[f] := Nat.pow_le_pow_right (by decide) (by omega)
      have : (256 : Nat) ^ 7 = 2 ^ 56 := by decide
      omega
    unfold MVec.setNestedA
    rw [ht, he]
    simp only [hn, Option.bind_eq_bind, Option.bind_some]
    rw [if_neg (by omega), if_neg h8]
    obtain ⟨k, ek, _, hk, _⟩ := C13_sizeFitsInBytes x hx56
    rw [ek, Option.bind_some, if_neg]
    · rfl
    · intro hle
      have : 256 ^ k ≤ 256 ^ sizes[f] := Nat.pow_le_pow_right (by decide) (by omega)
      omega

example (v : MVec) (e : runOps (new [1, 2]) [.pushBack [30, 7]] = some v) (hn : v.size = some 1) :=
  C128_nested_domain [1, 2] (by decide) (by decide) [.pushBack [30, 7]] (by simp [opsOk, opOk]) v e 1 0 1 65536 hn

/-- C128: for a value of `2 ^ 56` or more and a field of less than 8 bytes the assertion itself is undefined (a shift by 64): it does not stop the
program, as it does for smaller values that are too large. -/
theorem C128_nested_ub (sizes : List Nat) (hne : sizes ≠ []) (hs : ∀ s ∈ sizes, 1 ≤ s ∧ s ≤ 8) (os : List Op) (ho : opsOk sizes [] os) (v : MVec)
    (e : runOps (new sizes) os = some v) (n i f x : Nat) (hn : v.size = some n) (hi : i < n) (hf : f < sizes.length) (h8 : sizes[f] < 8)
    (hx : 2 ^ 56 ≤ x) : v.setNestedA i f x = none := by
  have ht := run_table sizes hne hs os ho v e
  have hte := entries_get sizes 0 f
  rw [List.getElem?_eq_getElem hf] at hte
  obtain ⟨en, he, hw⟩ := Option.map_eq_some_iff.1 hte
  unfold MVec.setNestedA
  rw [ht, he]
  simp only [hn, Option.bind_eq_bind, Option.bind_some]
  rw [if_neg (by omega), if_neg (by omega)]
  have : sizeFitsInBytes x = none := C13_sizeFitsInUnits_domain x 8 (by decide) (by simpa using hx)
  rw [this]
  rfl

example (v : MVec) (e : runOps (new [1, 2]) [.pushBack [30, 7]] = some v) (hn : v.size = some 1) :=
  C128_nested_ub [1, 2] (by decide) (by decide) [.pushBack [30, 7]] (by simp [opsOk, opOk]) v e 1 0 1 (2 ^ 60) hn (by decide) (by decide) (by decide) (by decide)

/-- Two records of fields of 1, 2 and 8 bytes. -/
example : ((runOps (new [1, 2, 8]) [.pushBack [30, 7, 9], .emplaceBack]).map fun v =>
    (v.size, [v.setNestedA 1 1 65535, v.setNestedA 1 1 65536, v.setNestedA 1 2 (2 ^ 64 - 1), v.setNestedA 2 1 1, v.setNestedA 1 3 1,
      v.setNestedA 1 1 (2 ^ 56)].map (Option.map Option.isSome), v.nestedA 0 1)) =
    some (some 2, [some true, some false, some true, some false, some false, none], some (some 7)) := by decide +kernel
example : opsOk [1, 2, 8] [] [.pushBack [30, 7, 9], .emplaceBack] := by simp [opsOk, opOk]

end Verif.Mult
