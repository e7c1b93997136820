/-
Property theorem C46 for histories that change the bit length of elements: the old value is erased in the table of the next bit length, which does not matter
as long as that table was never written to.
-/
import Verif.CDRW.Props
import Verif.CDRW.Fresh

namespace Verif.CDRW
open Verif.Bits Verif.Fit Verif.CHT

/-- After the writes `l`: the array holds the last values, and the tables of the bit lengths that do not occur in `l` were never written to. -/
theorem writes_sparse {kb n : Nat} {a : Arr} (hkb : kb ≤ 62) (hn : n ≤ 2 ^ kb) (O : Ok kb n 0 a (fun _ => 0)) (C : Clean kb n a []) (ops : List (Nat × Nat)) :
    ops.length ≤ 2 ^ 55 → (∀ o ∈ ops, o.1 < n ∧ o.2 < 2 ^ 63) →
    (∀ l i v r, ops = l ++ (i, v) :: r → valueOf l i = 0 ∨ Nat.size (valueOf l i) = Nat.size v ∨ ∀ o ∈ l, Nat.size o.2 ≠ Nat.size (valueOf l i) + 1) →
    ∃ a', writes a ops = some a' ∧ Ok kb n ops.length a' (valueOf ops) ∧ (∀ i, valueOf ops i < 2 ^ 63) ∧ Clean kb n a' (ops.map (·.2)) := by
  induction ops using List.reverseRecOn with
  | nil => exact fun _ _ _ => ⟨a, rfl, O, fun i => by simp [valueOf], C⟩
  | append_singleton ops o ih =>
    intro hlen hok hfit
    obtain ⟨i, v⟩ := o
    rw [List.length_append, List.length_singleton] at hlen
    obtain ⟨a1, e1, O1, hlt, C1⟩ := ih (by omega) (fun o ho => hok o (by simp [ho])) (fun l i' v' r e => hfit l i' v' (r ++ [(i, v)]) (by rw [e]; simp))
    obtain ⟨h1, h2⟩ := hok (i, v) (by simp)
    obtain ⟨a2, e2, O2, C2⟩ := set_clean hkb hn O1 C1 (by omega) h1 h2 (hlt i) ((hfit ops i v [] rfl).imp_right (fun h => h.imp_right (fun h y hy => by
      obtain ⟨o, ho, rfl⟩ := List.mem_map.1 hy
      exact h o ho)))
    refine ⟨a2, ?_, ?_, ?_, C2 _ (fun y hy => by rw [List.map_append]; exact List.mem_append_left _ hy) (.inr (by simp))⟩
    · rw [writes_append, e1]
      simp only [Option.bind_some, writes, e2]
    · rw [valueOf_append, List.length_append, List.length_singleton]
      exact O2
    · intro j
      rw [valueOf_append]
      by_cases h : j = i
      · subst h
        rw [Function.update_self]
        exact h2
      · rw [Function.update_of_ne h]
        exact hlt j

/-- C46: `get` returns the last value written (zero if there is none) after any history in which every write to an element that holds a nonzero value of `b` bits
writes `b` bits again or happens before any value of `b + 1` bits was written to the array. Missing: the other histories, for which the claim is false in general
(`C46_array_refuted`). -/
theorem C46_sparse_partial (n : Nat) (ops : List (Nat × Nat)) (h0 : 1 ≤ n) (hn : n ≤ 2 ^ 62) (hlen : ops.length ≤ 2 ^ 55) (hok : ∀ o ∈ ops, o.1 < n ∧ o.2 < 2 ^ 63)
    (hfit : ∀ l i v r, ops = l ++ (i, v) :: r → valueOf l i = 0 ∨ Nat.size (valueOf l i) = Nat.size v ∨ ∀ o ∈ l, Nat.size o.2 ≠ Nat.size (valueOf l i) + 1) :
    ∃ a a', new false n = some a ∧ writes a ops = some a' ∧ a'.size = n ∧ ∀ i, i < n → a'.get i = some (valueOf ops i) := by
  obtain ⟨a, e, O⟩ := new_ok (by omega) hn
  obtain ⟨b1, b2⟩ := sizeBits_spec (n := n) (by omega) hn
  obtain ⟨a', e', O', hlt, _⟩ := writes_sparse b2 b1 O (new_clean (by omega) e) ops hlen hok hfit
  refine ⟨a, a', e, e', ?_, fun i hi => get_ok b2 b1 O' (fun i _ => hlt i) hi⟩
  obtain ⟨_, _, rfl, _⟩ := O'
  rfl

example : ∃ a a', new false 3 = some a ∧ writes a [(0, 5), (1, 200)] = some a' ∧ a'.size = 3 ∧ ∀ i, i < 3 → a'.get i = some (valueOf [(0, 5), (1, 200)] i) := by
  refine C46_sparse_partial 3 [(0, 5), (1, 200)] (by decide) (by decide) (by decide) (by decide) ?_
  intro l i v r h
  match l with
  | [] => exact .inl rfl
  | [a] =>
    simp at h
    obtain ⟨rfl, ⟨rfl, rfl⟩, _⟩ := h
    exact .inl rfl
  | a :: b :: l => simp at h

/-- C46: an array whose values never have consecutive bit lengths (for example only 0, 1-bit, 8-bit and 32-bit values) can be rewritten in any way. -/
theorem C46_gaps_partial (n : Nat) (ops : List (Nat × Nat)) (h0 : 1 ≤ n) (hn : n ≤ 2 ^ 62) (hlen : ops.length ≤ 2 ^ 55) (hok : ∀ o ∈ ops, o.1 < n ∧ o.2 < 2 ^ 63)
    (hgap : ∀ o ∈ ops, ∀ o' ∈ ops, o.2 ≠ 0 → Nat.size o'.2 ≠ Nat.size o.2 + 1) :
    ∃ a a', new false n = some a ∧ writes a ops = some a' ∧ a'.size = n ∧ ∀ i, i < n → a'.get i = some (valueOf ops i) := by
  refine C46_sparse_partial n ops h0 hn hlen hok (fun l i v r e => ?_)
  by_cases hz : valueOf l i = 0
  · exact .inl hz
  · refine .inr (.inr (fun o ho => ?_))
    have hmem : ∃ o' ∈ l, o'.2 = valueOf l i := by
      unfold valueOf at hz ⊢
      cases hfd : l.reverse.find? (fun o => o.1 == i) with
      | none => rw [hfd] at hz; exact absurd rfl hz
      | some o' => exact ⟨o', List.mem_reverse.1 (List.mem_of_find?_eq_some hfd), rfl⟩
    obtain ⟨o', ho', h'⟩ := hmem
    rw [← h']
    exact hgap o' (by rw [e]; simp [ho']) o (by rw [e]; simp [ho]) (by rw [h']; exact hz)

/-- A history for `C46_gaps_partial`: elements change between 1, 3 and 8 bits in any order, also through zero. -/
example : ∃ a a', new false 5 = some a ∧ writes a [(0, 200), (1, 5), (0, 1), (1, 255), (0, 4), (1, 0), (0, 128), (4, 7)] = some a' ∧ a'.size = 5 ∧
    ∀ i, i < 5 → a'.get i = some (valueOf [(0, 200), (1, 5), (0, 1), (1, 255), (0, 4), (1, 0), (0, 128), (4, 7)] i) :=
  C46_gaps_partial 5 _ (by decide) (by decide) (by decide) (by decide) (by decide)

end Verif.CDRW
