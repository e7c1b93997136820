/-
Property theorems C46 (CDRWArray).
-/
import Verif.CDRW.Lemmas

namespace Verif.CDRW
open Verif.CHT

/-- The value of the last write to `i`, zero if there is none. -/
def valueOf (ops : List (Nat × Nat)) (i : Nat) : Nat := ((ops.reverse.find? (fun o => o.1 == i)).map (·.2)).getD 0

/-- A history of `set(i, v)`. -/
def writes : Arr → List (Nat × Nat) → Option Arr
  | a, [] => some a
  | a, (i, v) :: l => (a.set i v).bind (writes · l)

theorem writes_append (a : Arr) : ∀ (l r : List (Nat × Nat)), writes a (l ++ r) = (writes a l).bind (writes · r)
  | [], _ => rfl
  | (i, v) :: l, r => by
    simp only [List.cons_append, writes]
    cases a.set i v with
    | none => rfl
    | some a' => exact writes_append a' l r

theorem valueOf_append (l : List (Nat × Nat)) (i v : Nat) : valueOf (l ++ [(i, v)]) = Function.update (valueOf l) i v := by
  funext j
  unfold valueOf
  rw [List.reverse_append]
  simp only [List.reverse_cons, List.reverse_nil, List.nil_append, List.singleton_append, List.find?_cons]
  by_cases h : j = i
  · subst h
    simp
  · rw [Function.update_of_ne h]
    have : (i == j) = false := by simpa using fun h' : i = j => h h'.symm
    rw [this]

theorem writes_ok {kb n : Nat} {a : Arr} (hkb : kb ≤ 62) (hn : n ≤ 2 ^ kb) (O : Ok kb n 0 a (fun _ => 0)) (ops : List (Nat × Nat)) : ops.length ≤ 2 ^ 55 →
    (∀ o ∈ ops, o.1 < n ∧ o.2 < 2 ^ 63) →
    (∀ l i v r, ops = l ++ (i, v) :: r → valueOf l i = 0 ∨ Nat.size (valueOf l i) = Nat.size v) →
    ∃ a', writes a ops = some a' ∧ Ok kb n ops.length a' (valueOf ops) ∧ ∀ i, valueOf ops i < 2 ^ 63 := by
  induction ops using List.reverseRecOn with
  | nil => exact fun _ _ _ => ⟨a, rfl, O, fun i => by simp [valueOf]⟩
  | append_singleton ops o ih =>
    intro hlen hok hfit
    obtain ⟨i, v⟩ := o
    rw [List.length_append, List.length_singleton] at hlen
    obtain ⟨a1, e1, O1, hlt⟩ := ih (by omega) (fun o ho => hok o (by simp [ho])) (fun l i' v' r e => hfit l i' v' (r ++ [(i, v)]) (by rw [e]; simp))
    obtain ⟨h1, h2⟩ := hok (i, v) (by simp)
    obtain ⟨a2, e2, O2⟩ := set_ok hkb hn O1 (by omega) h1 h2 (hfit ops i v [] rfl)
    refine ⟨a2, ?_, ?_, ?_⟩
    · rw [writes_append, e1]
      simp only [Option.bind_some, writes, e2]
    · rw [valueOf_append, List.length_append, List.length_singleton]
      exact O2
    · intro j
      rw [valueOf_append]
      by_cases h : j = i
      · subst h
        rw [Function.update_self]
        exact h2
      · rw [Function.update_of_ne h]
        exact hlt j

/-- C46: after any history of writes that never rewrites a nonzero element with a value of another bit length, `get` returns the last value written, and zero
if there is none. Missing: histories that change the bit length of an element, for which the claim is false (`C46_array_refuted`). -/
theorem C46_array_partial (n : Nat) (ops : List (Nat × Nat)) (h0 : 1 ≤ n) (hn : n ≤ 2 ^ 62) (hlen : ops.length ≤ 2 ^ 55) (hok : ∀ o ∈ ops, o.1 < n ∧ o.2 < 2 ^ 63)
    (hfit : ∀ l i v r, ops = l ++ (i, v) :: r → valueOf l i = 0 ∨ Nat.size (valueOf l i) = Nat.size v) :
    ∃ a a', new false n = some a ∧ writes a ops = some a' ∧ a'.size = n ∧ ∀ i, i < n → a'.get i = some (valueOf ops i) := by
  obtain ⟨a, e, O⟩ := new_ok (by omega) hn
  obtain ⟨b1, b2⟩ := sizeBits_spec (n := n) (by omega) hn
  obtain ⟨a', e', O', hlt⟩ := writes_ok b2 b1 O ops hlen hok hfit
  refine ⟨a, a', e, e', ?_, fun i hi => get_ok b2 b1 O' (fun i _ => hlt i) hi⟩
  obtain ⟨_, _, rfl, _⟩ := O'
  rfl

theorem setAll_eq (a : Arr) : ∀ (l : List Nat) (i : Nat), setAll i l a = writes a (l.zipIdx i |>.map (fun p => (p.2, p.1)))
  | [], _ => rfl
  | v :: l, i => by
    simp only [setAll, List.zipIdx_cons, List.map_cons, writes, Option.bind_eq_bind]
    cases a.set i v with
    | none => rfl
    | some a' => exact setAll_eq a' l (i + 1)

theorem setAll_ok {kb n : Nat} (hkb : kb ≤ 62) (hn : n ≤ 2 ^ kb) : ∀ (l : List Nat) (i : Nat) (a : Arr) (A : Nat → Nat), Ok kb n i a A → i + l.length ≤ n → n ≤ 2 ^ 55 →
    (∀ v ∈ l, v < 2 ^ 63) → (∀ j, i ≤ j → A j = 0) →
    ∃ a', setAll i l a = some a' ∧ Ok kb n (i + l.length) a' (fun j => if j < i then A j else l.getD (j - i) 0)
  | [], i, a, A, O, _, _, _, hz => by
    refine ⟨a, rfl, ?_⟩
    have : (fun j => if j < i then A j else [].getD (j - i) 0) = A := by
      funext j
      by_cases h : j < i
      · simp [h]
      · simp [h, hz j (by omega)]
    rw [this]
    exact O
  | v :: l, i, a, A, O, hi, hb, hv, hz => by
    rw [List.length_cons] at hi
    obtain ⟨a1, e1, O1⟩ := set_ok hkb hn O (by omega) (i := i) (v := v) (by omega) (hv v (by simp)) (.inl (hz i (Nat.le_refl _)))
    obtain ⟨a2, e2, O2⟩ := setAll_ok hkb hn l (i + 1) a1 _ O1 (by omega) hb (fun x hx => hv x (by simp [hx]))
      (fun j hj => by rw [Function.update_of_ne (by omega)]; exact hz j (by omega))
    refine ⟨a2, by simp [setAll, e1, e2], ?_⟩
    rw [show i + (v :: l).length = i + 1 + l.length by rw [List.length_cons]; omega]
    have : (fun j => if j < i then A j else (v :: l).getD (j - i) 0) = (fun j => if j < i + 1 then Function.update A i v j else l.getD (j - (i + 1)) 0) := by
      funext j
      rcases Nat.lt_trichotomy j i with h | h | h
      · rw [if_pos h, if_pos (by omega), Function.update_of_ne (by omega)]
      · subst h
        simp
      · rw [if_neg (by omega), if_neg (by omega), show j - i = (j - (i + 1)) + 1 by omega]
        simp
    rw [this]
    exact O2

/-- C46: an array constructed from a range returns its elements. -/
theorem C46_of_list (l : List Nat) (h0 : l ≠ []) (hn : l.length ≤ 2 ^ 55) (hv : ∀ v ∈ l, v < 2 ^ 63) :
    ∃ a, ofList false l = some a ∧ a.size = l.length ∧ ∀ i, i < l.length → a.get i = l[i]? := by
  have hpos : l.length ≠ 0 := by simpa using h0
  obtain ⟨a, e, O⟩ := new_ok hpos (by omega)
  obtain ⟨b1, b2⟩ := sizeBits_spec hpos (by omega)
  obtain ⟨a', e', O'⟩ := setAll_ok b2 b1 l 0 a _ O (by omega) hn hv (fun _ _ => rfl)
  refine ⟨a', by simp [ofList, e, e'], ?_, ?_⟩
  · obtain ⟨_, _, rfl, _⟩ := O'
    rfl
  · intro i hi
    have hg : ∀ i, (hi : i < l.length) → (if i < 0 then 0 else l.getD (i - 0) 0) = l[i]'hi := by
      intro i hi
      simp [List.getD_eq_getElem?_getD, hi]
    rw [get_ok b2 b1 O' (fun i hi => by rw [hg i hi]; exact hv _ (List.getElem_mem hi)) hi, hg i hi, List.getElem?_eq_getElem hi]

/-- A history for `C46_array_partial`: more elements of one bit length than the first table holds, rewritten elements and zeros. -/
example : ∃ a a', new false 64 = some a ∧ writes a [(3, 2), (22, 1), (5, 3), (10, 3), (11, 3), (12, 2), (22, 1), (5, 2), (9, 0), (9, 1000), (63, 2 ^ 63 - 1)] = some a' ∧
    a'.size = 64 ∧ ∀ i, i < 64 → a'.get i = some (valueOf [(3, 2), (22, 1), (5, 3), (10, 3), (11, 3), (12, 2), (22, 1), (5, 2), (9, 0), (9, 1000), (63, 2 ^ 63 - 1)] i) := by
  refine C46_array_partial 64 _ (by decide) (by decide) (by decide) (by decide) ?_
  intro l i v r h
  have hl : l.length < 11 := by
    have := congrArg List.length h
    simp at this
    omega
  have e1 : l = List.take l.length [(3, 2), (22, 1), (5, 3), (10, 3), (11, 3), (12, 2), (22, 1), (5, 2), (9, 0), (9, 1000), (63, 2 ^ 63 - 1)] := by rw [h]; simp
  have e2 : some (i, v) = [(3, 2), (22, 1), (5, 3), (10, 3), (11, 3), (12, 2), (22, 1), (5, 2), (9, 0), (9, 1000), (63, 2 ^ 63 - 1)][l.length]? := by rw [h]; simp
  generalize l.length = k at *
  subst e1
  have : k = 0 ∨ k = 1 ∨ k = 2 ∨ k = 3 ∨ k = 4 ∨ k = 5 ∨ k = 6 ∨ k = 7 ∨ k = 8 ∨ k = 9 ∨ k = 10 := by omega
  rcases this with h | h | h | h | h | h | h | h | h | h | h <;> subst h <;> simp only [List.getElem?_cons_zero, List.getElem?_cons_succ, Option.some.injEq, Prod.mk.injEq] at e2 <;>
    obtain ⟨rfl, rfl⟩ := e2 <;> decide

/-- C46 is false: element 3 is written once, with 2; then element 22 is set to 1 and to 0, and two elements are set to 3. Element 3 now reads as zero.
`set` erases from the table after the one that holds the old value, where `erase` marks another key. -/
theorem C46_array_refuted : ∃ a a', new false 64 = some a ∧ writes a [(3, 2), (22, 1), (22, 0), (10, 3), (11, 3)] = some a' ∧ a'.get 3 = some 0 := by
  have h : ((new false 64).bind (fun a => (writes a [(3, 2), (22, 1), (22, 0), (10, 3), (11, 3)]).map (fun a' => a'.get 3))) = some (some 0) := by decide +kernel
  obtain ⟨a, e1, h⟩ := Option.bind_eq_some_iff.1 h
  obtain ⟨a', e2, h⟩ := Option.map_eq_some_iff.1 h
  exact ⟨a, a', e1, e2, h⟩

/-- C46: a value of 64 bits is not supported: the table of that width was constructed with a shift by 64, and using it is undefined. -/
theorem C46_wide_ub : ∃ a, new false 64 = some a ∧ a.set 5 (2 ^ 63) = none := by
  have h : ((new false 64).map (fun a => (a.set 5 (2 ^ 63)).isNone)) = some true := by decide +kernel
  obtain ⟨a, e1, h⟩ := Option.map_eq_some_iff.1 h
  exact ⟨a, e1, by simpa using h⟩

/-- C46: in the strict reading no array can be constructed: the default construction of `widthes_` and the table of width 64 shift by 64. -/
theorem C46_strict_ub (n : Nat) : new true n = none := rfl

/-- C46: the array of size 0 has no elements to read. -/
theorem C46_empty_oob (i : Nat) : ∃ a, new false 0 = some a ∧ a.get i = none := ⟨⟨0, none⟩, rfl, rfl⟩

end Verif.CDRW
