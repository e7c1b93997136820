/-
Property theorem C44 (CHT as a map).
-/
import Verif.CHT.Grow
import Verif.Hash.Props
import Mathlib.Data.Finset.Card

namespace Verif.CHT
open Verif.Bits

/-! ### Histories -/

/-- The calls of a user who does not erase. -/
inductive Op where
  | set (k v : Nat)
  | reserve (n : Nat)

/-- The key a call writes. -/
def Op.key : Op → Option Nat
  | .set k _ => some k
  | .reserve _ => none

/-- The value a call gives to key `k`. -/
def Op.gives (k : Nat) : Op → Option Nat
  | .set k' v => if k' = k then some v else none
  | .reserve _ => none

/-- The value of the last call that writes `k`. -/
def lastOf (ops : List Op) (k : Nat) : Option Nat := ops.reverse.findSome? (Op.gives k)

/-- The number of distinct keys. -/
def keyCount (ops : List Op) : Nat := (ops.filterMap Op.key).toFinset.card

def Op.ok (kb vw load : Nat) : Op → Prop
  | .set k v => k < 2 ^ kb ∧ v < 2 ^ vw
  | .reserve n => n ≤ 2 ^ 56 ∧ kb ≤ 60 ∧ load ≤ 99

def run (P : Par) : Tab → List Op → Option Tab
  | t, [] => some t
  | t, .set k v :: ops => (t.set P false k v).bind (run P · ops)
  | t, .reserve n :: ops => (t.reserve P false n).bind (run P · ops)

/-- A new table with values of `vw` bits: `ValueBits`, or `set_value_width(vw)` on a new table if `ValueBits` is 0. -/
def start (P : Par) (kb bucket vw : Nat) : Option Tab :=
  if P.vbits = 0 then (new P false kb bucket).bind (fun t => (t.setValueWidth P vw).join) else new P false kb bucket

variable {P : Par} {kb vw : Nat} {t : Tab} {M : Nat → Option Nat}

theorem fits_of {b load : Nat} (hb : b < 57) (h : load ≤ 99) : 2 ^ b * load < 2 ^ 64 :=
  Nat.lt_of_le_of_lt (Nat.mul_le_mul (Nat.pow_le_pow_right (by decide) (show b ≤ 56 by omega)) h) (by decide)

theorem start_spec (V : Width P vw) {b : Nat} (hb : b < 64) (hk : kb ≤ 59 + b) (hroom : 100 ≤ 2 ^ b * P.load) (hfit : 2 ^ b * P.load < 2 ^ 64) :
    ∃ t, start P kb (2 ^ b) vw = some t ∧ Inv P kb vw t (fun _ => none) ∧ t.used = 0 := by
  unfold start
  by_cases hv : P.vbits = 0
  · obtain ⟨t0, t, e1, e2, h1, h2, _⟩ := new_spec0 V hv hb hk hroom hfit
    rw [if_pos hv, e1]
    exact ⟨t, by simp [e2], h1, h2⟩
  · obtain ⟨t, e1, h1, h2, _⟩ := new_spec V (V.arg.resolve_right hv) hb hk hroom hfit
    rw [if_neg hv]
    exact ⟨t, e1, h1, h2⟩

theorem run_append (t : Tab) : ∀ (ops ops' : List Op), run P t (ops ++ ops') = (run P t ops).bind (run P · ops')
  | [], _ => rfl
  | .set k v :: ops, ops' => by
    simp only [List.cons_append, run]
    cases t.set P false k v with
    | none => rfl
    | some t' => exact run_append t' ops ops'
  | .reserve n :: ops, ops' => by
    simp only [List.cons_append, run]
    cases t.reserve P false n with
    | none => rfl
    | some t' => exact run_append t' ops ops'

theorem lastOf_set (ops : List Op) (k v x : Nat) : lastOf (ops ++ [.set k v]) x = upd (lastOf ops) k v x := by
  unfold lastOf upd
  rw [List.reverse_append]
  simp only [List.reverse_cons, List.reverse_nil, List.nil_append, List.singleton_append, List.findSome?_cons, Op.gives]
  by_cases h : k = x
  · subst h; simp
  · rw [if_neg h, if_neg (fun h' => h h'.symm)]

theorem lastOf_reserve (ops : List Op) (n x : Nat) : lastOf (ops ++ [.reserve n]) x = lastOf ops x := by
  unfold lastOf
  rw [List.reverse_append]
  simp only [List.reverse_cons, List.reverse_nil, List.nil_append, List.singleton_append, List.findSome?_cons, Op.gives]

theorem lastOf_none (ops : List Op) (k : Nat) : lastOf ops k = none ↔ k ∉ ops.filterMap Op.key := by
  unfold lastOf
  rw [List.findSome?_eq_none_iff]
  simp only [List.mem_reverse, List.mem_filterMap, not_exists, not_and]
  constructor
  · intro h o ho hk
    have := h o ho
    cases o with
    | set k' v => simp only [Op.key, Option.some.injEq] at hk; simp [Op.gives, hk] at this
    | reserve n => simp [Op.key] at hk
  · intro h o ho
    have := h o ho
    cases o with
    | set k' v =>
      simp only [Op.key, Option.some.injEq] at this
      simp [Op.gives, this]
    | reserve n => rfl

theorem keyCount_le (ops : List Op) : keyCount ops ≤ ops.length :=
  Nat.le_trans (List.toFinset_card_le _) (List.length_filterMap_le _ _)

theorem run_spec (G : Good P kb) (V : Width P vw) (h1 : 1 ≤ P.load) (h100 : P.load ≤ 100) (I : Inv P kb vw t (fun _ => none)) (hu : t.used = 0) (ops : List Op) :
    ops.length ≤ 2 ^ 55 → (∀ o ∈ ops, o.ok kb vw P.load) → ∃ t', run P t ops = some t' ∧ Inv P kb vw t' (lastOf ops) ∧ t'.used = keyCount ops := by
  induction ops using List.reverseRecOn with
  | nil =>
    intro _ _
    exact ⟨t, rfl, I, by rw [hu]; rfl⟩
  | append_singleton ops o ih =>
    intro hlen hok
    rw [List.length_append, List.length_singleton] at hlen
    obtain ⟨t1, e1, I1, u1⟩ := ih (by omega) (fun o' ho' => hok o' (by simp [ho']))
    have hcnt := keyCount_le ops
    have hoo := hok o (by simp)
    rw [run_append, e1]
    cases o with
    | set k v =>
      obtain ⟨t2, e2, I2, u2⟩ := setD_spec G V h1 h100 I1 (by omega) hoo.1 hoo.2 1
      refine ⟨t2, ?_, ?_, ?_⟩
      · show (t1.set P false k v).bind (run P · []) = some t2
        rw [Tab.set, e2]
        rfl
      · exact I2.congr (fun x _ => lastOf_set ops k v x)
      · rw [u2, u1]
        unfold keyCount
        rw [List.filterMap_append, List.toFinset_append]
        simp only [List.filterMap_cons, List.filterMap_nil, Op.key, List.toFinset_cons, List.toFinset_nil]
        by_cases h : lastOf ops k = none
        · rw [if_pos h]
          have := (lastOf_none ops k).1 h
          rw [Finset.card_union_of_disjoint]
          · rfl
          · simpa using this
        · rw [if_neg h]
          have : k ∈ ops.filterMap Op.key := by
            by_contra hc
            exact h ((lastOf_none ops k).2 hc)
          rw [Finset.union_eq_left.2]
          · rfl
          · intro x hx
            simp only [insert_empty_eq, Finset.mem_singleton] at hx
            rw [hx]
            exact List.mem_toFinset.2 this
    | reserve n =>
      obtain ⟨t2, e2, I2, u2⟩ := reserve_spec G V h1 h100 (by have := hoo.2; omega) I1 (by omega) hoo.1
      refine ⟨t2, ?_, ?_, ?_⟩
      · show (t1.reserve P false n).bind (run P · []) = some t2
        rw [e2]
        rfl
      · exact I2.congr (fun x _ => lastOf_reserve ops n x)
      · rw [u2, u1]
        unfold keyCount
        have : List.filterMap Op.key [Op.reserve n] = [] := rfl
        rw [List.filterMap_append, this, List.append_nil]

/-- C44: after any history of `set` and `reserve`, with growth whenever the table fills up, `get` reports a key exactly if it was set, with the last value,
and `size()` is the number of distinct keys. For any hash that is a bijection of the keys with inverse `ihash`. -/
theorem C44_map (P : Par) (kb vw b : Nat) (ops : List Op)
    (hash : ∀ x, x < 2 ^ kb → ∃ y, y < 2 ^ kb ∧ P.hash kb x = some y ∧ P.ihash kb y = some x)
    (ihash : ∀ y, y < 2 ^ kb → ∃ x, x < 2 ^ kb ∧ P.ihash kb y = some x ∧ P.hash kb x = some y)
    (h1 : 1 ≤ P.load) (h99 : P.load ≤ 99) (hroom : 100 ≤ 2 ^ b * P.load) (hb : b < 57) (hkb : kb ≤ 59 + b)
    (hv1 : 1 ≤ vw) (hv63 : vw ≤ 63) (hv : P.vbits = vw ∨ P.vbits = 0) (hlen : ops.length ≤ 2 ^ 55)
    (hset : ∀ k v, Op.set k v ∈ ops → k < 2 ^ kb ∧ v < 2 ^ vw) (hres : ∀ n, Op.reserve n ∈ ops → n ≤ 2 ^ 56 ∧ kb ≤ 60) :
    ∃ t t', start P kb (2 ^ b) vw = some t ∧ run P t ops = some t' ∧ t'.size = keyCount ops ∧
      (∀ k v, k < 2 ^ kb → lastOf ops k = some v → t'.get P k = some (true, v)) ∧
      (∀ k, k < 2 ^ kb → lastOf ops k = none → t'.get P k = some (false, 0)) := by
  have G : Good P kb := ⟨hash, ihash⟩
  have V : Width P vw := ⟨hv1, hv63, hv⟩
  obtain ⟨t, e, I, hu⟩ := start_spec V (b := b) (by omega) hkb hroom (fits_of hb h99)
  obtain ⟨t', e', I', hu'⟩ := run_spec G V h1 (by omega) I hu ops hlen (by
    intro o ho
    cases o with
    | set k v => exact hset k v ho
    | reserve n => exact ⟨(hres n ho).1, (hres n ho).2, h99⟩)
  obtain ⟨s, home, A⟩ := I'.has
  refine ⟨t, t', e, e', by rw [I'.size, hu'], ?_, ?_⟩
  · intro k v hk hl
    rw [get_spec G I'.wt A hk, hl]
    rfl
  · intro k hk hl
    rw [get_spec G I'.wt A hk, hl]
    rfl

example := C44_map (defaultPar 5) 8 5 3 [.set 1 7, .set 200 9, .set 1 10, .reserve 20, .set 255 31]
  (fun x hx => by obtain ⟨y, h1, h2, h3⟩ := Hash.C43_ihash_hash 8 x (by omega) hx; exact ⟨y, h2, h1, h3⟩)
  (fun y hy => by obtain ⟨x, h1, h2, h3⟩ := Hash.C43_hash_ihash 8 y (by omega) hy; exact ⟨x, h2, h1, h3⟩)
  (by decide) (by decide) (by decide) (by decide) (by decide) (by decide) (by decide) (.inl rfl) (by decide) (by intro k v h; simp at h; omega) (by intro n h; simp at h; omega)

/-- C44: with the default template arguments (load 50, SplitMix) and the default number of 8 buckets. -/
theorem C44_default (kb vw : Nat) (ops : List Op) (hkb : kb ≤ 62) (hv1 : 1 ≤ vw) (hv63 : vw ≤ 63) (hlen : ops.length ≤ 2 ^ 55)
    (hset : ∀ k v, Op.set k v ∈ ops → k < 2 ^ kb ∧ v < 2 ^ vw) (hres : ∀ n, Op.reserve n ∈ ops → n ≤ 2 ^ 56 ∧ kb ≤ 60) :
    ∃ t t', start (defaultPar vw) kb 8 vw = some t ∧ run (defaultPar vw) t ops = some t' ∧ t'.size = keyCount ops ∧
      (∀ k v, k < 2 ^ kb → lastOf ops k = some v → t'.get (defaultPar vw) k = some (true, v)) ∧
      (∀ k, k < 2 ^ kb → lastOf ops k = none → t'.get (defaultPar vw) k = some (false, 0)) := by
  refine C44_map (defaultPar vw) kb vw 3 ops ?_ ?_ (show 1 ≤ 50 by decide) (show 50 ≤ 99 by decide) (show 100 ≤ 2 ^ 3 * 50 by decide) (by omega) (by omega) hv1 hv63 (.inl rfl) hlen hset hres
  · intro x hx
    obtain ⟨y, h1, h2, h3⟩ := Hash.C43_ihash_hash kb x (by omega) hx
    exact ⟨y, h2, h1, h3⟩
  · intro y hy
    obtain ⟨x, h1, h2, h3⟩ := Hash.C43_hash_ihash kb y (by omega) hy
    exact ⟨x, h2, h1, h3⟩

/-- A non-trivial history for `C44_default`: more keys than the first table holds, an overwritten key and a call of `reserve`. -/
example : ∃ t t', start (defaultPar 5) 8 8 5 = some t ∧
    run (defaultPar 5) t [.set 1 7, .set 2 8, .set 200 9, .set 1 10, .set 9 11, .set 77 12, .reserve 3, .reserve 20, .set 255 31] = some t' ∧
    t'.size = 6 ∧ t'.get (defaultPar 5) 1 = some (true, 10) ∧ t'.get (defaultPar 5) 3 = some (false, 0) := by
  obtain ⟨t, t', h1, h2, h3, h4, h5⟩ := C44_default 8 5
    [.set 1 7, .set 2 8, .set 200 9, .set 1 10, .set 9 11, .set 77 12, .reserve 3, .reserve 20, .set 255 31] (by decide) (by decide) (by decide) (by decide)
    (by
      intro k v h
      simp at h
      omega)
    (by
      intro n h
      simp at h
      omega)
  exact ⟨t, t', h1, h2, h3.trans (by decide), h4 1 10 (by decide) rfl, h5 3 (by decide) rfl⟩

/-- C44: the default construction of the member `arr_` shifts by 64, so in the strict reading no table can be constructed (the value is overwritten at once). -/
theorem C44_strict_ub (P : Par) (kb bucket : Nat) : new P true kb bucket = none := by
  have : Fit.new 64 = none := by decide
  simp [new, this]

/-- C44: a table too small for its load, here one bucket, is overfull after the first `set` and never grows: the second `set` does not return. -/
theorem C44_small_domain : ∃ t t', start (defaultPar 5) 8 1 5 = some t ∧ t.set (defaultPar 5) false 1 1 = some t' ∧ t'.set (defaultPar 5) false 2 1 = none := by
  have h : ((start (defaultPar 5) 8 1 5).bind (fun t => (t.set (defaultPar 5) false 1 1).map (fun t' => (t'.set (defaultPar 5) false 2 1).isNone))) = some true := by
    decide +kernel
  obtain ⟨t, e1, h⟩ := Option.bind_eq_some_iff.1 h
  obtain ⟨t', e2, h⟩ := Option.map_eq_some_iff.1 h
  exact ⟨t, t', e1, e2, by simpa using h⟩

end Verif.CHT
