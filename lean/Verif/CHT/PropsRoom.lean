/-
Property theorems C92 and C93: how many slots a CHT has.
-/
import Verif.CHT.Room
import Verif.CHT.Props

namespace Verif.CHT
open Verif.Bits

/-- `B` is the least power of two with `99 * n < B * load`. -/
def Least (load n B : Nat) : Prop := ∃ b, B = 2 ^ b ∧ 99 * n < B * load ∧ ∀ c, 99 * n < 2 ^ c * load → b ≤ c

/-- What C44 asks of a table and a history: a hash that is a bijection of the keys, a load, a number of slots and widths in range, calls in range. -/
structure Fine (P : Par) (kb vw b : Nat) (ops : List Op) : Prop where
  hash : ∀ x, x < 2 ^ kb → ∃ y, y < 2 ^ kb ∧ P.hash kb x = some y ∧ P.ihash kb y = some x
  ihash : ∀ y, y < 2 ^ kb → ∃ x, x < 2 ^ kb ∧ P.ihash kb y = some x ∧ P.hash kb x = some y
  load1 : 1 ≤ P.load
  load99 : P.load ≤ 99
  room : 100 ≤ 2 ^ b * P.load
  bits : b < 57
  keys : kb ≤ 60
  vw1 : 1 ≤ vw
  vw63 : vw ≤ 63
  vbits : P.vbits = vw ∨ P.vbits = 0
  len : ops.length ≤ 2 ^ 54
  set : ∀ k v, Op.set k v ∈ ops → k < 2 ^ kb ∧ v < 2 ^ vw
  reserve : ∀ n, Op.reserve n ∈ ops → n ≤ 2 ^ 56

variable {P : Par} {kb vw b : Nat} {ops : List Op} {t t' : Tab} {M : Nat → Option Nat}

theorem Fine.good (F : Fine P kb vw b ops) : Good P kb := ⟨F.hash, F.ihash⟩

theorem Fine.width (F : Fine P kb vw b ops) : Width P vw := ⟨F.vw1, F.vw63, F.vbits⟩

theorem start_bucket (h : start P kb (2 ^ b) vw = some t) : t.bucket = 2 ^ b := by
  have key : ∀ {x}, new P false kb (2 ^ b) = some x → x.bucket = 2 ^ b := by
    intro x hx
    unfold new at hx
    obtain ⟨_, _, hx⟩ := Option.bind_eq_some_iff.1 hx
    obtain ⟨_, _, hx⟩ := Option.bind_eq_some_iff.1 hx
    cases hx
    rfl
  unfold start at h
  split at h
  · obtain ⟨t0, e0, e1⟩ := Option.bind_eq_some_iff.1 h
    have := key e0
    unfold Tab.setValueWidth at e1
    split at e1
    · simp at e1
    · simp only [Option.bind_eq_bind, Option.pure_def, Option.join_eq_some_iff, Option.bind_eq_some_iff, Option.some.injEq] at e1
      obtain ⟨_, _, rfl⟩ := e1
      exact this
  · exact key h

theorem Fine.run (F : Fine P kb vw b ops) : ∃ t t', start P kb (2 ^ b) vw = some t ∧ run P t ops = some t' ∧ Inv P kb vw t' (lastOf ops) ∧ t'.used = keyCount ops ∧
    t'.size = keyCount ops ∧ t'.used ≤ 2 ^ 54 := by
  have hkb : kb ≤ 59 + b := by
    have h1 := F.keys
    have h2 := F.room
    have h3 := F.load99
    have : b ≠ 0 := by rintro rfl; omega
    omega
  obtain ⟨t, e, I, hu⟩ := start_spec F.width (b := b) (by have := F.bits; omega) hkb F.room (fits_of F.bits F.load99)
  have hlen := F.len
  obtain ⟨t', e', I', hu'⟩ := run_spec F.good F.width F.load1 (by have := F.load99; omega) I hu ops (by omega) (by
    intro o ho
    cases o with
    | set k v => exact F.set k v ho
    | reserve n => exact ⟨F.reserve n ho, F.keys, F.load99⟩)
  have := keyCount_le ops
  exact ⟨t, t', e, e', I', hu', by rw [I'.size, hu'], by omega⟩

/-- C92: after any history of `set` and `reserve`, a `set` doubles the number of slots if `size()` is the load of them, and leaves it alone otherwise. -/
theorem C92_set (F : Fine P kb vw b ops) (k v : Nat) (hk : k < 2 ^ kb) (hv : v < 2 ^ vw) :
    ∃ t t' t'', start P kb (2 ^ b) vw = some t ∧ run P t ops = some t' ∧ t'.set P false k v = some t'' ∧
      t''.bucket = if keyCount ops = t'.bucket * P.load / 100 then 2 * t'.bucket else t'.bucket := by
  obtain ⟨t, t', e, e', I, _, hs, hb⟩ := F.run
  obtain ⟨t'', e'', _, _, hB⟩ := setD_bucket F.good F.width F.load1 F.load99 I (by omega) hk hv 1
  rw [hs] at hB
  exact ⟨t, t', t'', e, e', e'', hB⟩

theorem least_newBits {load n : Nat} (h1 : 1 ≤ load) (h99 : load ≤ 99) (hn1 : 1 ≤ n) (hn : n ≤ 2 ^ 56) : Least load n (2 ^ newBits load n) :=
  ⟨_, rfl, (newBits_spec h1 (by omega) hn1 hn).2.2.1, (newBits_least h1 h99 hn1 hn).2⟩

/-- C92: after any history of `set` and `reserve`, `reserve(n)` with `n` at most `size()` does nothing; otherwise the number of slots, whatever it was, becomes
the least power of two whose load exceeds 99 percent of `n`, or twice of it if the elements present are more than that load. -/
theorem C92_reserve (F : Fine P kb vw b ops) (n : Nat) (hn : n ≤ 2 ^ 56) :
    ∃ t t' t'', start P kb (2 ^ b) vw = some t ∧ run P t ops = some t' ∧ t'.reserve P false n = some t'' ∧
      (n ≤ keyCount ops → t'' = t') ∧
      (keyCount ops < n → ∃ B, Least P.load n B ∧ t''.bucket = if B * P.load / 100 < keyCount ops then 2 * B else B) := by
  obtain ⟨t, t', e, e', I, _, hs, hb⟩ := F.run
  by_cases h : keyCount ops < n
  · obtain ⟨t'', e'', _, _, hB⟩ := reserve_bucket F.good F.width F.load1 F.load99 F.keys I (by omega) hn (by omega)
    rw [hs] at hB
    exact ⟨t, t', t'', e, e', e'', fun h' => absurd h (by omega), fun _ => ⟨_, least_newBits F.load1 F.load99 (by omega) hn, hB⟩⟩
  · refine ⟨t, t', t', e, e', ?_, fun _ => rfl, fun h' => absurd h' h⟩
    rw [Tab.reserve, Tab.reserveWith, if_pos (by omega)]

/-- The largest number asked for by `reserve`. -/
def maxReserve : List Op → Nat
  | [] => 0
  | .set _ _ :: ops => maxReserve ops
  | .reserve n :: ops => max n (maxReserve ops)

theorem maxReserve_append (l l' : List Op) : maxReserve (l ++ l') = max (maxReserve l) (maxReserve l') := by
  induction l with
  | nil => simp [maxReserve]
  | cons o l ih =>
    cases o with
    | set k v => simpa [maxReserve] using ih
    | reserve n => simp only [List.cons_append, maxReserve, ih]; omega

theorem keyCount_mono (l l' : List Op) : keyCount l ≤ keyCount (l ++ l') := by
  unfold keyCount
  rw [List.filterMap_append, List.toFinset_append]
  exact Finset.card_le_card Finset.subset_union_left

theorem Fine.prefix {l l' : List Op} (F : Fine P kb vw b (l ++ l')) : Fine P kb vw b l :=
  { F with
    len := by have := F.len; rw [List.length_append] at this; omega
    set := fun k v h => F.set k v (List.mem_append_left _ h)
    reserve := fun n h => F.reserve n (List.mem_append_left _ h) }

theorem run_one {o : Op} (F : Fine P kb vw b (ops ++ [o])) : ∃ t t' t'', start P kb (2 ^ b) vw = some t ∧ CHT.run P t ops = some t' ∧ CHT.run P t (ops ++ [o]) = some t'' ∧
    ((∃ k v, o = .set k v ∧ t''.bucket = if keyCount ops = t'.bucket * P.load / 100 then 2 * t'.bucket else t'.bucket) ∨
      ∃ n, o = .reserve n ∧ (n ≤ keyCount ops → t'' = t') ∧
      (keyCount ops < n → ∃ B, Least P.load n B ∧ t''.bucket = if B * P.load / 100 < keyCount ops then 2 * B else B)) := by
  cases o with
  | set k v =>
    obtain ⟨hk, hv⟩ := F.set k v (by simp)
    obtain ⟨t, t', t'', e, e', e'', h⟩ := C92_set F.prefix k v hk hv
    exact ⟨t, t', t'', e, e', by rw [run_append, e']; simp [CHT.run, e''], .inl ⟨k, v, rfl, h⟩⟩
  | reserve n =>
    obtain ⟨t, t', t'', e, e', e'', h⟩ := C92_reserve F.prefix n (F.reserve n (by simp))
    exact ⟨t, t', t'', e, e', by rw [run_append, e']; simp [CHT.run, e''], .inr ⟨n, rfl, h⟩⟩

theorem least_le {load n B : Nat} (hl : load ≤ 99) (hn : 1 ≤ n) (h : Least load n B) : B * load ≤ 198 * n := by
  obtain ⟨b, rfl, _, h⟩ := h
  cases b with
  | zero => omega
  | succ b =>
    have : ¬ 99 * n < 2 ^ b * load := fun hc => by have := h b hc; omega
    rw [Nat.pow_succ, Nat.mul_comm (2 ^ b) 2, Nat.mul_assoc]
    omega

theorem space_aux (t : Tab) : ∀ ops : List Op, Fine P kb vw b ops → start P kb (2 ^ b) vw = some t → ∃ t', CHT.run P t ops = some t' ∧
    t'.bucket * P.load ≤ max (2 ^ b * P.load) (max (200 * (keyCount ops + 1)) (198 * maxReserve ops)) := by
  intro ops
  induction ops using List.reverseRecOn with
  | nil =>
    intro _ e
    exact ⟨t, rfl, by rw [start_bucket e]; exact Nat.le_max_left _ _⟩
  | append_singleton ops o ih =>
    intro F e
    obtain ⟨t1, t', t'', e1, e', e'', h⟩ := run_one F
    rw [e] at e1
    cases e1
    obtain ⟨t2, e2, h2⟩ := ih F.prefix e
    rw [e'] at e2
    cases e2
    have hm := keyCount_mono ops [o]
    refine ⟨t'', e'', ?_⟩
    rw [maxReserve_append]
    rcases h with ⟨k, v, rfl, h⟩ | ⟨n, rfl, ha, hb⟩
    · rw [h]
      split
      · rename_i hc
        rw [Nat.mul_assoc]
        omega
      · simp only [maxReserve]
        omega
    · rw [show maxReserve [.reserve n] = n from Nat.max_zero n]
      by_cases hn : n ≤ keyCount ops
      · rw [ha hn]
        clear ha hb
        omega
      · obtain ⟨B, hB, h⟩ := hb (by omega)
        have hle := least_le F.load99 (by omega) hB
        rw [h]
        clear h ha hb
        split
        · rw [Nat.mul_assoc]
          omega
        · omega

/-- C92: the space is linear: after any history the number of slots times the load is at most 200 times the number of keys and one, 198 times the largest
number reserved, or what it was at the start. -/
theorem C92_space (F : Fine P kb vw b ops) :
    ∃ t t', start P kb (2 ^ b) vw = some t ∧ CHT.run P t ops = some t' ∧
      t'.bucket * P.load ≤ max (2 ^ b * P.load) (max (200 * (keyCount ops + 1)) (198 * maxReserve ops)) := by
  obtain ⟨t, t', e, _⟩ := F.run
  obtain ⟨t', e', h⟩ := space_aux t ops F e
  exact ⟨t, t', e, e', h⟩

theorem keyCount_sets (ops ss : List Op) : keyCount (ops ++ ss) ≤ keyCount ops + ss.length := by
  unfold keyCount
  rw [List.filterMap_append, List.toFinset_append]
  refine Nat.le_trans (Finset.card_union_le _ _) ?_
  have := Nat.le_trans (List.toFinset_card_le (ss.filterMap Op.key)) (List.length_filterMap_le _ _)
  omega

/-- C92: as long as the load of the slots is not reached, calls of `set` do not change the number of slots. -/
theorem C92_room (ss : List Op) (hss : ∀ o ∈ ss, ∃ k v, o = Op.set k v) : ∀ (_ : Fine P kb vw b (ops ++ ss)) (t t' : Tab), start P kb (2 ^ b) vw = some t →
    CHT.run P t ops = some t' → keyCount ops + ss.length ≤ t'.bucket * P.load / 100 → ∃ t'', CHT.run P t (ops ++ ss) = some t'' ∧ t''.bucket = t'.bucket := by
  induction ss using List.reverseRecOn with
  | nil => intro _ t t' _ e' _; exact ⟨t', by rw [List.append_nil]; exact e', rfl⟩
  | append_singleton ss o ih =>
    intro F t t' e e' hl
    rw [← List.append_assoc] at F ⊢
    rw [List.length_append, List.length_singleton] at hl
    obtain ⟨t'', e'', hb⟩ := ih (fun o ho => hss o (List.mem_append_left _ ho)) F.prefix t t' e e' (by omega)
    obtain ⟨t1, t2, t3, e1, e2, e3, h⟩ := run_one F
    rw [e] at e1
    cases e1
    rw [e''] at e2
    cases e2
    refine ⟨t3, e3, ?_⟩
    obtain ⟨k, v, rfl⟩ := hss o (by simp)
    rcases h with ⟨_, _, _, h⟩ | ⟨n, hn, _⟩
    · have := keyCount_sets ops ss
      rw [h, hb, if_neg (by omega)]
    · cases hn

/-- C93: after `reserve(n)` the number of slots does not change until 99 of 100 of the `n` elements are there.
Missing to the full claim: the last of the 100, see `C93_room_refuted`. -/
theorem C93_room_partial (n : Nat) (ss : List Op) (hss : ∀ o ∈ ss, ∃ k v, o = Op.set k v) (F : Fine P kb vw b (ops ++ [.reserve n] ++ ss))
    (hl : keyCount ops + ss.length ≤ 99 * n / 100) :
    ∃ t t' t'', start P kb (2 ^ b) vw = some t ∧ CHT.run P t (ops ++ [.reserve n]) = some t' ∧ CHT.run P t (ops ++ [.reserve n] ++ ss) = some t'' ∧
      t''.bucket = t'.bucket := by
  obtain ⟨t, t1, t', e, e1, e', h⟩ := run_one F.prefix
  have hk : keyCount (ops ++ [.reserve n]) = keyCount ops := by
    unfold keyCount
    rw [List.filterMap_append]
    exact congrArg (fun l : List Nat => l.toFinset.card) (List.append_nil _)
  rcases h with ⟨_, _, h, _⟩ | ⟨m, h, ha, hb⟩
  · cases h
  · cases h
    by_cases hn : n ≤ keyCount ops
    · have : ss = [] := List.length_eq_zero_iff.1 (by omega)
      subst this
      exact ⟨t, t', t', e, e', by rw [List.append_nil]; exact e', rfl⟩
    · obtain ⟨B, ⟨c, rfl, hB, _⟩, h⟩ := hb (by omega)
      have hB2 : 99 * n < t'.bucket * P.load := by
        rw [h]
        split
        · rw [Nat.mul_assoc]; omega
        · exact hB
      obtain ⟨t'', e'', hb⟩ := C92_room ss hss F t t' e e' (by rw [hk]; omega)
      exact ⟨t, t', t'', e, e', e'', hb⟩

theorem fine_default (kb vw : Nat) (ops : List Op) (hkb : kb ≤ 60) (hv1 : 1 ≤ vw) (hv63 : vw ≤ 63) (hlen : ops.length ≤ 2 ^ 54)
    (hset : ∀ k v, Op.set k v ∈ ops → k < 2 ^ kb ∧ v < 2 ^ vw) (hres : ∀ n, Op.reserve n ∈ ops → n ≤ 2 ^ 56) : Fine (defaultPar vw) kb vw 3 ops where
  hash x hx := by
    obtain ⟨y, h1, h2, h3⟩ := Hash.C43_ihash_hash kb x (by omega) hx
    exact ⟨y, h2, h1, h3⟩
  ihash y hy := by
    obtain ⟨x, h1, h2, h3⟩ := Hash.C43_hash_ihash kb y (by omega) hy
    exact ⟨x, h2, h1, h3⟩
  load1 := show 1 ≤ 50 by decide
  load99 := show 50 ≤ 99 by decide
  room := show 100 ≤ 2 ^ 3 * 50 by decide
  bits := by omega
  keys := hkb
  vw1 := hv1
  vw63 := hv63
  vbits := .inl rfl
  len := hlen
  set := hset
  reserve := hres

/-- `reserve(129)` and the keys from 0 to 127. -/
def tight : List Op := [.reserve 129] ++ (List.range 128).map (fun k => .set k 7)

theorem tight_fine : Fine (defaultPar 5) 8 5 3 tight := by
  refine fine_default 8 5 tight (by decide) (by decide) (by decide) (by simp [tight]) ?_ ?_
  · intro k v h
    simp only [tight, List.cons_append, List.nil_append, List.mem_cons, reduceCtorEq, List.mem_map, List.mem_range, Op.set.injEq, false_or] at h
    obtain ⟨a, ha, rfl, rfl⟩ := h
    omega
  · intro n h
    simp only [tight, List.cons_append, List.nil_append, List.mem_cons, Op.reserve.injEq, List.mem_map, List.mem_range, reduceCtorEq, and_false, exists_false, or_false] at h
    omega

theorem least_unique {load n B B' : Nat} (h : Least load n B) (h' : Least load n B') : B = B' := by
  obtain ⟨b, rfl, h1, h2⟩ := h
  obtain ⟨b', rfl, h1', h2'⟩ := h'
  have := h2 b' h1'
  have := h2' b h1
  rw [show b = b' by omega]

theorem least_129 : Least 50 129 256 := ⟨8, by decide, by decide, fun c hc => by
  by_contra hlt
  have : 2 ^ c ≤ 2 ^ 7 := Nat.pow_le_pow_right (by decide) (by omega)
  omega⟩

/-- C93: with the default load of 50, `reserve(129)` does not make room for 129 elements: the table has 256 slots until 128 keys are set and grows to 512 for the next. -/
theorem C93_room_refuted : ∃ t t' t'' t''', start (defaultPar 5) 8 8 5 = some t ∧ CHT.run (defaultPar 5) t [.reserve 129] = some t' ∧ t'.bucket = 256 ∧
    CHT.run (defaultPar 5) t tight = some t'' ∧ t''.size = 128 ∧ t''.bucket = 256 ∧ t''.set (defaultPar 5) false 128 7 = some t''' ∧ t'''.bucket = 512 := by
  obtain ⟨t, t0, t', e, e0, e', h⟩ := run_one (ops := []) (o := .reserve 129) (P := defaultPar 5) (kb := 8) (vw := 5) (b := 3)
    (Fine.prefix (l' := (List.range 128).map (fun k => .set k 7)) tight_fine)
  have hb : t'.bucket = 256 := by
    rcases h with ⟨_, _, h, _⟩ | ⟨n, h, _, hb⟩
    · cases h
    · cases h
      obtain ⟨B, hB, hb⟩ := hb (by decide)
      rw [hb, ← least_unique least_129 hB]
      decide
  obtain ⟨t'', e'', hb''⟩ := C92_room (ops := [.reserve 129]) ((List.range 128).map (fun k => .set k 7)) (by
    intro o ho
    obtain ⟨k, _, rfl⟩ := List.mem_map.1 ho
    exact ⟨k, 7, rfl⟩) tight_fine t t' e e' (by rw [hb, List.length_map, List.length_range]; decide)
  obtain ⟨t1, t2, t3, e1, e2, e3, h3⟩ := C92_set tight_fine 128 7 (by decide) (by decide)
  obtain ⟨t4, t5, e4, e5, _, _, hs, _⟩ := tight_fine.run
  rw [e] at e1 e4
  cases e1
  cases e4
  rw [show ([Op.reserve 129] ++ (List.range 128).map (fun k => .set k 7)) = tight from rfl] at e''
  rw [e''] at e2 e5
  cases e2
  cases e5
  have hk : keyCount tight = 128 := by decide +kernel
  refine ⟨t, t', t'', t3, e, e', hb, e'', by rw [hs, hk], by rw [hb'', hb], e3, ?_⟩
  rw [h3, hk, hb'', hb]
  decide

/-- C93: `reserve` can make a table smaller: `reserve(1)` on a new table of 8 slots leaves 2. -/
theorem C93_shrinks : ∃ t t', start (defaultPar 5) 8 8 5 = some t ∧ t.bucket = 8 ∧ t.reserve (defaultPar 5) false 1 = some t' ∧ t'.bucket = 2 := by
  have F : Fine (defaultPar 5) 8 5 3 [] := fine_default 8 5 [] (by decide) (by decide) (by decide) (by decide) (by simp) (by simp)
  obtain ⟨t, t1, t', e, e1, e', _, h⟩ := C92_reserve F 1 (by decide)
  cases e1
  obtain ⟨B, hB, hb⟩ := h (by decide)
  refine ⟨t, t', e, start_bucket (b := 3) e, e', ?_⟩
  have h2 : Least 50 1 2 := ⟨1, by decide, by decide, fun c hc => by
    by_contra hlt
    rw [show c = 0 by omega] at hc
    omega⟩
  rw [hb, ← least_unique h2 hB]
  decide

/-- The history `tight` for `C92_set`, `C92_reserve`, `C92_space` and `C92_room`. -/
example : Fine (defaultPar 5) 8 5 3 tight ∧ keyCount tight = 128 ∧ maxReserve tight = 129 := ⟨tight_fine, by decide +kernel, by decide +kernel⟩

example := C92_space tight_fine
example := C92_set tight_fine
example := C92_reserve tight_fine 300 (by decide)
example := C92_room (ops := [.reserve 129]) ((List.range 128).map (fun k => .set k 7)) (by simp) tight_fine

/-- `reserve(129)` and then 127 keys for `C93_room_partial`. -/
example := C93_room_partial (P := defaultPar 5) (kb := 8) (vw := 5) (b := 3) (ops := []) 129 ((List.range 127).map (fun k => .set k 7))
  (by
    intro o ho
    obtain ⟨k, _, rfl⟩ := List.mem_map.1 ho
    exact ⟨k, 7, rfl⟩)
  (Fine.prefix (l' := [.set 127 7]) (by
    have h : [] ++ [Op.reserve 129] ++ (List.range 127).map (fun k => Op.set k 7) ++ [Op.set 127 7] = tight := rfl
    rw [h]
    exact tight_fine))
  (by decide +kernel)

end Verif.CHT
