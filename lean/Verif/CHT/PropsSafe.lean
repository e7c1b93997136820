/-
Property theorems C87 and C45: histories with any number of erasures.
-/
import Verif.CHT.Safe

namespace Verif.CHT
open Verif.Bits

/-- The calls of a user. -/
inductive Call where
  | set (k v : Nat)
  | erase (k : Nat)
  | reserve (n : Nat)
deriving DecidableEq

def Call.gives (k : Nat) : Call → Option Nat
  | .set k' v => if k' = k then some v else none
  | _ => none

/-- The value of the last `set` of `k`. -/
def lastSet (cs : List Call) (k : Nat) : Option Nat := cs.reverse.findSome? (Call.gives k)

/-- A call that counts as not returning if more than `d` calls of `set` are inside each other. -/
def call (P : Par) (d : Nat) (t : Tab) : Call → Option Tab
  | .set k v => setD P false d t k v
  | .erase k => t.eraseD P false d k
  | .reserve n => t.reserveWith P false (setD P false d) n

def calls (P : Par) (d : Nat) (t : Tab) (cs : List Call) : Option Tab := cs.foldlM (call P d) t

variable {P : Par} {kb vw : Nat} {t : Tab} {M : Nat → Option Nat}

theorem start_safe (V : Width P vw) {b : Nat} (hb : b < 64) {t : Tab} (e : start P kb (2 ^ b) vw = some t) : Safe P kb vw t (fun _ => none) := by
  unfold start at e
  split at e
  · obtain ⟨t0, e1, e2⟩ := Option.bind_eq_some_iff.1 e
    exact width_safe V hb e1 (Option.join_eq_some_iff.1 e2)
  · rename_i hv
    exact new_safe' V (V.arg.resolve_right hv) hb e

theorem lastSet_append (cs : List Call) (c : Call) (x : Nat) : lastSet (cs ++ [c]) x = (Call.gives x c).or (lastSet cs x) := by
  unfold lastSet
  rw [List.reverse_append]
  simp only [List.reverse_cons, List.reverse_nil, List.nil_append, List.singleton_append, List.findSome?_cons]
  cases Call.gives x c <;> rfl

theorem calls_safe (G : Good P kb) (V : Width P vw) (S : Safe P kb vw t (fun _ => none)) (d : Nat) (cs : List Call) :
    (∀ k v, Call.set k v ∈ cs → k < 2 ^ kb ∧ v < 2 ^ vw) → (∀ k, Call.erase k ∈ cs → k < 2 ^ kb) → ∀ t', calls P d t cs = some t' → PartS P kb vw (lastSet cs) t' := by
  induction cs using List.reverseRecOn with
  | nil =>
    intro _ _ t' e
    rw [← Option.some.inj e]
    exact ⟨_, S, fun _ _ _ h => by simp at h⟩
  | append_singleton cs c ih =>
    intro h1 h2 t' e
    unfold calls at e
    rw [List.foldlM_append] at e
    obtain ⟨t1, e1, e⟩ := Option.bind_eq_some_iff.1 e
    obtain ⟨M1, S1, hsub⟩ := ih (fun k v h => h1 k v (by simp [h])) (fun k h => h2 k (by simp [h])) t1 e1
    simp only [List.foldlM_cons, List.foldlM_nil, bind_pure] at e
    cases c with
    | set k v =>
      obtain ⟨hk, hv⟩ := h1 k v (by simp)
      obtain ⟨M2, S2, hs2, _⟩ := setD_safe G V false d t1 M1 k v t' S1 hk hv e
      refine ⟨M2, S2, fun x hx u hu => ?_⟩
      have := (hsub.upd k v) x hx u (hs2 x hx u hu)
      rw [lastSet_append]
      unfold upd at this
      split at this
      · rename_i hxk
        rw [Call.gives, if_pos hxk.symm]
        exact this
      · rename_i hxk
        rw [Call.gives, if_neg (fun h => hxk h.symm)]
        exact this
    | erase k =>
      obtain ⟨M2, S2, hs2⟩ := erase_safe G V S1 (h2 k (by simp)) e
      refine ⟨M2, S2, fun x hx u hu => ?_⟩
      rw [lastSet_append]
      exact hsub x hx u (hs2 x hx u hu)
    | reserve n =>
      obtain ⟨M2, S2, hs2⟩ := reserveWith_safe G V S1 (setD_safe G V false d) e
      refine ⟨M2, S2, fun x hx u hu => ?_⟩
      rw [lastSet_append]
      exact hsub x hx u (hs2 x hx u hu)

/-- C87: after any history of `set`, `erase` and `reserve` that returns, `get` of any key returns, and if it reports a value then this is the last value the key was
set to; so a key that was never set is never reported. However deep the calls of `set` are nested (`d`). What may go wrong is only that a key is missing (or is still there after it was erased). -/
theorem C87_safe (P : Par) (kb vw b d : Nat) (cs : List Call)
    (hash : ∀ x, x < 2 ^ kb → ∃ y, y < 2 ^ kb ∧ P.hash kb x = some y ∧ P.ihash kb y = some x)
    (ihash : ∀ y, y < 2 ^ kb → ∃ x, x < 2 ^ kb ∧ P.ihash kb y = some x ∧ P.hash kb x = some y)
    (hb : b < 64) (hv1 : 1 ≤ vw) (hv63 : vw ≤ 63) (hv : P.vbits = vw ∨ P.vbits = 0)
    (hset : ∀ k v, Call.set k v ∈ cs → k < 2 ^ kb ∧ v < 2 ^ vw) (her : ∀ k, Call.erase k ∈ cs → k < 2 ^ kb)
    (t t' : Tab) (e : start P kb (2 ^ b) vw = some t) (e' : calls P d t cs = some t') (k : Nat) (hk : k < 2 ^ kb) :
    t'.get P k = some (false, 0) ∨ ∃ v, lastSet cs k = some v ∧ t'.get P k = some (true, v) := by
  have G : Good P kb := ⟨hash, ihash⟩
  have V : Width P vw := ⟨hv1, hv63, hv⟩
  obtain ⟨M, ⟨w, s, home, A⟩, hsub⟩ := calls_safe G V (start_safe V hb e) d cs hset her t' e'
  rw [get_spec G w A hk]
  cases h : M k with
  | none => exact .inl rfl
  | some v => exact .inr ⟨v, hsub k hk v h, rfl⟩

/-- C87: and right after a `set` that returns, whatever was called before, `get` reports the key with the new value. -/
theorem C87_set_get (P : Par) (kb vw b d : Nat) (cs : List Call)
    (hash : ∀ x, x < 2 ^ kb → ∃ y, y < 2 ^ kb ∧ P.hash kb x = some y ∧ P.ihash kb y = some x)
    (ihash : ∀ y, y < 2 ^ kb → ∃ x, x < 2 ^ kb ∧ P.ihash kb y = some x ∧ P.hash kb x = some y)
    (hb : b < 64) (hv1 : 1 ≤ vw) (hv63 : vw ≤ 63) (hv : P.vbits = vw ∨ P.vbits = 0)
    (hset : ∀ k v, Call.set k v ∈ cs → k < 2 ^ kb ∧ v < 2 ^ vw) (her : ∀ k, Call.erase k ∈ cs → k < 2 ^ kb)
    (t t' t'' : Tab) (e : start P kb (2 ^ b) vw = some t) (e' : calls P d t cs = some t') (k v : Nat) (hk : k < 2 ^ kb) (hkv : v < 2 ^ vw)
    (e'' : setD P false d t' k v = some t'') : t''.get P k = some (true, v) := by
  have G : Good P kb := ⟨hash, ihash⟩
  have V : Width P vw := ⟨hv1, hv63, hv⟩
  obtain ⟨M, S, _⟩ := calls_safe G V (start_safe V hb e) d cs hset her t' e'
  obtain ⟨M2, ⟨w, s, home, A⟩, _, h⟩ := setD_safe G V false d t' M k v t'' S hk hkv e''
  rw [get_spec G w A hk, h]
  rfl

/-- C45: a table whose slots are all used never takes a new key: the search for an empty slot goes round forever, however long it runs. -/
theorem C45_full_domain (P : Par) (kb vw b d : Nat) (cs : List Call)
    (hash : ∀ x, x < 2 ^ kb → ∃ y, y < 2 ^ kb ∧ P.hash kb x = some y ∧ P.ihash kb y = some x)
    (ihash : ∀ y, y < 2 ^ kb → ∃ x, x < 2 ^ kb ∧ P.ihash kb y = some x ∧ P.hash kb x = some y)
    (hb : b < 64) (hv1 : 1 ≤ vw) (hv63 : vw ≤ 63) (hv : P.vbits = vw ∨ P.vbits = 0)
    (hset : ∀ k v, Call.set k v ∈ cs → k < 2 ^ kb ∧ v < 2 ^ vw) (her : ∀ k, Call.erase k ∈ cs → k < 2 ^ kb)
    (t t' : Tab) (e : start P kb (2 ^ b) vw = some t) (e' : calls P d t cs = some t') (hfull : t'.used = t'.bucket) :
    ∀ n j, j < t'.bucket → t'.nextNull n j = none := by
  have G : Good P kb := ⟨hash, ihash⟩
  have V : Width P vw := ⟨hv1, hv63, hv⟩
  obtain ⟨M, ⟨w, s, home, A⟩, _⟩ := calls_safe G V (start_safe V hb e) d cs hset her t' e'
  intro n j hj
  refine nextNull_full (s := s) w ?_ n j hj
  intro p hp
  by_contra hn
  have h1 := A.count
  have h2 := filled_le (view kb t' s) p
  have h3 := filled_add (f := view kb t' s) (p + 1) (t'.bucket - (p + 1))
  have h4 := filled_le (fun q => view kb t' s (q + (p + 1))) (t'.bucket - (p + 1))
  rw [Nat.sub_add_cancel (by omega), filled, if_neg hn] at h3
  omega

/-- A history of ten calls that fills a new table of 8 slots, the default. The slot marked by each `erase(23)` is overwritten by the next `set`, so `size_` stays behind
the number of elements; the growth at the first `set` behind them gives 8 slots again, and from then on `used_` is above `max_size_` and never equal to it. -/
def filler : List Call := [.set 17 1, .set 23 2, .erase 23, .set 41 3, .erase 23, .set 22 4, .set 0 5, .set 1 6, .set 2 7, .set 3 8]

/-- C45: with the default hash, load and number of slots, `set` may never return: the history `filler` returns and leaves a table with all slots used, and then `set(4, 1)` does not return. -/
theorem C45_never_ends : ∃ t t', start (defaultPar 5) 6 8 5 = some t ∧ calls (defaultPar 5) 3 t filler = some t' ∧ t'.used = t'.bucket ∧ t'.filled = false ∧
    ∀ d, setD (defaultPar 5) false d t' 4 1 = none := by
  have h : ((start (defaultPar 5) 6 8 5).bind (fun t => (calls (defaultPar 5) 3 t filler).map (fun t' =>
      (t'.used, t'.bucket, t'.filled, (t'.put (defaultPar 5) 4 1).isNone)))) = some (8, 8, false, true) := by decide +kernel
  obtain ⟨t, e1, h⟩ := Option.bind_eq_some_iff.1 h
  obtain ⟨t', e2, h⟩ := Option.map_eq_some_iff.1 h
  simp only [Prod.mk.injEq, Option.isNone_iff_eq_none] at h
  refine ⟨t, t', e1, e2, by rw [h.1, h.2.1], h.2.2.1, ?_⟩
  intro d
  cases d with
  | zero => rfl
  | succ d =>
    simp only [setD, h.2.2.1, Bool.false_eq_true, if_false, Option.pure_def, Option.bind_eq_bind, Option.bind_some]
    exact h.2.2.2

/-- The history `filler` meets the hypotheses of `C87_safe`, `C87_set_get` and `C45_full_domain`. -/
example : ∃ t t', start (defaultPar 5) 6 8 5 = some t ∧ calls (defaultPar 5) 3 t filler = some t' ∧ t'.get (defaultPar 5) 17 = some (true, 1) ∧
    (∀ k, k < 64 → t'.get (defaultPar 5) k = some (false, 0) ∨ ∃ v, lastSet filler k = some v ∧ t'.get (defaultPar 5) k = some (true, v)) ∧
    ∀ n j, j < t'.bucket → t'.nextNull n j = none := by
  obtain ⟨t, t', e1, e2, e3, _, _⟩ := C45_never_ends
  have H1 : ∀ x, x < 2 ^ 6 → ∃ y, y < 2 ^ 6 ∧ (defaultPar 5).hash 6 x = some y ∧ (defaultPar 5).ihash 6 y = some x := fun x hx => by
    obtain ⟨y, h1, h2, h3⟩ := Hash.C43_ihash_hash 6 x (by omega) hx; exact ⟨y, h2, h1, h3⟩
  have H2 : ∀ y, y < 2 ^ 6 → ∃ x, x < 2 ^ 6 ∧ (defaultPar 5).ihash 6 y = some x ∧ (defaultPar 5).hash 6 x = some y := fun y hy => by
    obtain ⟨x, h1, h2, h3⟩ := Hash.C43_hash_ihash 6 y (by omega) hy; exact ⟨x, h2, h1, h3⟩
  have H3 : ∀ k v, Call.set k v ∈ filler → k < 2 ^ 6 ∧ v < 2 ^ 5 := by
    intro k v h
    simp [filler] at h
    omega
  have H4 : ∀ k, Call.erase k ∈ filler → k < 2 ^ 6 := by
    intro k h
    simp [filler] at h
    omega
  have hg : ((start (defaultPar 5) 6 8 5).bind (fun t => (calls (defaultPar 5) 3 t filler).bind (fun t' => t'.get (defaultPar 5) 17))) = some (true, 1) := by decide +kernel
  rw [e1, Option.bind_some, e2, Option.bind_some] at hg
  exact ⟨t, t', e1, e2, hg, fun k hk => C87_safe (defaultPar 5) 6 5 3 3 filler H1 H2 (by decide) (by decide) (by decide) (.inl rfl) H3 H4 t t' e1 e2 k hk,
    C45_full_domain (defaultPar 5) 6 5 3 3 filler H1 H2 (by decide) (by decide) (by decide) (.inl rfl) H3 H4 t t' e1 e2 e3⟩

example : ∃ t t' t'', start (defaultPar 5) 6 8 5 = some t ∧ calls (defaultPar 5) 3 t [.set 3 1, .erase 22, .reserve 10] = some t' ∧ t'.set (defaultPar 5) false 3 9 = some t'' ∧
    t''.get (defaultPar 5) 3 = some (true, 9) := by
  have h : ((start (defaultPar 5) 6 8 5).bind (fun t => (calls (defaultPar 5) 3 t [.set 3 1, .erase 22, .reserve 10]).bind (fun t' =>
      (t'.set (defaultPar 5) false 3 9)))).isSome = true := by decide +kernel
  obtain ⟨t'', h⟩ := Option.isSome_iff_exists.1 h
  obtain ⟨t, e1, h⟩ := Option.bind_eq_some_iff.1 h
  obtain ⟨t', e2, e3⟩ := Option.bind_eq_some_iff.1 h
  exact ⟨t, t', t'', e1, e2, e3, C87_set_get (defaultPar 5) 6 5 3 3 [.set 3 1, .erase 22, .reserve 10]
    (fun x hx => by obtain ⟨y, h1, h2, h3⟩ := Hash.C43_ihash_hash 6 x (by omega) hx; exact ⟨y, h2, h1, h3⟩)
    (fun y hy => by obtain ⟨x, h1, h2, h3⟩ := Hash.C43_hash_ihash 6 y (by omega) hy; exact ⟨x, h2, h1, h3⟩)
    (by decide) (by decide) (by decide) (.inl rfl) (by intro k v h; simp at h; omega) (by intro k h; simp at h; omega) t t' t'' e1 e2 3 9 (by decide) (by decide) e3⟩

end Verif.CHT
