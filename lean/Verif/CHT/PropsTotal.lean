/-
Property theorems C89: which calls return after any history.
-/
import Verif.CHT.Total

namespace Verif.CHT
open Verif.Bits

variable {P : Par} {kb vw m : Nat} {t : Tab} {M : Nat → Option Nat}

/-- A call whose key, value or number is in range. -/
def Call.ok (kb vw : Nat) : Call → Prop
  | .set k v => k < 2 ^ kb ∧ v < 2 ^ vw
  | .erase k => k < 2 ^ kb
  | .reserve n => n ≤ 2 ^ 56

theorem reserve_call_run (G : Good P kb) (V : Width P vw) (h1 : 1 ≤ P.load) (h99 : P.load ≤ 99) (hkb : kb ≤ 60) (R : Run P kb vw m t M) (hm : m ≤ 2 ^ 55)
    {n : Nat} (hn : n ≤ 2 ^ 56) (d : Nat) : ∃ t' M', t.reserveWith P false (setD P false (d + 2)) n = some t' ∧ Run P kb vw (m + 1) t' M' := by
  obtain ⟨t', e, h⟩ := reserve_run G V h1 h99 hkb R hm hn d
  rcases h with ⟨rfl, _⟩ | ⟨M', I, u⟩
  · exact ⟨t', M, e, R.mono (by omega)⟩
  · have hl := R.live
    have hu := R.used
    exact ⟨t', M', e, I.run (by omega)⟩

theorem Run.le (R : Run P kb vw m t M) : t.used ≤ t.bucket := by
  obtain ⟨s, home, A⟩ := R.has
  rw [A.count]
  exact filled_le _ _

theorem full_not_filled (h99 : P.load ≤ 99) (R : Run P kb vw m t M) (h : t.used = t.bucket) : t.filled = false := by
  have := load_lt h99 R.wt.pos R.maxSize
  unfold Tab.filled
  simp only [beq_eq_false_iff_ne, ne_eq]
  omega

theorem call_run (G : Good P kb) (V : Width P vw) (h1 : 1 ≤ P.load) (h99 : P.load ≤ 99) (hkb : kb ≤ 60) (R : Run P kb vw m t M) (hm : m ≤ 2 ^ 55)
    {c : Call} (hc : c.ok kb vw) (d : Nat) {t' : Tab} (e : call P (d + 3) t c = some t') : ∃ M', Run P kb vw (m + 1) t' M' := by
  cases c with
  | set k v =>
    obtain ⟨hk, hv⟩ := hc
    have hle := R.le
    by_cases hu : t.used < t.bucket
    · obtain ⟨t1, M1, e1, R1⟩ := set_run G V h1 h99 hkb R hm hu hk hv d
      rw [call, e1] at e
      rw [← Option.some.inj e]
      exact ⟨M1, R1⟩
    · have hf := full_not_filled h99 R (by omega)
      simp only [call, setD, hf, Bool.false_eq_true, if_false, Option.pure_def, Option.bind_eq_bind, Option.bind_some] at e
      obtain ⟨s, home, A⟩ := R.has
      cases hM : M k with
      | none =>
        rw [put_full G R.wt A (by omega) hk hM] at e
        simp at e
      | some u =>
        obtain ⟨t1, e1, w1, ⟨k1, k2, k3, k4⟩, u1, A1, gr⟩ := put_present G R.wt A hk hv (by rw [hM]; simp)
        rw [e1] at e
        rw [← Option.some.inj e]
        have hu' := R.used
        have h64 := R.size64
        refine ⟨_, w1, by rw [k3, k1]; exact R.maxSize, by rw [k1]; exact R.room, by omega, ?_, ?_, s, home, A1⟩
        · rcases gr with ⟨g1, g2, g3⟩ | ⟨g1, g2⟩ <;> rcases R.size with h | h <;> rw [g1]
          · left; omega
          · right; omega
          · left
            have := Nat.mod_le (t.size + 1) (2 ^ 64)
            omega
          · by_cases h' : t.size + 1 = 2 ^ 64
            · left
              rw [h', Nat.mod_self]
              exact Nat.zero_le _
            · right
              rw [Nat.mod_eq_of_lt (by omega)]
              omega
        · rcases gr with ⟨g1, _⟩ | ⟨g1, _⟩ <;> rw [g1]
          · exact h64
          · exact Nat.mod_lt _ (by decide)
  | erase k =>
    obtain ⟨t1, M1, e1, R1⟩ := erase_run G V h1 h99 hkb R hm (show k < 2 ^ kb from hc) (d + 1)
    rw [call, e1] at e
    rw [← Option.some.inj e]
    exact ⟨M1, R1⟩
  | reserve n =>
    obtain ⟨t1, M1, e1, R1⟩ := reserve_call_run G V h1 h99 hkb R hm (show n ≤ 2 ^ 56 from hc) (d + 1)
    rw [call, e1] at e
    rw [← Option.some.inj e]
    exact ⟨M1, R1⟩

theorem calls_run (G : Good P kb) (V : Width P vw) (h1 : 1 ≤ P.load) (h99 : P.load ≤ 99) (hkb : kb ≤ 60) (d : Nat) : ∀ (cs : List Call) (m : Nat) (t : Tab) (M : Nat → Option Nat) (t' : Tab),
    Run P kb vw m t M → m + cs.length ≤ 2 ^ 55 → (∀ c ∈ cs, c.ok kb vw) → calls P (d + 3) t cs = some t' → ∃ M', Run P kb vw (m + cs.length) t' M'
  | [], m, t, M, t', R, _, _, e => by
    rw [← Option.some.inj e]
    exact ⟨M, R⟩
  | c :: cs, m, t, M, t', R, hm, hc, e => by
    rw [List.length_cons] at hm ⊢
    obtain ⟨t1, e1, e⟩ := Option.bind_eq_some_iff.1 (show (call P (d + 3) t c).bind (fun t => calls P (d + 3) t cs) = some t' from e)
    obtain ⟨M1, R1⟩ := call_run G V h1 h99 hkb R (by omega) (hc c (by simp)) d e1
    obtain ⟨M2, R2⟩ := calls_run G V h1 h99 hkb d cs (m + 1) t1 M1 t' R1 (by omega) (fun c h => hc c (by simp [h])) e
    exact ⟨M2, R2.mono (by omega)⟩

/-- C89: which calls return, after any history of `set`, `erase` and `reserve`: `erase` and `reserve` always do, and `set(k, v)` does except if all slots are used and `get(k)` does
not report the key. The depth of nested calls of `set` is at most three. -/
theorem C89_returns (P : Par) (kb vw b d : Nat) (cs : List Call) (h1 : 1 ≤ P.load) (h99 : P.load ≤ 99) (hkb : kb ≤ 60)
    (hash : ∀ x, x < 2 ^ kb → ∃ y, y < 2 ^ kb ∧ P.hash kb x = some y ∧ P.ihash kb y = some x)
    (ihash : ∀ y, y < 2 ^ kb → ∃ x, x < 2 ^ kb ∧ P.ihash kb y = some x ∧ P.hash kb x = some y)
    (hb : b < 57) (hroom : 100 ≤ 2 ^ b * P.load) (hv1 : 1 ≤ vw) (hv63 : vw ≤ 63) (hv : P.vbits = vw ∨ P.vbits = 0)
    (hlen : cs.length ≤ 2 ^ 55) (hok : ∀ c ∈ cs, c.ok kb vw)
    (t t' : Tab) (e : start P kb (2 ^ b) vw = some t) (e' : calls P (d + 3) t cs = some t') (k v n : Nat) (hk : k < 2 ^ kb) (hkv : v < 2 ^ vw) (hn : n ≤ 2 ^ 56) :
    call P (d + 3) t' (.erase k) ≠ none ∧ call P (d + 3) t' (.reserve n) ≠ none ∧
      (call P (d + 3) t' (.set k v) = none ↔ t'.used = t'.bucket ∧ t'.get P k = some (false, 0)) := by
  have G : Good P kb := ⟨hash, ihash⟩
  have V : Width P vw := ⟨hv1, hv63, hv⟩
  have hb1 : 1 ≤ b := by
    rcases Nat.eq_zero_or_pos b with h | h
    · rw [h] at hroom
      omega
    · exact h
  obtain ⟨t0, e0, I0, u0⟩ := start_spec (kb := kb) V (show b < 64 by omega) (by omega) hroom (fits_of hb h99)
  rw [e] at e0
  have e0 := Option.some.inj e0
  subst e0
  obtain ⟨M, R⟩ := calls_run G V h1 h99 hkb d cs 0 t _ t' (I0.run (by omega)) (by omega) hok e'
  rw [Nat.zero_add] at R
  refine ⟨?_, ?_, ?_⟩
  · obtain ⟨t1, M1, e1, _⟩ := erase_run G V h1 h99 hkb R hlen hk (d + 1)
    rw [call, e1]
    simp
  · obtain ⟨t1, M1, e1, _⟩ := reserve_call_run G V h1 h99 hkb R hlen hn (d + 1)
    rw [call, e1]
    simp
  · have hle := R.le
    obtain ⟨s, home, A⟩ := R.has
    rw [get_spec G R.wt A hk]
    by_cases hu : t'.used < t'.bucket
    · obtain ⟨t1, M1, e1, _⟩ := set_run G V h1 h99 hkb R hlen hu hk hkv d
      rw [call, e1]
      simp only [reduceCtorEq, false_iff]
      rintro ⟨h, _⟩
      omega
    · have hf := full_not_filled h99 R (by omega)
      simp only [call, setD, hf, Bool.false_eq_true, if_false, Option.pure_def, Option.bind_eq_bind, Option.bind_some]
      cases hM : M k with
      | none =>
        rw [put_full G R.wt A (by omega) hk hM]
        simp only [true_iff]
        exact ⟨by omega, rfl⟩
      | some u =>
        obtain ⟨t1, e1, _⟩ := put_present (v := v) G R.wt A hk hkv (by rw [hM]; simp)
        rw [e1]
        simp

/-- The history `filler` meets the hypotheses of `C89_returns`. -/
example : ∃ t t', start (defaultPar 5) 6 8 5 = some t ∧ calls (defaultPar 5) 3 t filler = some t' ∧
    ∀ k v, k < 2 ^ 6 → v < 2 ^ 5 → (call (defaultPar 5) 3 t' (.set k v) = none ↔ t'.used = t'.bucket ∧ t'.get (defaultPar 5) k = some (false, 0)) := by
  obtain ⟨t, t', e1, e2, _⟩ := C45_never_ends
  refine ⟨t, t', e1, e2, fun k v hk hv => ?_⟩
  refine (C89_returns (defaultPar 5) 6 5 3 0 filler (by decide) (by decide) (by decide)
    (fun x hx => by obtain ⟨y, h1, h2, h3⟩ := Hash.C43_ihash_hash 6 x (by omega) hx; exact ⟨y, h2, h1, h3⟩)
    (fun y hy => by obtain ⟨x, h1, h2, h3⟩ := Hash.C43_hash_ihash 6 y (by omega) hy; exact ⟨x, h2, h1, h3⟩)
    (by decide) (by decide) (by decide) (by decide) (.inl rfl) (by decide) ?_ t t' e1 e2 k v 0 hk hv (by decide)).2.2
  intro c hc
  simp only [filler, List.mem_cons, List.not_mem_nil, or_false] at hc
  rcases hc with h | h | h | h | h | h | h | h | h | h <;> subst h <;> simp [Call.ok]

end Verif.CHT
