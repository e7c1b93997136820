/-
The state of a CDRWArray after any history of writes.
-/
import Verif.CDRW.Props
import Verif.CHT.PropsSafe

namespace Verif.CDRW
open Verif.Bits Verif.Fit Verif.CHT

variable {kb n : Nat} {a : Arr} {A : Nat → Nat}

/-- The widths are those of `A`, and the table of its width has for every element the value in `A` or none. -/
def SafeA (kb n : Nat) (a : Arr) (A : Nat → Nat) : Prop :=
  ∃ ws ts, a = ⟨n, some (ws, ts)⟩ ∧ WF ws 7 ∧ ws.size = n ∧ (∀ i, i < n → (elems ws 7)[i]? = some (Nat.size (A i))) ∧
    ∀ w, w < 63 → ∃ t M, ts[w]? = some t ∧ Safe par kb (w + 1) t M ∧ ∀ i, i < n → Nat.size (A i) = w + 1 → ∀ v, M i = some v → v = A i

theorem Ok.safe {m : Nat} (O : Ok kb n m a A) : SafeA kb n a A := by
  obtain ⟨ws, ts, e, w1, s1, hw, hts⟩ := O
  refine ⟨ws, ts, e, w1, s1, hw, fun w hlt => ?_⟩
  obtain ⟨t, M, e1, I, _, hM⟩ := hts w hlt
  refine ⟨t, M, e1, ⟨I.wt, I.has⟩, fun i hi hs v hv => ?_⟩
  rw [hM i hi hs] at hv
  exact (Option.some.inj hv).symm

theorem get_safe (hkb : kb ≤ 62) (hn : n ≤ 2 ^ kb) (S : SafeA kb n a A) {i : Nat} (hi : i < n) (hA : A i < 2 ^ 63) :
    a.get i = some 0 ∨ a.get i = some (A i) := by
  obtain ⟨ws, ts, rfl, w1, s1, hw, hts⟩ := S
  have hget : ws.get i = some (Nat.size (A i)) := by rw [Fit.get_spec ws 7 w1 i (by omega), hw i hi]
  unfold Arr.get
  simp only [Option.bind_eq_bind, Option.bind_some, hget]
  have hs : Nat.size (A i) ≤ 63 := Nat.size_le.2 hA
  by_cases h0 : Nat.size (A i) = 0
  · rw [if_pos h0]
    exact .inl rfl
  · rw [if_neg h0]
    obtain ⟨t, M, e, ⟨wt, s, home, At⟩, hM⟩ := hts (Nat.size (A i) - 1) (by omega)
    rw [e]
    simp only [Option.bind_some]
    rw [CHT.get_spec (par_good hkb) wt At (by omega)]
    cases h : M i with
    | none => exact .inl rfl
    | some v =>
      rw [hM i hi (by omega) v h]
      exact .inr rfl

theorem eraseOld_safe (hkb : kb ≤ 62) (hn : n ≤ 2 ^ kb) {ts ts' : List Tab} {pw vb i : Nat} (hi : i < n)
    (hts : ∀ w, w < 63 → ∃ t M, ts[w]? = some t ∧ Safe par kb (w + 1) t M ∧ ∀ i, i < n → Nat.size (A i) = w + 1 → ∀ v, M i = some v → v = A i)
    (e : eraseOld ts pw vb i = some ts') :
    ∀ w, w < 63 → ∃ t M, ts'[w]? = some t ∧ Safe par kb (w + 1) t M ∧ ∀ i, i < n → Nat.size (A i) = w + 1 → ∀ v, M i = some v → v = A i := by
  unfold eraseOld at e
  split at e
  · obtain ⟨t, e1, e⟩ := Option.bind_eq_some_iff.1 e
    obtain ⟨t', e2, e⟩ := Option.bind_eq_some_iff.1 e
    have e := Option.some.inj e
    subst e
    intro w hw
    rw [List.getElem?_set]
    by_cases h : pw = w
    · subst h
      obtain ⟨t1, M, e3, S, hM⟩ := hts pw hw
      rw [e1] at e3
      rw [← Option.some.inj e3] at S
      obtain ⟨M', S', hsub⟩ := erase_safe (par_good hkb) (par_width (by omega) (by omega)) S (by omega) e2
      have hlen := (List.getElem?_eq_some_iff.1 e1).1
      exact ⟨t', M', by rw [if_pos rfl, if_pos hlen], S', fun j hj hs v hv => hM j hj hs v (hsub j (by omega) v hv)⟩
    · rw [if_neg h]
      exact hts w hw
  · rw [← Option.some.inj e]
    exact hts

theorem set_safe (hkb : kb ≤ 62) (hn : n ≤ 2 ^ kb) (S : SafeA kb n a A) {i v : Nat} (hi : i < n) (hv : v < 2 ^ 63) {a' : Arr} (e : a.set i v = some a') :
    SafeA kb n a' (Function.update A i v) ∧ a'.get i = some v := by
  obtain ⟨ws, ts, rfl, w1, s1, hw, hts⟩ := S
  have hget : ws.get i = some (Nat.size (A i)) := by rw [Fit.get_spec ws 7 w1 i (by omega), hw i hi]
  have hs : Nat.size v ≤ 63 := Nat.size_le.2 hv
  obtain ⟨ws', e1, w1', s1', l1', _⟩ := Fit.set_spec ws 7 w1 i (Nat.size v) (by omega) (by omega)
  have hw' : ∀ j, j < n → (elems ws' 7)[j]? = some (Nat.size (Function.update A i v j)) := by
    intro j hj
    rw [l1', List.getElem?_set, elems_length, s1]
    by_cases h : i = j
    · subst h
      simp [hi]
    · rw [if_neg h, hw j hj, Function.update_of_ne (fun h' => h h'.symm)]
  have hget' : ws'.get i = some (Nat.size v) := by
    rw [Fit.get_spec ws' 7 w1' i (by omega), hw' i hi, Function.update_self]
  unfold Arr.set at e
  rw [bits_eq v (by omega)] at e
  simp only [Option.bind_eq_bind, Option.bind_some, hget] at e
  obtain ⟨ts1, e2, e⟩ := Option.bind_eq_some_iff.1 e
  rw [e1, Option.bind_some] at e
  obtain ⟨ts2, e3, e⟩ := Option.bind_eq_some_iff.1 e
  have e := Option.some.inj e
  subst e
  have hts1 := eraseOld_safe hkb hn hi hts e2
  unfold setNew at e3
  by_cases h0 : Nat.size v = 0
  · rw [if_neg (by omega)] at e3
    have e3 := Option.some.inj e3
    subst e3
    refine ⟨⟨ws', ts1, rfl, w1', s1'.trans s1, hw', fun w hlt => ?_⟩, ?_⟩
    · obtain ⟨t, M, e4, S, hM⟩ := hts1 w hlt
      refine ⟨t, M, e4, S, fun j hj hsj => ?_⟩
      by_cases h : j = i
      · subst h
        rw [Function.update_self, h0] at hsj
        omega
      · rw [Function.update_of_ne h] at hsj ⊢
        exact hM j hj hsj
    · simp only [Arr.get, Option.bind_eq_bind, Option.bind_some, hget', if_pos h0]
      rw [Nat.size_eq_zero.1 h0]
      rfl
  · rw [if_pos (by omega)] at e3
    obtain ⟨t, e4, e3⟩ := Option.bind_eq_some_iff.1 e3
    obtain ⟨t', e5, e3⟩ := Option.bind_eq_some_iff.1 e3
    have e3 := Option.some.inj e3
    subst e3
    obtain ⟨t1, M, e6, S, hM⟩ := hts1 (Nat.size v - 1) (by omega)
    rw [e4] at e6
    rw [← Option.some.inj e6] at S
    rw [show Nat.size v - 1 + 1 = Nat.size v by omega] at S hM
    obtain ⟨M', S', hsub, hMi⟩ := setD_safe (par_good hkb) (par_width (w := Nat.size v) (by omega) (by omega)) false _ t M i v t' S (by omega) (Nat.lt_size_self v) e5
    have hlen := (List.getElem?_eq_some_iff.1 e4).1
    refine ⟨⟨ws', _, rfl, w1', s1'.trans s1, hw', fun w hlt => ?_⟩, ?_⟩
    · rw [List.getElem?_set]
      by_cases h : Nat.size v - 1 = w
      · subst h
        rw [if_pos rfl, if_pos hlen, show Nat.size v - 1 + 1 = Nat.size v by omega]
        refine ⟨t', M', rfl, S', fun j hj hsj u hu => ?_⟩
        have := hsub j (by omega) u hu
        unfold upd at this
        by_cases h : j = i
        · subst h
          rw [if_pos rfl] at this
          rw [Function.update_self]
          exact (Option.some.inj this).symm
        · rw [if_neg h] at this
          rw [Function.update_of_ne h] at hsj ⊢
          exact hM j hj hsj u this
      · rw [if_neg h]
        obtain ⟨t2, M2, e7, S2, hM2⟩ := hts1 w hlt
        refine ⟨t2, M2, e7, S2, fun j hj hsj => ?_⟩
        by_cases h : j = i
        · subst h
          rw [Function.update_self] at hsj
          omega
        · rw [Function.update_of_ne h] at hsj ⊢
          exact hM2 j hj hsj
    · obtain ⟨wt, s, home, At⟩ := S'
      simp only [Arr.get, Option.bind_eq_bind, Option.bind_some, hget', if_neg h0, List.getElem?_set, if_pos hlen, if_true]
      rw [CHT.get_spec (par_good hkb) wt At (by omega), hMi]
      rfl

theorem writes_safe (hkb : kb ≤ 62) (hn : n ≤ 2 ^ kb) (S : SafeA kb n a (fun _ => 0)) (ops : List (Nat × Nat)) : (∀ o ∈ ops, o.1 < n ∧ o.2 < 2 ^ 63) →
    ∀ a', writes a ops = some a' → SafeA kb n a' (valueOf ops) ∧ ∀ i, valueOf ops i < 2 ^ 63 := by
  induction ops using List.reverseRecOn with
  | nil =>
    intro _ a' e
    rw [← Option.some.inj e]
    exact ⟨S, fun i => by simp [valueOf]⟩
  | append_singleton ops o ih =>
    intro hok a' e
    obtain ⟨i, v⟩ := o
    rw [writes_append] at e
    obtain ⟨a1, e1, e⟩ := Option.bind_eq_some_iff.1 e
    obtain ⟨S1, hlt⟩ := ih (fun o ho => hok o (by simp [ho])) a1 e1
    obtain ⟨h1, h2⟩ := hok (i, v) (by simp)
    simp only [writes, Option.bind_fun_some] at e
    refine ⟨?_, fun j => ?_⟩
    · rw [valueOf_append]
      exact (set_safe hkb hn S1 h1 h2 e).1
    · rw [valueOf_append]
      by_cases h : j = i
      · subst h
        rw [Function.update_self]
        exact h2
      · rw [Function.update_of_ne h]
        exact hlt j

end Verif.CDRW
