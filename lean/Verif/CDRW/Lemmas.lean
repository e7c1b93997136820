/-
The state of a CDRWArray as long as no index is rewritten with a value of another bit length.
-/
import Verif.CDRW.Model
import Verif.CHT.Props
import Mathlib.Data.Nat.Size

namespace Verif.CDRW
open Verif.Bits Verif.Fit Verif.CHT

theorem bits_eq (x : Nat) (hx : x < 2 ^ 64) : 64 - clz64 (BitVec.ofNat 64 x) = Nat.size x := by
  obtain ⟨h1, h2, h3⟩ := bits_spec x hx
  rcases Nat.eq_zero_or_pos x with h0 | h0
  · rw [h3 h0, h0, Nat.size_zero]
  · apply Nat.le_antisymm
    · have h2 := h2 h0
      by_contra hc
      have hlt : Nat.size x + 1 ≤ 64 - clz64 (BitVec.ofNat 64 x) := by omega
      have h4 : 2 ^ (Nat.size x + 1) ≤ 2 ^ (64 - clz64 (BitVec.ofNat 64 x)) := Nat.pow_le_pow_right (by decide) hlt
      have h5 := Nat.lt_size_self x
      rw [Nat.pow_succ] at h4
      omega
    · exact Nat.size_le.2 h1

theorem par_good {kb : Nat} (h : kb ≤ 62) : Good par kb :=
  ⟨fun x hx => by
    obtain ⟨y, h1, h2, h3⟩ := Hash.C43_ihash_hash kb x (by omega) hx
    exact ⟨y, h2, h1, h3⟩,
   fun y hy => by
    obtain ⟨x, h1, h2, h3⟩ := Hash.C43_hash_ihash kb y (by omega) hy
    exact ⟨x, h2, h1, h3⟩⟩

theorem par_width {w : Nat} (h1 : 1 ≤ w) (h63 : w ≤ 63) : Width par w := ⟨h1, h63, .inr rfl⟩

theorem table_spec {kb w : Nat} (hk : kb ≤ 62) (h1 : 1 ≤ w) (h63 : w ≤ 63) :
    ∃ t, table kb w = some t ∧ Inv par kb w t (fun _ => none) ∧ t.used = 0 := by
  obtain ⟨t0, t, e1, e2, h1', h2, _⟩ := new_spec0 (kb := kb) (par_width h1 h63) rfl (b := 3) (by decide) (by omega) (show 100 ≤ 2 ^ 3 * 50 by decide) (show 2 ^ 3 * 50 < 2 ^ 64 by decide)
  have e1' : CHT.new par false kb 8 = some t0 := e1
  refine ⟨t, ?_, h1', h2⟩
  unfold table
  rw [e1']
  simp only [Option.bind_eq_bind, Option.bind_some, if_neg (show ¬ w = 64 by omega), e2]

theorem table_64 {kb : Nat} (hk : kb ≤ 62) : ∃ t, table kb 64 = some t := by
  obtain ⟨t0, t, e1, _⟩ := new_spec0 (kb := kb) (par_width (w := 1) (by decide) (by decide)) rfl (b := 3) (by decide) (by omega) (show 100 ≤ 2 ^ 3 * 50 by decide) (show 2 ^ 3 * 50 < 2 ^ 64 by decide)
  have e1' : CHT.new par false kb 8 = some t0 := e1
  exact ⟨t0, by unfold table; rw [e1']; rfl⟩

theorem tables_spec {kb : Nat} (hk : kb ≤ 62) : ∀ n, n ≤ 63 →
    ∃ ts, tables kb n = some ts ∧ ts.length = n ∧ ∀ w, w < n → ∃ t, ts[w]? = some t ∧ Inv par kb (w + 1) t (fun _ => none) ∧ t.used = 0
  | 0, _ => ⟨[], rfl, rfl, fun w hw => absurd hw (by omega)⟩
  | n + 1, hn => by
    obtain ⟨ts, e, hl, hts⟩ := tables_spec hk n (by omega)
    obtain ⟨t, et, I, hu⟩ := table_spec hk (w := n + 1) (by omega) hn
    refine ⟨ts ++ [t], by simp [tables, e, et], by simp [hl], ?_⟩
    intro w hw
    by_cases h : w = n
    · subst h
      exact ⟨t, by rw [← hl]; simp, I, hu⟩
    · obtain ⟨t', e', h'⟩ := hts w (by omega)
      exact ⟨t', by rw [List.getElem?_append_left (by omega)]; exact e', h'⟩

theorem tables_all {kb : Nat} (hk : kb ≤ 62) :
    ∃ ts, tables kb 64 = some ts ∧ ts.length = 64 ∧ ∀ w, w < 63 → ∃ t, ts[w]? = some t ∧ Inv par kb (w + 1) t (fun _ => none) ∧ t.used = 0 := by
  obtain ⟨ts, e, hl, hts⟩ := tables_spec hk 63 (by decide)
  obtain ⟨t, et⟩ := table_64 hk
  refine ⟨ts ++ [t], ?_, by simp [hl], ?_⟩
  · rw [tables, e]
    simp only [Option.bind_eq_bind, Option.bind_some, et, Option.pure_def]
  intro w hw
  obtain ⟨t', e', h'⟩ := hts w hw
  exact ⟨t', by rw [List.getElem?_append_left (by omega)]; exact e', h'⟩

/-- The array of `n` elements holds `A`, after at most `m` writes. -/
def Ok (kb n m : Nat) (a : Arr) (A : Nat → Nat) : Prop :=
  ∃ ws ts, a = ⟨n, some (ws, ts)⟩ ∧ WF ws 7 ∧ ws.size = n ∧ (∀ i, i < n → (elems ws 7)[i]? = some (Nat.size (A i))) ∧
    ∀ w, w < 63 → ∃ t M, ts[w]? = some t ∧ Inv par kb (w + 1) t M ∧ t.used ≤ m ∧ ∀ i, i < n → Nat.size (A i) = w + 1 → M i = some (A i)

/-- A write that does not change the bit length of a nonzero element. -/
def fits (A : Nat → Nat) (i v : Nat) : Prop := A i = 0 ∨ Nat.size (A i) = Nat.size v

variable {kb n m : Nat} {a : Arr} {A : Nat → Nat}

theorem sizeBits_spec (h0 : n ≠ 0) (hn : n ≤ 2 ^ 62) : n ≤ 2 ^ sizeBits n ∧ sizeBits n ≤ 62 := by
  unfold sizeBits
  rw [bits_eq (n - 1) (by omega)]
  refine ⟨?_, Nat.size_le.2 (by omega)⟩
  have := Nat.lt_size_self (n - 1)
  omega

theorem new_ok (h0 : n ≠ 0) (hn : n ≤ 2 ^ 62) : ∃ a, new false n = some a ∧ Ok (sizeBits n) n 0 a (fun _ => 0) := by
  obtain ⟨ws, e1, w1, s1, l1⟩ := ofSize_spec 7 n (by decide) (by decide)
  obtain ⟨ts, e2, _, hts⟩ := tables_all (sizeBits_spec h0 hn).2
  refine ⟨⟨n, some (ws, ts)⟩, by simp [new, h0, e1, e2], ws, ts, rfl, w1, s1, ?_, ?_⟩
  · intro i hi
    rw [l1]
    simp [hi]
  · intro w hw
    obtain ⟨t, e, I, hu⟩ := hts w hw
    exact ⟨t, _, e, I, by omega, fun i _ h => absurd h (by simp)⟩

theorem get_ok (hkb : kb ≤ 62) (hn : n ≤ 2 ^ kb) (O : Ok kb n m a A) (hA : ∀ i, i < n → A i < 2 ^ 63) {i : Nat} (hi : i < n) : a.get i = some (A i) := by
  obtain ⟨ws, ts, rfl, w1, s1, hw, hts⟩ := O
  have hlt := hA i hi
  have hget : ws.get i = some (Nat.size (A i)) := by rw [Fit.get_spec ws 7 w1 i (by omega), hw i hi]
  unfold Arr.get
  simp only [Option.bind_eq_bind, Option.bind_some, hget]
  have hs : Nat.size (A i) ≤ 63 := Nat.size_le.2 hlt
  by_cases h0 : Nat.size (A i) = 0
  · rw [if_pos h0, Nat.size_eq_zero.1 h0]
    rfl
  · rw [if_neg h0]
    obtain ⟨t, M, e, I, _, hM⟩ := hts (Nat.size (A i) - 1) (by omega)
    obtain ⟨s, home, At⟩ := I.has
    rw [e]
    simp only [Option.bind_some]
    rw [CHT.get_spec (par_good hkb) I.wt At (by omega), hM i hi (by omega)]
    rfl

/-- A write that leaves the tables alone when it erases the old value; only the table of the new bit length changes. -/
theorem set_ok_he (hkb : kb ≤ 62) (hn : n ≤ 2 ^ kb) (O : Ok kb n m a A) (hm : m ≤ 2 ^ 55) {i v : Nat} (hi : i < n) (hv : v < 2 ^ 63)
    (hf : ∀ ws ts, a = ⟨n, some (ws, ts)⟩ → eraseOld ts (Nat.size (A i)) (Nat.size v) i = some ts) :
    ∃ a', a.set i v = some a' ∧ Ok kb n (m + 1) a' (Function.update A i v) ∧
      ∀ ws ts, a = ⟨n, some (ws, ts)⟩ → ∃ ws' ts', a' = ⟨n, some (ws', ts')⟩ ∧ ∀ w, w + 1 ≠ Nat.size v → ts'[w]? = ts[w]? := by
  obtain ⟨ws, ts, rfl, w1, s1, hw, hts⟩ := O
  have hget : ws.get i = some (Nat.size (A i)) := by rw [Fit.get_spec ws 7 w1 i (by omega), hw i hi]
  have hs : Nat.size v ≤ 63 := Nat.size_le.2 hv
  obtain ⟨ws', e1, w1', s1', l1', _⟩ := Fit.set_spec ws 7 w1 i (Nat.size v) (by omega) (by omega)
  have he : eraseOld ts (Nat.size (A i)) (Nat.size v) i = some ts := hf ws ts rfl
  have hw' : ∀ j, j < n → (elems ws' 7)[j]? = some (Nat.size (Function.update A i v j)) := by
    intro j hj
    rw [l1', List.getElem?_set, elems_length, s1]
    by_cases h : i = j
    · subst h
      simp [hi]
    · rw [if_neg h, hw j hj, Function.update_of_ne (fun h' => h h'.symm)]
  by_cases h0 : Nat.size v = 0
  · refine ⟨⟨n, some (ws', ts)⟩, ?_, ⟨ws', ts, rfl, w1', s1'.trans s1, hw', ?_⟩, ?_⟩
    · simp [Arr.set, bits_eq v (by omega), hget, he, e1, setNew, h0] at *
      simp [he, e1]
    · intro w hw
      obtain ⟨t, M, e, I, hu, hM⟩ := hts w hw
      refine ⟨t, M, e, I, by omega, ?_⟩
      intro j hj hs
      by_cases h : j = i
      · subst h
        rw [Function.update_self, h0] at hs
        omega
      · rw [Function.update_of_ne h] at hs ⊢
        exact hM j hj hs
    · intro _ _ e
      cases e
      exact ⟨ws', ts, rfl, fun _ _ => rfl⟩
  · obtain ⟨t, M, e, I, hu, hM⟩ := hts (Nat.size v - 1) (by omega)
    obtain ⟨t', e', I', hu'⟩ := setD_spec (par_good hkb) (par_width (by omega) (by omega)) (show 1 ≤ 50 by decide) (show 50 ≤ 100 by decide) I (by omega) (k := i) (by omega) (v := v)
      (by rw [show Nat.size v - 1 + 1 = Nat.size v by omega]; exact Nat.lt_size_self v) 1
    have e'' : t.set par false i v = some t' := e'
    have hlen : Nat.size v - 1 < ts.length := by
      by_contra hc
      rw [List.getElem?_eq_none (by omega)] at e
      exact absurd e (by simp)
    refine ⟨⟨n, some (ws', ts.set (Nat.size v - 1) t')⟩, ?_, ⟨ws', _, rfl, w1', s1'.trans s1, hw', ?_⟩, ?_⟩
    · unfold Arr.set
      rw [bits_eq v (by omega)]
      simp only [Option.bind_eq_bind, Option.bind_some, hget, he, e1, setNew, if_pos (show Nat.size v > 0 by omega), e, e'', Option.pure_def]
    · intro w hw
      rw [List.getElem?_set]
      by_cases h : Nat.size v - 1 = w
      · subst h
        refine ⟨t', upd M i v, by simp [hlen], I', ?_, ?_⟩
        · rw [hu']
          split <;> omega
        · intro j hj hs
          unfold upd
          by_cases h : j = i
          · subst h
            simp
          · rw [Function.update_of_ne h] at hs ⊢
            rw [if_neg h]
            exact hM j hj hs
      · rw [if_neg h]
        obtain ⟨t2, M2, e2, I2, hu2, hM2⟩ := hts w hw
        refine ⟨t2, M2, e2, I2, by omega, ?_⟩
        intro j hj hs
        by_cases h : j = i
        · subst h
          rw [Function.update_self] at hs
          omega
        · rw [Function.update_of_ne h] at hs ⊢
          exact hM2 j hj hs
    · intro _ _ e
      cases e
      exact ⟨ws', _, rfl, fun w hw => by rw [List.getElem?_set_ne (by omega)]⟩

theorem set_ok (hkb : kb ≤ 62) (hn : n ≤ 2 ^ kb) (O : Ok kb n m a A) (hm : m ≤ 2 ^ 55) {i v : Nat} (hi : i < n) (hv : v < 2 ^ 63) (hf : fits A i v) :
    ∃ a', a.set i v = some a' ∧ Ok kb n (m + 1) a' (Function.update A i v) := by
  obtain ⟨a', e, O', _⟩ := set_ok_he hkb hn O hm hi hv (fun ws ts _ => by
    unfold eraseOld
    rw [if_neg]
    rintro ⟨h1, h2⟩
    rcases hf with h | h
    · exact h1 (by rw [h, Nat.size_zero])
    · exact h2 h)
  exact ⟨a', e, O'⟩

end Verif.CDRW
