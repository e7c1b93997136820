/-
Tables with deleted slots: which calls return.
-/
import Verif.CHT.PropsSafe

namespace Verif.CHT
open Verif.Bits Verif.Fit

variable {P : Par} {kb vw m : Nat} {t : Tab} {M : Nat → Option Nat} {s : Nat} {home : Nat → Nat}

/-- The state of a table after `m` calls, with any marks. -/
structure Run (P : Par) (kb vw m : Nat) (t : Tab) (M : Nat → Option Nat) : Prop where
  wt : WT kb vw t
  maxSize : t.maxSize = t.bucket * P.load / 100
  room : 100 ≤ t.bucket * P.load
  used : t.used ≤ m
  size : t.size ≤ lcount kb t ∨ 2 ^ 64 ≤ t.size + m
  size64 : t.size < 2 ^ 64
  has : ∃ s home, At P kb vw t M s home

theorem Run.mono (R : Run P kb vw m t M) {m' : Nat} (h : m ≤ m') : Run P kb vw m' t M :=
  ⟨R.wt, R.maxSize, R.room, Nat.le_trans R.used h, R.size.imp_right (fun h' => by omega), R.size64, R.has⟩

theorem Inv.run (I : Inv P kb vw t M) (hm : t.used ≤ m) : Run P kb vw m t M := by
  refine ⟨I.wt, I.maxSize, I.room, hm, .inl ?_, ?_, I.has⟩
  · rw [I.lcount, I.size]
  · have h1 := I.used
    have h2 := I.maxSize
    have h3 := I.fits
    rw [I.size]
    omega

theorem Run.live (R : Run P kb vw m t M) : lcount kb t ≤ t.used := by
  obtain ⟨s, home, A⟩ := R.has
  rw [← lcount_eq s, A.count]
  exact live_filled _ _

theorem put_run (G : Good P kb) (R : Run P kb vw m t M) (hu : t.used < t.bucket) {k v : Nat} (hk : k < 2 ^ kb) (hv : v < 2 ^ vw) :
    ∃ t' M', t.put P k v = some t' ∧ Run P kb vw (m + 1) t' M' := by
  obtain ⟨s, home, A⟩ := R.has
  obtain ⟨t', e, w, ⟨k1, k2, k3, k4⟩, h, u1, _, gr⟩ := put_spec G R.wt A hu hk hv
  refine ⟨t', _, e, w, by rw [k3, k1]; exact R.maxSize, by rw [k1]; exact R.room, ?_, ?_, ?_, h⟩
  · have := R.used
    rw [u1]
    split <;> omega
  · have h64 := R.size64
    rcases gr with ⟨g1, g2, g3⟩ | ⟨g1, g2⟩ <;> rcases R.size with h | h <;> rw [g1]
    · left; omega
    · right; omega
    · left
      have := Nat.mod_le (t.size + 1) (2 ^ 64)
      omega
    · by_cases h' : t.size + 1 = 2 ^ 64
      · left
        rw [h', Nat.mod_self]
        exact Nat.zero_le _
      · right
        rw [Nat.mod_eq_of_lt (by omega)]
        omega
  · have h64 := R.size64
    rcases gr with ⟨g1, _⟩ | ⟨g1, _⟩ <;> rw [g1]
    · exact h64
    · exact Nat.mod_lt _ (by decide)

/-- `reserve` with the elements of a table with marks. -/
theorem reserve_run (G : Good P kb) (V : Width P vw) (h1 : 1 ≤ P.load) (h99 : P.load ≤ 99) (hkb : kb ≤ 60) (R : Run P kb vw m t M) (hm : m ≤ 2 ^ 55)
    {n : Nat} (hn : n ≤ 2 ^ 56) (d : Nat) :
    ∃ t', t.reserveWith P false (setD P false (d + 2)) n = some t' ∧ ((t' = t ∧ n ≤ t.size) ∨ ∃ M', Inv P kb vw t' M' ∧ t'.used = lcount kb t) := by
  by_cases hle : n ≤ t.size
  · exact ⟨t, by rw [Tab.reserveWith, if_pos hle], .inl ⟨rfl, hle⟩⟩
  · obtain ⟨n1, nf, n2, n3, n4⟩ := newBits_spec (n := n) h1 (by omega) (by omega) hn
    rw [reserveWith_eq (by omega) n1]
    have hnb : 1 ≤ newBits P.load n := by
      by_contra h0
      have := n3 (by omega)
      omega
    have hroom : 100 ≤ 2 ^ newBits P.load n * P.load := by
      have := n4 hnb
      omega
    have hl := R.live
    have hu := R.used
    obtain ⟨s, home, A⟩ := R.has
    obtain ⟨t', M', e1, I', _, u1⟩ := resize_live (Q := fun _ => True) G V R.wt A n1 (by omega) hroom nf (setF := setD P false (d + 2)) (by
      intro nx M' k v hI _ hlt hk hv hno
      obtain ⟨nx', g1, g2, g3⟩ := setD_spec G V h1 (by omega) hI (by omega) hk hv d
      exact ⟨nx', g1, g2, trivial, by rw [g3, if_pos hno]⟩) (fun _ _ _ => trivial)
    exact ⟨t', e1, .inr ⟨M', I', u1⟩⟩

/-- The growth asked for by `set` and `erase`. -/
theorem double_run (G : Good P kb) (V : Width P vw) (h1 : 1 ≤ P.load) (h99 : P.load ≤ 99) (hkb : kb ≤ 60) (R : Run P kb vw m t M) (hm : m ≤ 2 ^ 55) (d : Nat) :
    ∃ t', t.reserveWith P false (setD P false (d + 2)) (t.size * 2 % 2 ^ 64) = some t' ∧ ((t' = t) ∨ ∃ M', Inv P kb vw t' M' ∧ t'.used = lcount kb t) := by
  have hl := R.live
  have hu := R.used
  have h64 := R.size64
  rcases R.size with h | h
  · rw [Nat.mod_eq_of_lt (by omega)]
    obtain ⟨t', e, h⟩ := reserve_run G V h1 h99 hkb R hm (n := t.size * 2) (by omega) d
    exact ⟨t', e, h.imp_left (·.1)⟩
  · have : t.size * 2 % 2 ^ 64 ≤ t.size := by omega
    exact ⟨t, by rw [Tab.reserveWith, if_pos this], .inl rfl⟩

theorem load_lt (h99 : P.load ≤ 99) (hp : 0 < t.bucket) (h : t.maxSize = t.bucket * P.load / 100) : t.maxSize < t.bucket := by
  have : t.bucket * P.load ≤ t.bucket * 99 := Nat.mul_le_mul_left _ h99
  omega

/-- `set` returns if the table is not full. -/
theorem set_run (G : Good P kb) (V : Width P vw) (h1 : 1 ≤ P.load) (h99 : P.load ≤ 99) (hkb : kb ≤ 60) (R : Run P kb vw m t M) (hm : m ≤ 2 ^ 55) (hu : t.used < t.bucket)
    {k v : Nat} (hk : k < 2 ^ kb) (hv : v < 2 ^ vw) (d : Nat) : ∃ t' M', setD P false (d + 3) t k v = some t' ∧ Run P kb vw (m + 1) t' M' := by
  rw [setD]
  by_cases hf : t.filled = true
  · obtain ⟨t1, e1, h⟩ := double_run G V h1 h99 hkb R hm d
    simp only [hf, if_true, e1, Option.bind_eq_bind, Option.bind_some]
    rcases h with rfl | ⟨M1, I1, u1⟩
    · exact put_run G R hu hk hv
    · have hl := R.live
      have hm' := R.used
      refine put_run G (I1.run (m := m) (by omega)) ?_ hk hv
      have := I1.used
      have := load_lt h99 I1.wt.pos I1.maxSize
      omega
  · simp only [hf, Bool.false_eq_true, if_false, Option.pure_def, Option.bind_eq_bind, Option.bind_some]
    exact put_run G R hu hk hv

/-- `set` of a key that is there returns. -/
theorem put_present (G : Good P kb) (w : WT kb vw t) (A : At P kb vw t M s home) {k v : Nat} (hk : k < 2 ^ kb) (hv : v < 2 ^ vw) (hM : M k ≠ none) :
    ∃ t', t.put P k v = some t' ∧ WT kb vw t' ∧ Kept t t' ∧ t'.used = t.used ∧ At P kb vw t' (upd M k v) s home ∧ Grew kb t t' := by
  obtain ⟨y, hy, e1, _⟩ := G.fwd k hk
  obtain ⟨p1, p2, _⟩ := hash_parts w hy
  obtain ⟨h, hh, hhy⟩ := exists_off w.pos s (y % t.bucket) (Nat.mod_lt _ w.pos)
  obtain ⟨i, hi, hcase⟩ := A.search w hk hh e1 hhy
  obtain ⟨x, hx, ho, _⟩ := read_view w s h
  rw [hhy] at hx hi
  unfold Tab.put
  simp only [w.keyBits, e1, Option.bind_eq_bind, Option.bind_some, p1, p2, hx, ho, hi]
  rcases hcase with ⟨h1, h2, h3⟩ | ⟨h1, p, h2, h3, h4, h5⟩ | ⟨h1, h2, e, h4, h5⟩
  · exact absurd h2 hM
  · simp only [h1, if_true, h5, Option.bind_some]
    obtain ⟨t', g1, g2, g3, g4, g5, _, g7⟩ := A.assign w G hk hv e1 h2 h3 h4
    exact ⟨t', g1, g2, g3, g4, g5, g7⟩
  · exact absurd h2 hM

/-- A full table does not take a new key. -/
theorem put_full (G : Good P kb) (w : WT kb vw t) (A : At P kb vw t M s home) (hfull : t.used = t.bucket) {k v : Nat} (hk : k < 2 ^ kb) (hM : M k = none) : t.put P k v = none := by
  have hall : ∀ p, p < t.bucket → (view kb t s p).fil := by
    intro p hp
    by_contra hn
    have h1 := A.count
    have h2 := filled_le (view kb t s) p
    have h3 := filled_add (f := view kb t s) (p + 1) (t.bucket - (p + 1))
    have h4 := filled_le (fun q => view kb t s (q + (p + 1))) (t.bucket - (p + 1))
    rw [Nat.sub_add_cancel (by omega), filled, if_neg hn] at h3
    omega
  obtain ⟨y, hy, e1, _⟩ := G.fwd k hk
  obtain ⟨p1, p2, _⟩ := hash_parts w hy
  obtain ⟨h, hh, hhy⟩ := exists_off w.pos s (y % t.bucket) (Nat.mod_lt _ w.pos)
  obtain ⟨i, hi, hcase⟩ := A.search w hk hh e1 hhy
  obtain ⟨x, hx, ho, _⟩ := read_view w s h
  rw [hhy] at hx hi
  unfold Tab.put
  simp only [w.keyBits, e1, Option.bind_eq_bind, Option.bind_some, p1, p2, hx, ho, hi]
  rcases hcase with ⟨h1, h2, h3⟩ | ⟨h1, p, h2, h3, h4, h5⟩ | ⟨h1, h2, e, h4, h5⟩
  · simp only [h1, Bool.false_eq_true, if_false]
    exact insert_full w hall _ _ _ _
  · rw [(A.has k hk _).2 ⟨p, h2, h3, by rw [e1, h4], rfl⟩] at hM
    simp at hM
  · simp only [h1, if_true, h5, Option.bind_some, Bool.false_eq_true, if_false]
    exact insert_full w hall _ _ _ _

theorem Run.erase (G : Good P kb) (R : Run P kb vw m t M) {k : Nat} (hk : k < 2 ^ kb) (h99 : P.load ≤ 99) :
    ∃ t' M', t.eraseIn P k = some t' ∧ Run P kb vw (m + 1) t' M' := by
  obtain ⟨s, home, A⟩ := R.has
  have hbb : t.bucketBits ≠ 0 := by
    intro h0
    have h1 := R.room
    rw [R.wt.bucket, h0] at h1
    omega
  obtain ⟨t', e, h⟩ := eraseIn_spec G R.wt A hk hbb
  refine ⟨t', M, e, ?_⟩
  rcases h with rfl | ⟨w, A1, ⟨k1, k2, k3, k4⟩, u1, s1, l1⟩
  · exact R.mono (by omega)
  · have h64 := R.size64
    have hu := R.used
    refine ⟨w, by rw [k3, k1]; exact R.maxSize, by rw [k1]; exact R.room, by omega, ?_, by rw [s1]; exact Nat.mod_lt _ (by decide), s, home, A1⟩
    rw [s1]
    by_cases h0 : t.size = 0
    · right
      rw [h0]
      omega
    · rw [show t.size + 2 ^ 64 - 1 = (t.size - 1) + 2 ^ 64 by omega, Nat.add_mod_right, Nat.mod_eq_of_lt (by omega)]
      rcases R.size with h | h
      · left; omega
      · right; omega

/-- `erase` always returns. -/
theorem erase_run (G : Good P kb) (V : Width P vw) (h1 : 1 ≤ P.load) (h99 : P.load ≤ 99) (hkb : kb ≤ 60) (R : Run P kb vw m t M) (hm : m ≤ 2 ^ 55)
    {k : Nat} (hk : k < 2 ^ kb) (d : Nat) : ∃ t' M', t.eraseD P false (d + 2) k = some t' ∧ Run P kb vw (m + 1) t' M' := by
  unfold Tab.eraseD
  by_cases hs : t.size = t.minSize
  · rw [if_pos hs]
    obtain ⟨t1, e1, h⟩ := double_run G V h1 h99 hkb R hm d
    rw [e1, Option.bind_some]
    rcases h with rfl | ⟨M1, I1, u1⟩
    · exact R.erase G hk h99
    · have hl := R.live
      have hm' := R.used
      exact (I1.run (m := m) (by omega)).erase G hk h99
  · rw [if_neg hs, Option.bind_some]
    exact R.erase G hk h99

end Verif.CHT
