/-
The table as a map: `get` and `set` without growth.
-/
import Verif.CHT.Insert

namespace Verif.CHT
open Verif.Bits Verif.Fit

/-- The number of filled slots below `n`. -/
def filled (f : Nat → Slot) : Nat → Nat
  | 0 => 0
  | n + 1 => filled f n + if (f n).fil then 1 else 0

theorem filled_le (f : Nat → Slot) : ∀ n, filled f n ≤ n
  | 0 => Nat.le_refl _
  | n + 1 => by
    have := filled_le f n
    rw [filled]
    split <;> omega

theorem filled_congr {f g : Nat → Slot} : ∀ {n : Nat}, (∀ q, q < n → ((f q).fil ↔ (g q).fil)) → filled f n = filled g n
  | 0, _ => rfl
  | n + 1, h => by
    rw [filled, filled, filled_congr (fun q hq => h q (by omega))]
    congr 1
    simp only [h n (by omega)]

theorem filled_lt {f : Nat → Slot} : ∀ {n : Nat}, filled f n < n → ∃ p, p < n ∧ ¬ (f p).fil
  | 0, h => by omega
  | n + 1, h => by
    by_cases hf : (f n).fil
    · rw [filled, if_pos hf] at h
      obtain ⟨p, h1, h2⟩ := filled_lt (f := f) (n := n) (by omega)
      exact ⟨p, by omega, h2⟩
    · exact ⟨n, by omega, hf⟩

theorem filled_add {f : Nat → Slot} (c : Nat) : ∀ n, filled f (n + c) = filled f c + filled (fun p => f (p + c)) n
  | 0 => by simp [filled]
  | n + 1 => by
    rw [show n + 1 + c = (n + c) + 1 by omega, filled, filled, filled_add c n]
    omega

theorem filled_rotate {f : Nat → Slot} {B : Nat} (hper : ∀ p, f (p + B) = f p) (c : Nat) : filled (fun p => f (p + c)) B = filled f B := by
  have h1 := filled_add (f := f) c B
  have h2 := filled_add (f := f) B c
  have h3 : filled (fun p => f (p + B)) c = filled f c := filled_congr (fun q _ => by rw [hper])
  rw [Nat.add_comm c B, h1, h3] at h2
  omega

theorem filled_insert {f g : Nat → Slot} {y : Nat} (hy : ¬ (f y).fil) : ∀ {n : Nat}, y < n → (∀ q, q < n → ((g q).fil ↔ (f q).fil ∨ q = y)) → filled g n = filled f n + 1
  | 0, h, _ => by omega
  | n + 1, h, hg => by
    rw [filled, filled]
    by_cases hyn : y = n
    · subst hyn
      rw [if_neg hy, if_pos ((hg y (by omega)).2 (.inr rfl)), filled_congr (g := f)]
      intro q hq
      rw [hg q (by omega)]
      constructor
      · rintro (h1 | h1)
        · exact h1
        · omega
      · exact .inl
    · rw [filled_insert hy (show y < n by omega) (fun q hq => hg q (by omega))]
      have : (g n).fil ↔ (f n).fil := by
        rw [hg n (by omega)]
        constructor
        · rintro (h1 | h1)
          · exact h1
          · omega
        · exact .inl
      simp only [this]
      omega

theorem filled_mono (f : Nat → Slot) {p n : Nat} (h : p ≤ n) : filled f p ≤ filled f n := by
  induction n with
  | zero => rw [show p = 0 by omega]
  | succ n ih =>
    by_cases hp : p = n + 1
    · rw [hp]
    · rw [filled]
      have := ih (by omega)
      omega

theorem filled_full {f : Nat → Slot} {p n : Nat} (h : filled f n ≤ filled f p) {q : Nat} (h1 : p ≤ q) (h2 : q < n) : ¬ (f q).fil := by
  intro hf
  have e1 := filled_mono f h1
  have e2 := filled_mono f (show q + 1 ≤ n by omega)
  rw [filled, if_pos hf] at e2
  omega

/-- The slot has an element and no mark. -/
def Slot.lv (x : Slot) : Prop := x.fil ∧ x.del = false

instance (x : Slot) : Decidable x.lv := inferInstanceAs (Decidable (_ ∧ _))

/-- The number of slots below `n` with an element and no mark. -/
def live (f : Nat → Slot) : Nat → Nat
  | 0 => 0
  | n + 1 => live f n + if (f n).lv then 1 else 0

theorem live_congr {f g : Nat → Slot} : ∀ {n : Nat}, (∀ q, q < n → ((f q).lv ↔ (g q).lv)) → live f n = live g n
  | 0, _ => rfl
  | n + 1, h => by
    rw [live, live, live_congr (fun q hq => h q (by omega))]
    congr 1
    simp only [h n (by omega)]

theorem live_le {f g : Nat → Slot} : ∀ {n : Nat}, (∀ q, q < n → (f q).lv → (g q).lv) → live f n ≤ live g n
  | 0, _ => Nat.le_refl _
  | n + 1, h => by
    have h1 := live_le (f := f) (g := g) (n := n) (fun q hq => h q (by omega))
    have h2 := h n (by omega)
    rw [live, live]
    by_cases hf : (f n).lv
    · rw [if_pos hf, if_pos (h2 hf)]
      omega
    · rw [if_neg hf]
      omega

theorem live_lt {f g : Nat → Slot} {y : Nat} (hy : ¬ (f y).lv) (hgy : (g y).lv) : ∀ {n : Nat}, y < n → (∀ q, q < n → (f q).lv → (g q).lv) → live f n + 1 ≤ live g n
  | 0, h, _ => by omega
  | n + 1, h, hg => by
    rw [live, live]
    by_cases hyn : y = n
    · subst hyn
      rw [if_neg hy, if_pos hgy]
      have := live_le (f := f) (g := g) (n := y) (fun q hq => hg q (by omega))
      omega
    · have h1 := live_lt hy hgy (show y < n by omega) (fun q hq => hg q (by omega))
      have h2 := hg n (by omega)
      by_cases hf : (f n).lv
      · rw [if_pos hf, if_pos (h2 hf)]
        omega
      · rw [if_neg hf]
        omega

/-- Exactly one slot more. -/
theorem live_one {f g : Nat → Slot} {y : Nat} (hy : ¬ (f y).lv) (hgy : (g y).lv) : ∀ {n : Nat}, y < n → (∀ q, q < n → q ≠ y → ((f q).lv ↔ (g q).lv)) → live g n = live f n + 1
  | 0, h, _ => by omega
  | n + 1, h, hg => by
    rw [live, live]
    by_cases hyn : y = n
    · subst hyn
      rw [if_neg hy, if_pos hgy, live_congr (f := g) (g := f) (fun q hq => (hg q (by omega) (by omega)).symm)]
    · rw [live_one hy hgy (show y < n by omega) (fun q hq => hg q (by omega))]
      simp only [hg n (by omega) (fun h => hyn h.symm)]
      omega

theorem live_filled (f : Nat → Slot) : ∀ n, live f n ≤ filled f n
  | 0 => Nat.le_refl _
  | n + 1 => by
    have := live_filled f n
    rw [live, filled]
    by_cases h : (f n).lv
    · rw [if_pos h, if_pos h.1]
      omega
    · rw [if_neg h]
      omega

theorem live_eq_filled {f : Nat → Slot} : ∀ {n : Nat}, (∀ q, q < n → (f q).del = false) → live f n = filled f n
  | 0, _ => rfl
  | n + 1, h => by
    rw [live, filled, live_eq_filled (fun q hq => h q (by omega))]
    simp only [Slot.lv, h n (by omega), and_true]

theorem live_add {f : Nat → Slot} (c : Nat) : ∀ n, live f (n + c) = live f c + live (fun p => f (p + c)) n
  | 0 => by simp [live]
  | n + 1 => by
    rw [show n + 1 + c = (n + c) + 1 by omega, live, live, live_add c n]
    omega

theorem live_rotate {f : Nat → Slot} {B : Nat} (hper : ∀ p, f (p + B) = f p) (c : Nat) : live (fun p => f (p + c)) B = live f B := by
  have h1 := live_add (f := f) c B
  have h2 := live_add (f := f) B c
  have h3 : live (fun p => f (p + B)) c = live f c := live_congr (fun q _ => by rw [hper])
  rw [Nat.add_comm c B, h1, h3] at h2
  omega

theorem live_mono (f : Nat → Slot) {p n : Nat} (h : p ≤ n) : live f p ≤ live f n := by
  induction n with
  | zero => rw [show p = 0 by omega]
  | succ n ih =>
    by_cases hp : p = n + 1
    · rw [hp]
    · rw [live]
      have := ih (by omega)
      omega

theorem live_pos {f : Nat → Slot} {p n : Nat} (hp : p < n) (h : (f p).lv) : 1 ≤ live f n := by
  have := live_mono f (show p + 1 ≤ n by omega)
  rw [live, if_pos h] at this
  omega

/-- The marks of deleted slots do not belong to the layout. -/
theorem Lay.congrDel {B : Nat} {f g : Nat → Slot} {home : Nat → Nat} (L : Lay B f home) (hB : 0 < B)
    (h : ∀ q, q < B → (g q).occ = (f q).occ ∧ (g q).cont = (f q).cont ∧ (g q).sh = (f q).sh ∧ (g q).quo = (f q).quo ∧ ((g q).fil ↔ (f q).fil)) : Lay B g home := by
  have hf : ∀ q, q < B → ((g q).fil ↔ (f q).fil) := fun q hq => (h q hq).2.2.2.2
  refine ⟨?_, ?_, ?_, ?_, ?_, ?_, ?_, ?_⟩
  · intro p hp; rw [hf p hp]; exact L.le p hp
  · intro p hp hfp q h1 h2
    rw [hf q (by omega)]
    rw [hf p hp] at hfp
    exact L.between p hp hfp q h1 h2
  · intro p q h1 h2
    rw [hf p (by omega), hf q h2]
    exact L.mono p q h1 h2
  · intro p hp; rw [(h p hp).2.2.1, hf p hp]; exact L.sh p hp
  · rw [(h 0 hB).2.1]; exact L.cont0
  · intro p hp; rw [hf p (by omega), hf (p + 1) hp, (h (p + 1) hp).2.1]; exact L.cont p hp
  · intro p hp
    rw [(h p hp).1, L.occ p hp]
    constructor
    · rintro ⟨q, h1, h2, h3⟩; exact ⟨q, h1, (hf q h1).2 h2, h3⟩
    · rintro ⟨q, h1, h2, h3⟩; exact ⟨q, h1, (hf q h1).1 h2, h3⟩
  · intro p q h1 h2
    rw [hf p (by omega), hf q h2, (h p (by omega)).2.2.2.1, (h q h2).2.2.2.1]
    exact L.uniq p q h1 h2

theorem Lay.congr {B : Nat} {f g : Nat → Slot} {home : Nat → Nat} (L : Lay B f home) (hB : 0 < B) (h : ∀ q, q < B → g q = f q) : Lay B g home :=
  L.congrDel hB (fun q hq => by rw [h q hq]; exact ⟨rfl, rfl, rfl, rfl, Iff.rfl⟩)

/-- A filled slot has one of the other flags. -/
theorem Lay.flags {B : Nat} {f : Nat → Slot} {home : Nat → Nat} (L : Lay B f home) {p : Nat} (hp : p < B) (hf : (f p).fil) : (f p).occ = true ∨ (f p).sh = true := by
  have h1 := L.le p hp hf
  by_cases h : home p = p
  · exact .inl ((L.occ p hp).2 ⟨p, hp, hf, h⟩)
  · exact .inr ((L.sh p hp).2 ⟨hf, by omega⟩)

/-- The hash of the key whose element is in slot `p`. -/
def code (kb : Nat) (t : Tab) (s : Nat) (home : Nat → Nat) (p : Nat) : Nat := (view kb t s p).quo * t.bucket + (s + home p) % t.bucket

/-- The hash is a bijection of the keys. -/
structure Good (P : Par) (kb : Nat) : Prop where
  fwd : ∀ x, x < 2 ^ kb → ∃ y, y < 2 ^ kb ∧ P.hash kb x = some y ∧ P.ihash kb y = some x
  bwd : ∀ y, y < 2 ^ kb → ∃ x, x < 2 ^ kb ∧ P.ihash kb y = some x ∧ P.hash kb x = some y

theorem Good.inj {P : Par} {kb : Nat} (G : Good P kb) {x x' : Nat} (h : x < 2 ^ kb) (h' : x' < 2 ^ kb) (e : P.hash kb x = P.hash kb x') : x = x' := by
  obtain ⟨y, _, e1, e2⟩ := G.fwd x h
  obtain ⟨y', _, e1', e2'⟩ := G.fwd x' h'
  rw [e1, e1'] at e
  rw [Option.some.inj e, e2'] at e2
  exact (Option.some.inj e2).symm

/-- The table, seen from slot `s`, holds the map `M`. -/
structure At (P : Par) (kb vw : Nat) (t : Tab) (M : Nat → Option Nat) (s : Nat) (home : Nat → Nat) : Prop where
  lay : Lay t.bucket (view kb t s) home
  range : ∀ p, p < t.bucket → (view kb t s p).fil → code kb t s home p < 2 ^ kb
  has : ∀ k, k < 2 ^ kb → ∀ v, M k = some v ↔ ∃ p, p < t.bucket ∧ (view kb t s p).fil ∧ P.hash kb k = some (code kb t s home p) ∧ vals vw t s p = v
  count : t.used = filled (view kb t s) t.bucket

variable {P : Par} {kb vw : Nat} {t : Tab} {M : Nat → Option Nat} {s : Nat} {home : Nat → Nat}

theorem At.rotate (w : WT kb vw t) (A : At P kb vw t M s home) {c : Nat} (hc : c < t.bucket) (hcut : (view kb t s c).sh = false) :
    At P kb vw t M (s + c) (rotHome t.bucket home c) := by
  have hB := w.pos
  have L := A.lay
  have hview : ∀ p, view kb t (s + c) p = view kb t s (p + c) := by
    intro p
    unfold view
    rw [show s + c + p = s + (p + c) by omega]
  have hvals : ∀ p, vals vw t (s + c) p = vals vw t s (p + c) := by
    intro p
    unfold vals
    rw [show s + c + p = s + (p + c) by omega]
  -- the old position of slot `p`
  have hold : ∀ p, p < t.bucket → ∃ p', p' < t.bucket ∧ (p' = p + c ∨ p' + t.bucket = p + c) ∧ view kb t (s + c) p = view kb t s p' ∧ vals vw t (s + c) p = vals vw t s p' ∧
      ((view kb t s p').fil → code kb t (s + c) (rotHome t.bucket home c) p = code kb t s home p') := by
    intro p hp
    by_cases hpc : p + c < t.bucket
    · refine ⟨p + c, hpc, .inl rfl, hview p, hvals p, ?_⟩
      intro hf
      have h1 := L.cut hc hcut hpc hf (by omega)
      unfold code
      rw [hview, rotHome, if_pos hpc, show s + c + (home (p + c) - c) = s + home (p + c) by omega]
    · have e1 : p + c = p + c - t.bucket + t.bucket := by omega
      refine ⟨p + c - t.bucket, by omega, .inr (by omega), ?_, ?_, ?_⟩
      · rw [hview, e1, view_per, ← e1]
      · rw [hvals, e1, vals_per, ← e1]
      · intro hf
        unfold code
        rw [hview, rotHome, if_neg hpc, show s + c + (home (p + c - t.bucket) + t.bucket - c) = s + home (p + c - t.bucket) + t.bucket by omega, Nat.add_mod_right]
        congr 2
        conv => lhs; rw [e1, view_per]
  have hnew : ∀ p', p' < t.bucket → ∃ p, p < t.bucket ∧ (p' = p + c ∨ p' + t.bucket = p + c) := by
    intro p' hp'
    by_cases h : c ≤ p'
    · exact ⟨p' - c, by omega, .inl (by omega)⟩
    · exact ⟨p' + t.bucket - c, by omega, .inr (by omega)⟩
  refine ⟨?_, ?_, ?_, ?_⟩
  · have := L.rotate (fun p => view_per s p) hc hcut
    exact this.congr hB (fun q _ => hview q)
  · intro p hp hf
    obtain ⟨p', h1, _, h2, _, h3⟩ := hold p hp
    rw [h2] at hf
    rw [h3 hf]
    exact A.range p' h1 hf
  · intro k hk v
    rw [A.has k hk v]
    constructor
    · rintro ⟨p', h1, h2, h3, h4⟩
      obtain ⟨p, hp, hpp⟩ := hnew p' h1
      obtain ⟨p'', g1, g2, g3, g4, g5⟩ := hold p hp
      have : p'' = p' := by omega
      subst this
      exact ⟨p, hp, by rw [g3]; exact h2, by rw [g5 h2]; exact h3, by rw [g4]; exact h4⟩
    · rintro ⟨p, h1, h2, h3, h4⟩
      obtain ⟨p', g1, g2, g3, g4, g5⟩ := hold p h1
      rw [g3] at h2
      exact ⟨p', g1, h2, by rw [← g5 h2]; exact h3, by rw [← g4]; exact h4⟩
  · rw [A.count, ← filled_rotate (fun p => view_per s p) c]
    exact filled_congr (fun q _ => by rw [hview])

/-- The number of elements without a mark. -/
def lcount (kb : Nat) (t : Tab) : Nat := live (view kb t 0) t.bucket

theorem lcount_eq (s : Nat) : live (view kb t s) t.bucket = lcount kb t := by
  unfold lcount
  rw [← live_rotate (fun p => view_per 0 p) s]
  refine live_congr (fun q _ => ?_)
  have : view kb t 0 (q + s) = view kb t s q := by
    unfold view
    rw [show 0 + (q + s) = s + q by omega]
  rw [this]

/-- If there is a null slot, the table can be seen with its last slot null. -/
theorem At.nullLast (w : WT kb vw t) (A : At P kb vw t M s home) (hu : t.used < t.bucket) :
    ∃ s home, At P kb vw t M s home ∧ ¬ (view kb t s (t.bucket - 1)).fil := by
  have hB := w.pos
  rw [A.count] at hu
  obtain ⟨c, hc, hn⟩ := filled_lt hu
  by_cases hcB : c + 1 = t.bucket
  · exact ⟨s, home, A, by rw [← hcB]; exact hn⟩
  · have hsh : (view kb t s (c + 1)).sh = false := by
      cases h : (view kb t s (c + 1)).sh with
      | false => rfl
      | true =>
        have h1 := (A.lay.sh (c + 1) (by omega)).1 h
        exact absurd (A.lay.between (c + 1) (by omega) h1.1 c (by omega) (by omega)) hn
    refine ⟨_, _, A.rotate w (show c + 1 < t.bucket by omega) hsh, ?_⟩
    have : view kb t (s + (c + 1)) (t.bucket - 1) = view kb t s c := by
      rw [← view_per s c]
      unfold view
      rw [show s + (c + 1) + (t.bucket - 1) = s + (c + t.bucket) by omega]
    rw [this]
    exact hn

theorem exists_off {B : Nat} (hB : 0 < B) (s a : Nat) (ha : a < B) : ∃ h, h < B ∧ (s + h) % B = a := by
  refine ⟨(a + (B - s % B)) % B, Nat.mod_lt _ hB, ?_⟩
  have h1 := Nat.mod_lt s hB
  rw [Nat.add_mod_mod, ← Nat.mod_add_mod, show s % B + (a + (B - s % B)) = a + B by omega, Nat.add_mod_right, Nat.mod_eq_of_lt ha]

theorem eq_code {B q r y : Nat} (hr : r < B) : y = q * B + r ↔ q = y / B ∧ r = y % B := by
  have hB : 0 < B := by omega
  constructor
  · rintro rfl
    rw [Nat.mul_comm, Nat.mul_add_div hB, Nat.mul_add_mod, Nat.div_eq_of_lt hr, Nat.mod_eq_of_lt hr]
    exact ⟨rfl, rfl⟩
  · rintro ⟨rfl, rfl⟩
    rw [Nat.mul_comm]
    exact (Nat.div_add_mod y B).symm

/-- The parts of a hash. -/
theorem hash_parts (w : WT kb vw t) {y : Nat} (hy : y < 2 ^ kb) :
    y >>> t.bucketBits = y / t.bucket ∧ y &&& t.bucketMask = y % t.bucket ∧ y / t.bucket < 2 ^ (kb - t.bucketBits) := by
  refine ⟨?_, ?_, ?_⟩
  · rw [Nat.shiftRight_eq_div_pow, w.bucket]
  · rw [w.mask, w.bucket, Nat.and_two_pow_sub_one_eq_mod]
  · rw [w.bucket]
    refine Nat.div_lt_of_lt_mul ?_
    rw [← Nat.pow_add]
    exact Nat.lt_of_lt_of_le hy (Nat.pow_le_pow_right (by decide) (by omega))

/-- Slot `p` holds the key with hash `y` whose home is `h` slots from `s`. -/
theorem code_iff (A : At P kb vw t M s home) {y h p : Nat} (hh : h < t.bucket) (hy : (s + h) % t.bucket = y % t.bucket) (hp : p < t.bucket) (hf : (view kb t s p).fil) :
    y = code kb t s home p ↔ (view kb t s p).quo = y / t.bucket ∧ home p = h := by
  unfold code
  have hle := A.lay.le p hp hf
  rw [eq_code (Nat.mod_lt _ (by omega))]
  constructor
  · rintro ⟨h1, h2⟩
    exact ⟨h1, idx_inj (by omega) hh (h2.trans hy.symm)⟩
  · rintro ⟨h1, h2⟩
    exact ⟨h1, by rw [h2]; exact hy⟩

/-- The search for a key. -/
theorem At.search (w : WT kb vw t) (A : At P kb vw t M s home) {k y h : Nat} (hk : k < 2 ^ kb) (hh : h < t.bucket) (e : P.hash kb k = some y) (hy : (s + h) % t.bucket = y % t.bucket) :
    ∃ i, t.head ((s + h) % t.bucket) = some ((s + i) % t.bucket) ∧
      (((view kb t s h).occ = false ∧ M k = none ∧ Tail t.bucket (view kb t s) home h i) ∨
       ((view kb t s h).occ = true ∧ ∃ p, p < t.bucket ∧ (view kb t s p).fil ∧ y = code kb t s home p ∧
          t.find (y / t.bucket) t.bucket ((s + i) % t.bucket) = some ((s + p) % t.bucket, true)) ∨
       ((view kb t s h).occ = true ∧ M k = none ∧ ∃ e, Tail t.bucket (view kb t s) home h e ∧
          t.find (y / t.bucket) t.bucket ((s + i) % t.bucket) = some ((s + e) % t.bucket, false))) := by
  have L := A.lay
  obtain ⟨i, H⟩ := exists_head (B := t.bucket) (f := view kb t s) (home := home) h hh
  refine ⟨i, head_spec w L hh H, ?_⟩
  have hnone : (∀ p, p < t.bucket → (view kb t s p).fil → ¬ (home p = h ∧ (view kb t s p).quo = y / t.bucket)) → M k = none := by
    intro hall
    cases hM : M k with
    | none => rfl
    | some v =>
      obtain ⟨p, h1, h2, h3, _⟩ := (A.has k hk v).1 hM
      rw [e] at h3
      have := (code_iff A hh hy h1 h2).1 (Option.some.inj h3)
      exact absurd ⟨this.2, this.1⟩ (hall p h1 h2)
  by_cases ho : (view kb t s h).occ = true
  · right
    obtain ⟨hi, hfi, hhi⟩ := H.occ L hh ho
    rcases find_spec w L h (y / t.bucket) t.bucket i hi (by omega) hfi hhi with ⟨p, h1, h2, h3, h4, h5, h6⟩ | ⟨e, h1, h2, h3, h4, h5⟩
    · left
      exact ⟨ho, p, h2, h3, (code_iff A hh hy h2 h3).2 ⟨h5, h4⟩, h6⟩
    · right
      refine ⟨ho, hnone ?_, e, ⟨by have := H.le; omega, h2, ?_, h4⟩, h5⟩
      · rintro p hp hf ⟨g1, g2⟩
        by_cases hpi : p < i
        · have := H.before L hf hpi
          omega
        · by_cases hpe : p < e
          · exact (h3 p (by omega) hpe).2.2 g2
          · have := h4 p hp hf (by omega)
            omega
      · intro q g1 g2
        by_cases hqi : q < i
        · have := H.pre q g1 hqi
          exact ⟨this.1, by omega⟩
        · have := h3 q (by omega) g2
          exact ⟨this.1, by omega⟩
  · left
    have ho' : (view kb t s h).occ = false := by simpa using ho
    refine ⟨ho', hnone ?_, H.tail L hh ho'⟩
    rintro p hp hf ⟨g1, _⟩
    exact ho ((L.occ h hh).2 ⟨p, hp, hf, g1⟩)

theorem get_spec (G : Good P kb) (w : WT kb vw t) (A : At P kb vw t M s home) {k : Nat} (hk : k < 2 ^ kb) :
    t.get P k = some ((M k).isSome, (M k).getD 0) := by
  obtain ⟨y, hy, e1, _⟩ := G.fwd k hk
  obtain ⟨p1, p2, _⟩ := hash_parts w hy
  obtain ⟨h, hh, hhy⟩ := exists_off w.pos s (y % t.bucket) (Nat.mod_lt _ w.pos)
  obtain ⟨i, hi, hcase⟩ := A.search w hk hh e1 hhy
  obtain ⟨x, hx, ho, _⟩ := read_view w s h
  rw [hhy] at hx hi
  unfold Tab.get
  simp only [w.keyBits, e1, Option.bind_eq_bind, Option.bind_some, Option.pure_def, p1, p2, hx, ho]
  rcases hcase with ⟨h1, h2, h3⟩ | ⟨h1, p, h2, h3, h4, h5⟩ | ⟨h1, h2, e, _, h5⟩
  · rw [h1, h2]
    rfl
  · rw [if_pos h1, hi, Option.bind_some, h5, Option.bind_some]
    simp only [if_true, get_val w (idx_lt w _), Option.bind_some]
    have : M k = some (vals vw t s p) := (A.has k hk _).2 ⟨p, h2, h3, by rw [e1, h4], rfl⟩
    rw [this]
    rfl
  · rw [if_pos h1, hi, Option.bind_some, h5, Option.bind_some, h2]
    rfl

/-- No slot is marked as deleted. -/
def NoDel (kb : Nat) (t : Tab) : Prop := ∀ i, i < t.bucket → isDel (word kb t i) = false

theorem NoDel.view (n : NoDel kb t) (hB : 0 < t.bucket) (s p : Nat) : (view kb t s p).del = false := n _ (Nat.mod_lt _ hB)

theorem noDel_of (hB : 0 < t.bucket) (s : Nat) (h : ∀ q, q < t.bucket → (view kb t s q).del = false) : NoDel kb t := by
  intro i hi
  obtain ⟨q, hq, e⟩ := exists_off hB s i hi
  have := h q hq
  unfold CHT.view at this
  rw [e] at this
  exact this

/-- Changing the mark of a filled slot. -/
theorem At.remark (w : WT kb vw t) (A : At P kb vw t M s home) {p x : Nat} (hp : p < t.bucket) (hf : (view kb t s p).fil) (d : Bool)
    (hx : x < 2 ^ (kb - t.bucketBits + 4)) (hd : decode (qmask (kb - t.bucketBits)) x = { view kb t s p with del := d }) (n : Nat) :
    ∃ a, t.arr.set ((s + p) % t.bucket) x = some a ∧ WT kb vw { t with arr := a, size := n } ∧ At P kb vw { t with arr := a, size := n } M s home ∧
      (∀ q, q < t.bucket → ((view kb { t with arr := a, size := n } s q).fil ↔ (view kb t s q).fil)) ∧
      (∀ q, q < t.bucket → view kb { t with arr := a, size := n } s q = if q = p then { view kb t s p with del := d } else view kb t s q) := by
  obtain ⟨a, e, w1, v1⟩ := set_view (s := s) w hp hx
  have hB := w.pos
  have v2 : ∀ q, q < t.bucket → view kb { t with arr := a, size := n } s q = if q = p then { view kb t s p with del := d } else view kb t s q := by
    intro q hq
    rw [← hd]
    exact v1 q hq
  have hfl := A.lay.flags hp hf
  have hfil : ∀ q, q < t.bucket → ((view kb { t with arr := a, size := n } s q).fil ↔ (view kb t s q).fil) := by
    intro q hq
    rw [v2 q hq]
    split
    · rename_i hqp
      rw [hqp]
      refine iff_of_true ?_ hf
      rcases hfl with h | h
      · exact .inl h
      · exact .inr (.inr (.inl h))
    · rfl
  have hq4 : ∀ q, q < t.bucket → (view kb { t with arr := a, size := n } s q).occ = (view kb t s q).occ ∧ (view kb { t with arr := a, size := n } s q).cont = (view kb t s q).cont ∧
      (view kb { t with arr := a, size := n } s q).sh = (view kb t s q).sh ∧ (view kb { t with arr := a, size := n } s q).quo = (view kb t s q).quo := by
    intro q hq
    rw [v2 q hq]
    split
    · rename_i hqp
      rw [hqp]
      exact ⟨rfl, rfl, rfl, rfl⟩
    · exact ⟨rfl, rfl, rfl, rfl⟩
  have hcode : ∀ q, q < t.bucket → code kb { t with arr := a, size := n } s home q = code kb t s home q := by
    intro q hq
    unfold code
    rw [(hq4 q hq).2.2.2]
  refine ⟨a, e, ⟨w1.keyBits, w1.bucket, w1.mask, w1.quoMask, w1.arr, w1.arrSize, w1.values, w1.valuesSize⟩, ⟨?_, ?_, ?_, ?_⟩, hfil, v2⟩
  · refine A.lay.congrDel hB ?_
    intro q hq
    obtain ⟨h1, h2, h3, h4⟩ := hq4 q hq
    exact ⟨h1, h2, h3, h4, hfil q hq⟩
  · intro q hq h
    rw [hcode q hq]
    exact A.range q hq ((hfil q hq).1 h)
  · intro k hk v
    rw [A.has k hk v]
    constructor
    · rintro ⟨q, h1, h2, h3, h4⟩
      exact ⟨q, h1, (hfil q h1).2 h2, by rw [hcode q h1]; exact h3, h4⟩
    · rintro ⟨q, h1, h2, h3, h4⟩
      exact ⟨q, h1, (hfil q h1).1 h2, by rw [← hcode q h1]; exact h3, h4⟩
  · show t.used = _
    rw [A.count]
    exact (filled_congr hfil).symm

/-- A map with one more pair. -/
def upd (M : Nat → Option Nat) (k v : Nat) : Nat → Option Nat := fun x => if x = k then some v else M x

/-- What `set` leaves as it was. -/
def Kept (t t' : Tab) : Prop := t'.bucket = t.bucket ∧ t'.bucketBits = t.bucketBits ∧ t'.maxSize = t.maxSize ∧ t'.minSize = t.minSize

theorem At.insert (w : WT kb vw t) (G : Good P kb) (A : At P kb vw t M s home) (hlast : ¬ (view kb t s (t.bucket - 1)).fil) {k v y h e : Nat} (hk : k < 2 ^ kb) (hv : v < 2 ^ vw)
    (hh : h < t.bucket) (ek : P.hash kb k = some y) (hyk : y < 2 ^ kb) (hy : (s + h) % t.bucket = y % t.bucket) (hM : M k = none) (T : Tail t.bucket (view kb t s) home h e) :
    ∃ t', t.insert ((s + h) % t.bucket) ((s + e) % t.bucket) (y / t.bucket) v = some t' ∧ WT kb vw t' ∧ Kept t t' ∧ t'.size = (t.size + 1) % 2 ^ 64 ∧ t'.used = t.used + 1 ∧
      (∃ home', At P kb vw t' (upd M k v) s home') ∧ (NoDel kb t → NoDel kb t') ∧ lcount kb t + 1 ≤ lcount kb t' := by
  have hB := w.pos
  have heB : e ≤ t.bucket - 1 := by
    by_contra hlt
    have := T.leB
    exact hlast (T.pre (t.bucket - 1) (by omega) (by omega)).1
  obtain ⟨y0, hey, hy0, hny, hfe⟩ : ∃ y0, e ≤ y0 ∧ y0 < t.bucket ∧ ¬ (view kb t s y0).fil ∧ ∀ q, e ≤ q → q < y0 → (view kb t s q).fil := by
    have key : ∀ d e, e + d = t.bucket - 1 → ∃ y0, e ≤ y0 ∧ y0 < t.bucket ∧ ¬ (view kb t s y0).fil ∧ ∀ q, e ≤ q → q < y0 → (view kb t s q).fil := by
      intro d
      induction d with
      | zero =>
        intro e he
        exact ⟨e, Nat.le_refl _, by omega, by rw [show e = t.bucket - 1 by omega]; exact hlast, fun q h1 h2 => by omega⟩
      | succ d ih =>
        intro e he
        by_cases hf : (view kb t s e).fil
        · obtain ⟨y0, h1, h2, h3, h4⟩ := ih (e + 1) (by omega)
          refine ⟨y0, by omega, h2, h3, ?_⟩
          intro q g1 g2
          by_cases hq : q = e
          · rw [hq]; exact hf
          · exact h4 q (by omega) g2
        · exact ⟨e, Nat.le_refl _, by omega, hf, fun q h1 h2 => by omega⟩
    exact key (t.bucket - 1 - e) e (by omega)
  obtain ⟨_, _, hqlt⟩ := hash_parts w hyk
  obtain ⟨t', e1, w1, b1, b2, b3, b4, b5, b6, v1, u1⟩ := insert_spec w hh T.le hey hy0 hny hfe hqlt hv
  have hno : ∀ p, p < t.bucket → (view kb t s p).fil → home p = h → (view kb t s p).quo ≠ y / t.bucket := by
    intro p hp hf e1 e2
    have : M k = some (vals vw t s p) := (A.has k hk _).2 ⟨p, hp, hf, by rw [ek, (code_iff A hh hy hp hf).2 ⟨e2, e1⟩], rfl⟩
    rw [hM] at this
    simp at this
  have hlay := insert_lay A.lay hh T hey hy0 hny hfe hno
  have hfil : ∀ q, (insSlot (view kb t s) h e y0 (y / t.bucket) q).fil ↔ (view kb t s q).fil ∨ q = y0 := insSlot_fil hfe T hey
  have hLay' : Lay t'.bucket (view kb t' s) (insHome home h e y0) := by
    rw [b1]
    exact hlay.congr hB v1
  -- the new element
  have hcode_e : code kb t' s (insHome home h e y0) e = y := by
    unfold code
    rw [b1, v1 e (by omega), insSlot, if_pos rfl, insHome, if_neg (by omega), if_pos rfl, hy]
    show y / t.bucket * t.bucket + y % t.bucket = y
    rw [Nat.mul_comm]
    exact Nat.div_add_mod y t.bucket
  -- where the element of slot `q` was
  have hold : ∀ q, q < t.bucket → q ≠ e → (view kb t' s q).fil → ∃ p, p < t.bucket ∧ (view kb t s p).fil ∧ code kb t' s (insHome home h e y0) q = code kb t s home p ∧ vals vw t' s q = vals vw t s p := by
    intro q hq hqe hf
    rw [v1 q hq, hfil q] at hf
    by_cases hm : e < q ∧ q ≤ y0
    · refine ⟨q - 1, by omega, hfe (q - 1) (by omega) (by omega), ?_, ?_⟩
      · unfold code
        rw [b1, v1 q hq, insSlot, if_neg hqe, if_pos hm, insHome, if_neg (by omega), if_neg hqe, if_pos hm.2]
      · rw [u1 q hq, if_neg hqe, if_pos hm]
    · have hqy : q ≠ y0 := by omega
      refine ⟨q, hq, hf.resolve_right hqy, ?_, ?_⟩
      · unfold code
        rw [b1, v1 q hq, insSlot, if_neg hqe, if_neg hm]
        have : insHome home h e y0 q = home q := by
          unfold insHome
          by_cases hqe2 : q < e
          · rw [if_pos hqe2]
          · rw [if_neg hqe2, if_neg hqe, if_neg (by omega)]
        rw [this]
        split <;> rfl
      · rw [u1 q hq, if_neg hqe, if_neg hm]
  -- where the element of slot `p` goes
  have hnew : ∀ p, p < t.bucket → (view kb t s p).fil → ∃ q, q < t.bucket ∧ q ≠ e ∧ (view kb t' s q).fil ∧ code kb t' s (insHome home h e y0) q = code kb t s home p ∧ vals vw t' s q = vals vw t s p := by
    intro p hp hf
    have hpy : p ≠ y0 := fun h => hny (h ▸ hf)
    by_cases hm : e ≤ p ∧ p < y0
    · refine ⟨p + 1, by omega, by omega, ?_, ?_, ?_⟩
      · rw [v1 _ (by omega), hfil]
        by_cases hpy1 : p + 1 = y0
        · exact .inr hpy1
        · exact .inl (hfe _ (by omega) (by omega))
      · unfold code
        rw [b1, v1 _ (by omega), insSlot, if_neg (by omega), if_pos (by omega), insHome, if_neg (by omega), if_neg (by omega), if_pos (by omega), Nat.add_sub_cancel]
      · rw [u1 _ (by omega), if_neg (by omega), if_pos (by omega), Nat.add_sub_cancel]
    · have hpe : p ≠ e := by omega
      refine ⟨p, hp, hpe, ?_, ?_, ?_⟩
      · rw [v1 p hp, hfil]; exact .inl hf
      · unfold code
        rw [b1, v1 p hp, insSlot, if_neg hpe, if_neg (by omega)]
        have : insHome home h e y0 p = home p := by
          unfold insHome
          by_cases hqe2 : p < e
          · rw [if_pos hqe2]
          · rw [if_neg hqe2, if_neg hpe, if_neg (by omega)]
        rw [this]
        split <;> rfl
      · rw [u1 p hp, if_neg hpe, if_neg (by omega)]
  have hfe' : (view kb t' s e).fil := by
    rw [v1 e (by omega), hfil]
    by_cases h1 : e = y0
    · exact .inr h1
    · exact .inl (hfe e (Nat.le_refl _) (by omega))
  have hnd : NoDel kb t → NoDel kb t' := by
    intro n
    refine noDel_of (by rw [b1]; exact hB) s ?_
    intro q hq
    rw [b1] at hq
    rw [v1 q hq]
    unfold insSlot
    split
    · rfl
    · split
      · exact n.view hB s q
      · split
        · exact n.view hB s q
        · exact n.view hB s q
  have hlv : lcount kb t + 1 ≤ lcount kb t' := by
    rw [← lcount_eq s, ← lcount_eq s, b1]
    have hdel : ∀ q, q < t.bucket → (view kb t s q).del = false → (view kb t' s q).del = false := by
      intro q hq hd
      rw [v1 q hq]
      unfold insSlot
      split
      · rfl
      · split
        · exact hd
        · split
          · exact hd
          · exact hd
    have hnd0 : (view kb t s y0).del = false := by
      cases h : (view kb t s y0).del with
      | false => rfl
      | true => exact absurd (.inr (.inr (.inr h))) hny
    refine live_lt (y := y0) (fun h => hny h.1) ⟨?_, hdel y0 hy0 hnd0⟩ hy0 ?_
    · rw [v1 y0 hy0, hfil]
      exact .inr rfl
    · intro q hq hl
      refine ⟨?_, hdel q hq hl.2⟩
      rw [v1 q hq, hfil]
      exact .inl hl.1
  refine ⟨t', e1, w1, ⟨b1, b2, b3, b4⟩, b5, b6, ⟨insHome home h e y0, hLay', ?_, ?_, ?_⟩, hnd, hlv⟩
  · intro q hq hf
    rw [b1] at hq
    by_cases hqe : q = e
    · rw [hqe, hcode_e]; exact hyk
    · obtain ⟨p, h1, h2, h3, _⟩ := hold q hq hqe hf
      rw [h3]
      exact A.range p h1 h2
  · intro k' hk' v'
    rw [b1]
    unfold upd
    by_cases hkk : k' = k
    · subst hkk
      rw [if_pos rfl]
      constructor
      · intro hv'
        refine ⟨e, by omega, hfe', by rw [hcode_e, ek], ?_⟩
        rw [u1 e (by omega), if_pos rfl]
        exact Option.some.inj hv'
      · rintro ⟨q, h1, h2, h3, h4⟩
        by_cases hqe : q = e
        · rw [hqe, u1 e (by omega), if_pos rfl] at h4
          rw [h4]
        · obtain ⟨p, g1, g2, g3, g4⟩ := hold q h1 hqe h2
          have := (A.has k' hk (vals vw t s p)).2 ⟨p, g1, g2, by rw [h3, g3], rfl⟩
          rw [hM] at this
          simp at this
    · rw [if_neg hkk, A.has k' hk' v']
      constructor
      · rintro ⟨p, h1, h2, h3, h4⟩
        obtain ⟨q, g1, g2, g3, g4, g5⟩ := hnew p h1 h2
        exact ⟨q, g1, g3, by rw [h3, g4], by rw [g5, h4]⟩
      · rintro ⟨q, h1, h2, h3, h4⟩
        by_cases hqe : q = e
        · rw [hqe, hcode_e, ← ek] at h3
          exact absurd (G.inj hk' hk h3) hkk
        · obtain ⟨p, g1, g2, g3, g4⟩ := hold q h1 hqe h2
          exact ⟨p, g1, g2, by rw [h3, g3], by rw [← g4, h4]⟩
  · rw [b6, A.count, b1]
    symm
    exact filled_insert hny hy0 (fun q hq => by rw [v1 q hq, hfil q])

theorem At.setVal (w : WT kb vw t) (G : Good P kb) (A : At P kb vw t M s home) {k v y p : Nat} (hk : k < 2 ^ kb) (hv : v < 2 ^ vw) (ek : P.hash kb k = some y)
    (hp : p < t.bucket) (hf : (view kb t s p).fil) (hc : y = code kb t s home p) :
    ∃ a, t.values.set ((s + p) % t.bucket) v = some a ∧ WT kb vw { t with values := a } ∧ At P kb vw { t with values := a } (upd M k v) s home := by
  obtain ⟨a, e1, w1, u1⟩ := set_vals (s := s) (p := p) w hp hv
  refine ⟨_, e1, w1, A.lay, A.range, ?_, A.count⟩
  intro k' hk' v'
  show _ ↔ ∃ q, q < t.bucket ∧ (view kb t s q).fil ∧ P.hash kb k' = some (code kb t s home q) ∧ _
  have huniq : ∀ q, q < t.bucket → (view kb t s q).fil → code kb t s home q = code kb t s home p → q = p := by
    intro q hq hqf e
    obtain ⟨h, hh, hhy⟩ := exists_off w.pos s (y % t.bucket) (Nat.mod_lt _ w.pos)
    have c1 := (code_iff A hh hhy hp hf).1 hc
    have c2 := (code_iff A hh hhy hq hqf).1 (hc.trans e.symm)
    rcases Nat.lt_trichotomy q p with hlt | heq | hgt
    · exact absurd (c2.1.trans c1.1.symm) (A.lay.uniq q p hlt hp hqf hf (by omega))
    · exact heq
    · exact absurd (c1.1.trans c2.1.symm) (A.lay.uniq p q hgt hq hf hqf (by omega))
  unfold upd
  by_cases hkk : k' = k
  · subst hkk
    rw [if_pos rfl]
    constructor
    · intro hv'
      refine ⟨p, hp, hf, by rw [ek, hc], ?_⟩
      rw [u1 p hp, if_pos rfl]
      exact Option.some.inj hv'
    · rintro ⟨q, h1, h2, h3, h4⟩
      rw [ek, hc] at h3
      have := huniq q h1 h2 (Option.some.inj h3).symm
      rw [this, u1 p hp, if_pos rfl] at h4
      rw [h4]
  · rw [if_neg hkk, A.has k' hk' v']
    have hne : ∀ q, P.hash kb k' = some (code kb t s home q) → q ≠ p := by
      rintro q h1 rfl
      rw [← hc, ← ek] at h1
      exact hkk (G.inj hk' hk h1)
    constructor
    · rintro ⟨q, h1, h2, h3, h4⟩
      exact ⟨q, h1, h2, h3, by rw [u1 q h1, if_neg (hne q h3)]; exact h4⟩
    · rintro ⟨q, h1, h2, h3, h4⟩
      exact ⟨q, h1, h2, h3, by rw [u1 q h1, if_neg (hne q h3)] at h4; exact h4⟩

/-- How `size_` and the number of elements without a mark change. -/
def Grew (kb : Nat) (t t' : Tab) : Prop :=
  (t'.size = t.size ∧ 1 ≤ lcount kb t ∧ lcount kb t ≤ lcount kb t') ∨ (t'.size = (t.size + 1) % 2 ^ 64 ∧ lcount kb t + 1 ≤ lcount kb t')

theorem At.assign (w : WT kb vw t) (G : Good P kb) (A : At P kb vw t M s home) {k v y p : Nat} (hk : k < 2 ^ kb) (hv : v < 2 ^ vw) (ek : P.hash kb k = some y)
    (hp : p < t.bucket) (hf : (view kb t s p).fil) (hc : y = code kb t s home p) :
    ∃ t', t.assign ((s + p) % t.bucket) v = some t' ∧ WT kb vw t' ∧ Kept t t' ∧ t'.used = t.used ∧ At P kb vw t' (upd M k v) s home ∧
      (NoDel kb t → NoDel kb t' ∧ t'.size = t.size) ∧ Grew kb t t' := by
  obtain ⟨x, hx, _, _, _, hd, _⟩ := read_view w s p
  have hxw : x = word kb t ((s + p) % t.bucket) := by
    rw [get_word w (idx_lt w _)] at hx
    exact (Option.some.inj hx).symm
  unfold Tab.assign
  simp only [hx, Option.bind_eq_bind, Option.bind_some, Option.pure_def]
  by_cases hdel : isDel x = true
  · have hlt : x &&& (2 ^ 64 - 1 - kDel) < 2 ^ (kb - t.bucketBits + 4) := Nat.lt_of_le_of_lt Nat.and_le_left (by rw [hxw]; exact word_lt _)
    have h64 : x < 2 ^ 64 := by
      have := w.arr.le
      exact Nat.lt_of_lt_of_le (by rw [hxw]; exact word_lt _) (Nat.pow_le_pow_right (by decide) (by omega))
    obtain ⟨a, e1, w1, A1, f1, v1⟩ := A.remark w hp hf false hlt (by rw [decode_clear _ _ h64, hxw]; rfl) ((t.size + 1) % 2 ^ 64)
    obtain ⟨b, e2, w2, A2⟩ := A1.setVal w1 G hk hv ek hp ((f1 p hp).2 hf) (by
      rw [hc]
      unfold code
      rw [v1 p hp, if_pos rfl])
    simp only [if_pos hdel, e1, Option.bind_some]
    have e2' : t.values.set ((s + p) % t.bucket) v = some b := e2
    simp only [e2', Option.bind_some]
    refine ⟨_, rfl, w2, ⟨rfl, rfl, rfl, rfl⟩, rfl, A2, ?_, .inr ⟨rfl, ?_⟩⟩
    · intro n
      rw [hd, n.view w.pos] at hdel
      simp at hdel
    · rw [← lcount_eq s, ← lcount_eq s]
      rw [hd] at hdel
      refine Nat.le_of_eq (live_one (y := p) (fun h => ?_) ⟨(f1 p hp).2 hf, ?_⟩ hp (fun q hq hqp => ?_)).symm
      · rw [h.2] at hdel
        simp at hdel
      · show (view kb { t with arr := a, size := (t.size + 1) % 2 ^ 64 } s p).del = false
        rw [v1 p hp, if_pos rfl]
      · show _ ↔ (view kb { t with arr := a, size := (t.size + 1) % 2 ^ 64 } s q).lv
        rw [v1 q hq, if_neg hqp]
  · obtain ⟨b, e2, w2, A2⟩ := A.setVal w G hk hv ek hp hf hc
    simp only [if_neg hdel, Option.bind_some, e2]
    refine ⟨_, rfl, w2, ⟨rfl, rfl, rfl, rfl⟩, rfl, A2, fun n => ⟨n, rfl⟩, .inl ⟨rfl, ?_, Nat.le_refl _⟩⟩
    rw [← lcount_eq s]
    exact live_pos hp ⟨hf, by rw [← hd]; simpa using hdel⟩

theorem put_spec (G : Good P kb) (w : WT kb vw t) (A : At P kb vw t M s home) (hu : t.used < t.bucket) {k v : Nat} (hk : k < 2 ^ kb) (hv : v < 2 ^ vw) :
    ∃ t', t.put P k v = some t' ∧ WT kb vw t' ∧ Kept t t' ∧ (∃ s home, At P kb vw t' (upd M k v) s home) ∧
      t'.used = t.used + (if M k = none then 1 else 0) ∧ (NoDel kb t → NoDel kb t' ∧ t'.size = if M k = none then (t.size + 1) % 2 ^ 64 else t.size) ∧ Grew kb t t' := by
  obtain ⟨s, home, A, hlast⟩ := A.nullLast w hu
  obtain ⟨y, hy, e1, _⟩ := G.fwd k hk
  obtain ⟨p1, p2, _⟩ := hash_parts w hy
  obtain ⟨h, hh, hhy⟩ := exists_off w.pos s (y % t.bucket) (Nat.mod_lt _ w.pos)
  obtain ⟨i, hi, hcase⟩ := A.search w hk hh e1 hhy
  obtain ⟨x, hx, ho, _⟩ := read_view w s h
  have hins : ∀ e, M k = none → Tail t.bucket (view kb t s) home h e → ∃ t', t.insert (y % t.bucket) ((s + e) % t.bucket) (y / t.bucket) v = some t' ∧ WT kb vw t' ∧ Kept t t' ∧
      (∃ s home, At P kb vw t' (upd M k v) s home) ∧ t'.used = t.used + (if M k = none then 1 else 0) ∧
      (NoDel kb t → NoDel kb t' ∧ t'.size = if M k = none then (t.size + 1) % 2 ^ 64 else t.size) ∧ Grew kb t t' := by
    intro e hM T
    obtain ⟨t', h1, h2, h3, h4, h5, ⟨home', h6⟩, h7, h8⟩ := A.insert w G hlast hk hv hh e1 hy hhy hM T
    rw [hhy] at h1
    exact ⟨t', h1, h2, h3, ⟨s, home', h6⟩, by rw [h5, if_pos hM], fun n => ⟨h7 n, by rw [h4, if_pos hM]⟩, .inr ⟨h4, h8⟩⟩
  rw [hhy] at hx hi
  unfold Tab.put
  simp only [w.keyBits, e1, Option.bind_eq_bind, Option.bind_some, p1, p2, hx, ho, hi]
  rcases hcase with ⟨h1, h2, h3⟩ | ⟨h1, p, h2, h3, h4, h5⟩ | ⟨h1, h2, e, h4, h5⟩
  · simp only [h1, Bool.false_eq_true, if_false]
    exact hins i h2 h3
  · simp only [h1, if_true, h5, Option.bind_some]
    obtain ⟨t', g1, g2, g3, g4, g5, g6, g7⟩ := A.assign w G hk hv e1 h2 h3 h4
    have hM : M k = some (vals vw t s p) := (A.has k hk _).2 ⟨p, h2, h3, by rw [e1, h4], rfl⟩
    rw [hM]
    exact ⟨t', g1, g2, g3, ⟨s, home, g5⟩, by simp [g4], fun n => ⟨(g6 n).1, by simp [(g6 n).2]⟩, g7⟩
  · simp only [h1, if_true, h5, Option.bind_some, Bool.false_eq_true, if_false]
    exact hins e h2 h4

end Verif.CHT
