/-
How the number of slots of a table changes under `set` and `reserve`.
-/
import Verif.CHT.Grow

namespace Verif.CHT
open Verif.Bits

variable {P : Par} {kb vw : Nat} {t : Tab} {M : Nat → Option Nat}

theorem newBits_least {load n : Nat} (h1 : 1 ≤ load) (h99 : load ≤ 99) (hn1 : 1 ≤ n) (hn : n ≤ 2 ^ 56) :
    2 ^ newBits load n * load ≤ 198 * n ∧ ∀ c, 99 * n < 2 ^ c * load → newBits load n ≤ c := by
  have hx : n * 99 / load ≤ n * 99 := Nat.div_le_self _ _
  have hx1 : 0 < n * 99 / load := Nat.div_pos (by omega) (by omega)
  obtain ⟨b1, b2, b3⟩ := bits_spec (n * 99 / load) (by omega)
  have hnb : newBits load n = 64 - clz64 (BitVec.ofNat 64 (n * 99 / load)) := by
    unfold newBits
    rw [Nat.add_sub_cancel, Nat.mod_eq_of_lt (a := n * (100 - 1)) (by omega)]
  rw [← hnb] at b1 b2
  have b2 := b2 hx1
  constructor
  · have h2 := Nat.mul_le_mul_right load b2
    have h3 := Nat.div_mul_le_self (n * 99) load
    rw [Nat.mul_assoc] at h2
    omega
  · intro c hc
    have h4 : n * 99 / load < 2 ^ c := (Nat.div_lt_iff_lt_mul (by omega)).2 (by omega)
    have h5 : 2 ^ newBits load n < 2 ^ (c + 1) := by
      rw [Nat.pow_succ]
      omega
    have := (Nat.pow_lt_pow_iff_right (show 1 < 2 by decide)).1 h5
    omega

/-- A table that grows doubles. -/
theorem grow_double (h1 : 1 ≤ P.load) (h99 : P.load ≤ 99) {b : Nat} (hroom : 100 ≤ 2 ^ b * P.load) (hbig : 2 ^ b * P.load / 100 ≤ 2 ^ 55)
    (hgt : 2 ^ b < 2 ^ newBits P.load (2 ^ b * P.load / 100 * 2)) : 2 ^ newBits P.load (2 ^ b * P.load / 100 * 2) = 2 * 2 ^ b := by
  have h2 := (newBits_least (n := 2 ^ b * P.load / 100 * 2) h1 h99 (by omega) (by omega)).2 (b + 1) (by
    rw [Nat.pow_succ, Nat.mul_comm (2 ^ b) 2, Nat.mul_assoc]
    omega)
  have h3 := (Nat.pow_lt_pow_iff_right (show 1 < 2 by decide)).1 hgt
  rw [show newBits P.load (2 ^ b * P.load / 100 * 2) = b + 1 by omega, Nat.pow_succ, Nat.mul_comm]

/-- `set` doubles the table exactly if it is filled. -/
theorem setD_bucket (G : Good P kb) (V : Width P vw) (h1 : 1 ≤ P.load) (h99 : P.load ≤ 99) (I : Inv P kb vw t M) (hbig : t.used ≤ 2 ^ 55) {k v : Nat} (hk : k < 2 ^ kb)
    (hv : v < 2 ^ vw) (d : Nat) : ∃ t', setD P false (d + 2) t k v = some t' ∧ Inv P kb vw t' (upd M k v) ∧ t'.used = t.used + (if M k = none then 1 else 0) ∧
      t'.bucket = if t.size = t.bucket * P.load / 100 then 2 * t.bucket else t.bucket := by
  by_cases hu : t.used = t.maxSize
  · obtain ⟨t1, e1, I1, u1, l1, g1, b1⟩ := grow_spec G V h1 (by omega) I hu hbig d
    obtain ⟨t2, e2, I2, u2, b2, _⟩ := put_inv G (by omega) I1 l1 hk hv
    refine ⟨t2, ?_, I2, by rw [u2, u1], ?_⟩
    · have hf : t.filled = true := by simp [Tab.filled, hu]
      rw [setD]
      simp only [hf, if_true, e1, Option.bind_eq_bind, Option.bind_some]
      exact e2
    · have hs : t.size = t.bucket * P.load / 100 := by rw [I.size, hu, I.maxSize]
      rw [if_pos hs, b2, b1]
      rw [b1, hs, I.wt.bucket] at g1
      rw [hs, I.wt.bucket]
      refine grow_double h1 h99 (by rw [← I.wt.bucket]; exact I.room) ?_ g1
      rw [← I.wt.bucket, ← I.maxSize, ← hu]
      exact hbig
  · obtain ⟨t2, e2, I2, u2, b2, _⟩ := setD_not_filled G (by omega) I (by have := I.used; omega) hk hv (d + 1)
    refine ⟨t2, e2, I2, u2, ?_⟩
    rw [if_neg (by rw [I.size, ← I.maxSize]; exact hu), b2]

/-- `reserve` takes the least number of slots that is large enough for 99 of 100 of the wanted elements, twice of it if these are too few for the elements present. -/
theorem reserve_bucket (G : Good P kb) (V : Width P vw) (h1 : 1 ≤ P.load) (h99 : P.load ≤ 99) (hkb : kb ≤ 60) (I : Inv P kb vw t M) (hbig : t.used ≤ 2 ^ 55)
    {n : Nat} (hn : n ≤ 2 ^ 56) (hlt : t.size < n) : ∃ t', t.reserve P false n = some t' ∧ Inv P kb vw t' M ∧ t'.used = t.used ∧
      t'.bucket = if 2 ^ newBits P.load n * P.load / 100 < t.size then 2 * 2 ^ newBits P.load n else 2 ^ newBits P.load n := by
  unfold Tab.reserve
  obtain ⟨n1, nf, n2, n3, n4⟩ := newBits_spec (n := n) h1 (by omega) (by omega) hn
  rw [reserveWith_eq (by omega) n1]
  have h0 : newBits P.load n ≠ 0 := by
    intro h0
    have := n3 h0
    omega
  have n5 := n4 (by omega)
  have hsz := I.size
  generalize hB : 2 ^ newBits P.load n = B at *
  obtain ⟨t', e1, I', q1, u1⟩ := resize_spec (Q := fun nx => nx.bucket = if B * P.load / 100 < nx.used then 2 * B else B) G V I n1 (by omega) (by rw [hB]; omega) (by rw [hB]; exact nf)
    (setF := setD P false 3) (by
      intro nx M' k v hI hQ hlt' hk hv hno
      obtain ⟨nx', g1, g2, g3, g4⟩ := setD_bucket G V h1 h99 hI (by omega) hk hv 1
      refine ⟨nx', g1, g2, ?_, by rw [g3, if_pos hno]⟩
      beta_reduce
      rw [if_pos hno] at g3
      have hu := hI.used
      rw [hI.maxSize] at hu
      rw [g4, g3, hI.size]
      by_cases hc : B * P.load / 100 < nx.used
      · rw [if_pos hc] at hQ
        have h2 : 2 * B * P.load = 2 * (B * P.load) := Nat.mul_assoc _ _ _
        rw [hQ, h2, if_neg (by omega), if_pos (by omega)]
      · rw [if_neg hc] at hQ
        rw [hQ] at hu ⊢
        by_cases he : nx.used = B * P.load / 100
        · rw [if_pos he, if_pos (by omega)]
        · rw [if_neg he, if_neg (by omega)])
    (by
      intro nx hI hb
      rw [hb, hB]
      have hu := hI.used
      rw [hI.maxSize, hb, hB] at hu
      rw [if_neg (by omega)])
  rw [hB] at e1
  rw [u1, ← hsz] at q1
  exact ⟨t', e1, I', u1, q1⟩

end Verif.CHT
