/-
Property theorem C45 for any number of erasures, as long as the table is not copied.
-/
import Verif.CHT.PropsSafe

namespace Verif.CHT
open Verif.Bits

/-- The number of calls of `set`. -/
def sets (cs : List Call) : Nat := cs.countP (fun c => match c with | .set _ _ => true | _ => false)

/-- The number of calls of `erase`. -/
def erases (cs : List Call) : Nat := cs.countP (fun c => match c with | .erase _ => true | _ => false)

theorem lastSet_cons (c : Call) (cs : List Call) (x : Nat) : lastSet (c :: cs) x = (lastSet cs x).or (Call.gives x c) := by
  unfold lastSet
  rw [List.reverse_cons, List.findSome?_append]
  congr 1
  simp only [List.findSome?_cons, List.findSome?_nil]
  cases Call.gives x c <;> rfl

variable {P : Par} {kb vw : Nat}

theorem quiet_spec (G : Good P kb) (d : Nat) : ∀ (cs : List Call) (t : Tab) (M : Nat → Option Nat), Safe P kb vw t M → t.bucketBits ≠ 0 → t.maxSize ≤ t.bucket →
    (∀ k v, Call.set k v ∈ cs → k < 2 ^ kb ∧ v < 2 ^ vw) → (∀ k, Call.erase k ∈ cs → k < 2 ^ kb) → (∀ n, Call.reserve n ∉ cs) →
    t.used + sets cs ≤ t.maxSize → t.size + sets cs < 2 ^ 64 → (t.minSize + erases cs ≤ t.size ∨ (t.size + sets cs < t.minSize ∧ erases cs ≤ t.size)) →
    ∃ t', calls P (d + 1) t cs = some t' ∧ Safe P kb vw t' (fun x => (lastSet cs x).or (M x)) ∧ t'.bucket = t.bucket
  | [], t, M, S, _, _, _, _, _, _, _, _ => ⟨t, rfl, S, rfl⟩
  | .reserve n :: cs, _, _, _, _, _, _, _, hr, _, _, _ => absurd (List.mem_cons_self ..) (hr n)
  | .set k v :: cs, t, M, ⟨w, s, home, A⟩, hbb, hmb, hs, he, hr, hu, hsz, hmin => by
    obtain ⟨hk, hv⟩ := hs k v (List.mem_cons_self ..)
    have e1 : sets (.set k v :: cs) = sets cs + 1 := by simp [sets]
    have e2 : erases (.set k v :: cs) = erases cs := by simp [erases]
    rw [e1] at hu hsz hmin
    rw [e2] at hmin
    obtain ⟨t1, p1, w1, ⟨k1, k2, k3, k4⟩, hA1, u1, _, gr⟩ := put_spec G w A (show t.used < t.bucket by omega) hk hv
    have hu1 : t1.used ≤ t.used + 1 := by rw [u1]; split <;> omega
    have hs1 : t.size ≤ t1.size ∧ t1.size ≤ t.size + 1 := by
      rcases gr with ⟨h, _⟩ | ⟨h, _⟩
      · omega
      · rw [Nat.mod_eq_of_lt (by omega)] at h
        omega
    obtain ⟨t2, c1, S2, b2⟩ := quiet_spec G d cs t1 (upd M k v) ⟨w1, hA1⟩ (by omega) (by omega) (fun k' v' h => hs k' v' (List.mem_cons_of_mem _ h))
      (fun k' h => he k' (List.mem_cons_of_mem _ h)) (fun n h => hr n (List.mem_cons_of_mem _ h)) (by omega) (by omega) (by omega)
    refine ⟨t2, ?_, ?_, by omega⟩
    · have hc : call P (d + 1) t (.set k v) = some t1 := by
        show setD P false (d + 1) t k v = some t1
        have hf : t.filled = false := by simp [Tab.filled]; omega
        unfold setD
        rw [hf]
        exact p1
      unfold calls
      rw [List.foldlM_cons, hc]
      exact c1
    · refine Eq.mp ?_ S2
      congr 1
      funext x
      rw [lastSet_cons, Option.or_assoc]
      congr 1
      unfold upd
      simp only [Call.gives]
      by_cases h : k = x
      · rw [if_pos h, if_pos h.symm]; rfl
      · rw [if_neg h, if_neg (fun h' => h h'.symm)]; rfl
  | .erase k :: cs, t, M, ⟨w, s, home, A⟩, hbb, hmb, hs, he, hr, hu, hsz, hmin => by
    have hk := he k (List.mem_cons_self ..)
    have e1 : sets (.erase k :: cs) = sets cs := by simp [sets]
    have e2 : erases (.erase k :: cs) = erases cs + 1 := by simp [erases]
    rw [e1] at hu hsz hmin
    rw [e2] at hmin
    obtain ⟨t1, p1, h1⟩ := eraseIn_spec G w A hk hbb
    have h1 : Safe P kb vw t1 M ∧ t1.bucketBits = t.bucketBits ∧ t1.bucket = t.bucket ∧ t1.maxSize = t.maxSize ∧ t1.minSize = t.minSize ∧ t1.used = t.used ∧
        t1.size ≤ t.size ∧ t.size ≤ t1.size + 1 := by
      rcases h1 with rfl | ⟨w1, A1, ⟨k1, k2, k3, k4⟩, u1, z1, _⟩
      · exact ⟨⟨w, s, home, A⟩, rfl, rfl, rfl, rfl, rfl, Nat.le_refl _, Nat.le_succ _⟩
      · refine ⟨⟨w1, s, home, A1⟩, k2, k1, k3, k4, u1, ?_⟩
        have : t.size + 2 ^ 64 - 1 = t.size - 1 + 2 ^ 64 := by omega
        rw [this, Nat.add_mod_right, Nat.mod_eq_of_lt (by omega)] at z1
        omega
    obtain ⟨S1, q1, q2, q3, q4, q5, q6, q7⟩ := h1
    obtain ⟨t2, c1, S2, b2⟩ := quiet_spec G d cs t1 M S1 (by omega) (by omega) (fun k' v' h => hs k' v' (List.mem_cons_of_mem _ h))
      (fun k' h => he k' (List.mem_cons_of_mem _ h)) (fun n h => hr n (List.mem_cons_of_mem _ h)) (by omega) (by omega) (by omega)
    refine ⟨t2, ?_, ?_, by omega⟩
    · have hc : call P (d + 1) t (.erase k) = some t1 := by
        show t.eraseD P false (d + 1) k = some t1
        unfold Tab.eraseD
        rw [if_neg (by omega)]
        exact p1
      unfold calls
      rw [List.foldlM_cons, hc]
      exact c1
    · refine Eq.mp ?_ S2
      congr 1
      funext x
      rw [lastSet_cons]
      simp [Call.gives]

/-- C45: after a history of `set` and `reserve`, any mixture of `set` and `erase` that neither fills the table nor brings the number of keys to the bound where `erase`
copies the table returns, leaves the number of buckets as it is, and `get` gives for every key the last value that was set, whether the key was erased or not.
Missing: the erased key is still there, which contradicts C45 (`C45_erase_refuted`), and histories in which the table is copied (`C45_other_key_lost`). -/
theorem C45_quiet_partial (P : Par) (kb vw b d : Nat) (ops : List Op) (cs : List Call)
    (hash : ∀ x, x < 2 ^ kb → ∃ y, y < 2 ^ kb ∧ P.hash kb x = some y ∧ P.ihash kb y = some x)
    (ihash : ∀ y, y < 2 ^ kb → ∃ x, x < 2 ^ kb ∧ P.ihash kb y = some x ∧ P.hash kb x = some y)
    (h1 : 1 ≤ P.load) (h99 : P.load ≤ 99) (hroom : 100 ≤ 2 ^ b * P.load) (hb : b < 57) (hkb : kb ≤ 60) (hkb' : kb ≤ 59 + b)
    (hv1 : 1 ≤ vw) (hv63 : vw ≤ 63) (hv : P.vbits = vw ∨ P.vbits = 0) (hlen : ops.length ≤ 2 ^ 55)
    (hset : ∀ k v, Op.set k v ∈ ops → k < 2 ^ kb ∧ v < 2 ^ vw) (hres : ∀ n, Op.reserve n ∈ ops → n ≤ 2 ^ 56)
    (cset : ∀ k v, Call.set k v ∈ cs → k < 2 ^ kb ∧ v < 2 ^ vw) (cerase : ∀ k, Call.erase k ∈ cs → k < 2 ^ kb) (cres : ∀ n, Call.reserve n ∉ cs) :
    ∃ t t', start P kb (2 ^ b) vw = some t ∧ run P t ops = some t' ∧
      (keyCount ops + sets cs ≤ t'.bucket * P.load / 100 →
        (t'.bucket * (P.load - 1) / 400 + 1 + erases cs ≤ keyCount ops ∨ (keyCount ops + sets cs < t'.bucket * (P.load - 1) / 400 + 1 ∧ erases cs ≤ keyCount ops)) →
        ∃ t'', calls P (d + 1) t' cs = some t'' ∧ t''.bucket = t'.bucket ∧
          ∀ x, x < 2 ^ kb → t''.get P x = some (((lastSet cs x).or (lastOf ops x)).isSome, ((lastSet cs x).or (lastOf ops x)).getD 0)) := by
  have G : Good P kb := ⟨hash, ihash⟩
  have V : Width P vw := ⟨hv1, hv63, hv⟩
  obtain ⟨t, e, I, hu⟩ := start_spec V (b := b) (by omega) hkb' hroom (fits_of hb h99)
  obtain ⟨t', e', I', hu'⟩ := run_spec G V h1 (by omega) I hu ops hlen (by
    intro o ho
    cases o with
    | set k v => exact hset k v ho
    | reserve n => exact ⟨hres n ho, hkb, h99⟩)
  refine ⟨t, t', e, e', fun c1 c2 => ?_⟩
  have hbb : t'.bucketBits ≠ 0 := by
    intro h0
    have hB := I'.wt.bucket
    rw [h0] at hB
    have := I'.room
    rw [hB] at this
    omega
  have hmb : t'.maxSize ≤ t'.bucket := by
    rw [I'.maxSize]
    have : t'.bucket * P.load ≤ t'.bucket * 100 := Nat.mul_le_mul_left _ (by omega)
    omega
  have hsmall := I'.small
  have hsz := I'.size
  rw [← I'.maxSize] at c1
  rw [← I'.minSize] at c2
  obtain ⟨t'', c, ⟨w, s, home, A⟩, hbk⟩ := quiet_spec G d cs t' (lastOf ops) ⟨I'.wt, I'.has⟩ hbb hmb cset cerase cres (by omega) (by omega) (by omega)
  exact ⟨t'', c, hbk, fun x hx => by rw [get_spec G w A hx]⟩

/-- Calls that meet the hypotheses: three keys, then two erasures around a `set`, with eight buckets. -/
example : ∃ t t', start (defaultPar 5) 6 (2 ^ 3) 5 = some t ∧ run (defaultPar 5) t [.set 3 1, .set 7 2, .set 9 4] = some t' ∧
    (3 + 1 ≤ t'.bucket * 50 / 100 → (t'.bucket * 49 / 400 + 1 + 2 ≤ 3 ∨ (3 + 1 < t'.bucket * 49 / 400 + 1 ∧ 2 ≤ 3)) → ∃ t'', calls (defaultPar 5) 3 t' [.erase 3, .set 7 8, .erase 20] = some t'' ∧
      t''.bucket = t'.bucket ∧ ∀ x, x < 2 ^ 6 → t''.get (defaultPar 5) x = some (((lastSet [.erase 3, .set 7 8, .erase 20] x).or (lastOf [.set 3 1, .set 7 2, .set 9 4] x)).isSome,
        ((lastSet [.erase 3, .set 7 8, .erase 20] x).or (lastOf [.set 3 1, .set 7 2, .set 9 4] x)).getD 0)) :=
  C45_quiet_partial (defaultPar 5) 6 5 3 2 [.set 3 1, .set 7 2, .set 9 4] [.erase 3, .set 7 8, .erase 20]
    (fun x hx => by obtain ⟨y, h1, h2, h3⟩ := Hash.C43_ihash_hash 6 x (by omega) hx; exact ⟨y, h2, h1, h3⟩)
    (fun y hy => by obtain ⟨x, h1, h2, h3⟩ := Hash.C43_hash_ihash 6 y (by omega) hy; exact ⟨x, h2, h1, h3⟩)
    (by decide) (by decide) (by decide) (by decide) (by decide) (by decide) (by decide) (by decide) (.inl rfl) (by decide)
    (by intro k v h; simp at h; omega) (by intro n h; simp at h) (by intro k v h; simp at h; omega) (by intro k h; simp at h; omega) (by intro n h; simp at h)

/-- The bucket number of that table, so that the two bounds in the example above hold. -/
example : ((start (defaultPar 5) 6 8 5).bind (fun t => run (defaultPar 5) t [.set 3 1, .set 7 2, .set 9 4])).map (·.bucket) = some 8 ∧
    3 + 1 ≤ 8 * 50 / 100 ∧ 8 * 49 / 400 + 1 + 2 ≤ 3 := by decide +kernel

end Verif.CHT
