/-
Property theorem C45 (erase of CHT).
-/
import Verif.CHT.Erase

namespace Verif.CHT
open Verif.Bits

/-- After any history of `set` and `reserve`, `erase` of any key returns, and `get` gives for every key what it gave before. -/
theorem get_after_erase (P : Par) (kb vw b : Nat) (ops : List Op)
    (hash : ∀ x, x < 2 ^ kb → ∃ y, y < 2 ^ kb ∧ P.hash kb x = some y ∧ P.ihash kb y = some x)
    (ihash : ∀ y, y < 2 ^ kb → ∃ x, x < 2 ^ kb ∧ P.ihash kb y = some x ∧ P.hash kb x = some y)
    (h1 : 1 ≤ P.load) (h99 : P.load ≤ 99) (hroom : 100 ≤ 2 ^ b * P.load) (hb : b < 57) (hkb : kb ≤ 60) (hkb' : kb ≤ 59 + b)
    (hv1 : 1 ≤ vw) (hv63 : vw ≤ 63) (hv : P.vbits = vw ∨ P.vbits = 0) (hlen : ops.length ≤ 2 ^ 55)
    (hset : ∀ k v, Op.set k v ∈ ops → k < 2 ^ kb ∧ v < 2 ^ vw) (hres : ∀ n, Op.reserve n ∈ ops → n ≤ 2 ^ 56) (k : Nat) (hk : k < 2 ^ kb) :
    ∃ t t' t'', start P kb (2 ^ b) vw = some t ∧ run P t ops = some t' ∧ t'.erase P false k = some t'' ∧ t''.size ≤ keyCount ops ∧
      ∀ x, x < 2 ^ kb → t''.get P x = some ((lastOf ops x).isSome, (lastOf ops x).getD 0) := by
  have G : Good P kb := ⟨hash, ihash⟩
  have V : Width P vw := ⟨hv1, hv63, hv⟩
  obtain ⟨t, e, I, hu⟩ := start_spec V (b := b) (by omega) hkb' hroom (fits_of hb h99)
  obtain ⟨t', e', I', hu'⟩ := run_spec G V h1 (by omega) I hu ops hlen (by
    intro o ho
    cases o with
    | set k v => exact hset k v ho
    | reserve n => exact ⟨hres n ho, hkb, h99⟩)
  have hcnt := keyCount_le ops
  obtain ⟨t1, t'', e'', I1, O, hsz⟩ := erase_spec G V h1 h99 hkb I' (by omega) hk
  obtain ⟨s, home, A⟩ := I1.has
  refine ⟨t, t', t'', e, e', e'', by rw [← hu', ← I'.size]; exact hsz, ?_⟩
  intro x hx
  rw [O.get P x, get_spec G I1.wt A hx]
  intro y
  have w := I1.wt
  rw [w.mask, w.bucket, Nat.and_two_pow_sub_one_eq_mod]
  exact Nat.mod_lt _ (Nat.two_pow_pos _)

/-- C45 fails for every key and every history without `erase`: a key that is present is reported with its value after it was erased. -/
theorem C45_erase_refuted (P : Par) (kb vw b : Nat) (ops : List Op)
    (hash : ∀ x, x < 2 ^ kb → ∃ y, y < 2 ^ kb ∧ P.hash kb x = some y ∧ P.ihash kb y = some x)
    (ihash : ∀ y, y < 2 ^ kb → ∃ x, x < 2 ^ kb ∧ P.ihash kb y = some x ∧ P.hash kb x = some y)
    (h1 : 1 ≤ P.load) (h99 : P.load ≤ 99) (hroom : 100 ≤ 2 ^ b * P.load) (hb : b < 57) (hkb : kb ≤ 60) (hkb' : kb ≤ 59 + b)
    (hv1 : 1 ≤ vw) (hv63 : vw ≤ 63) (hv : P.vbits = vw ∨ P.vbits = 0) (hlen : ops.length ≤ 2 ^ 55)
    (hset : ∀ k v, Op.set k v ∈ ops → k < 2 ^ kb ∧ v < 2 ^ vw) (hres : ∀ n, Op.reserve n ∈ ops → n ≤ 2 ^ 56) (k v : Nat) (hk : k < 2 ^ kb)
    (hkv : lastOf ops k = some v) :
    ∃ t t' t'', start P kb (2 ^ b) vw = some t ∧ run P t ops = some t' ∧ t'.erase P false k = some t'' ∧ t''.get P k = some (true, v) := by
  obtain ⟨t, t', t'', e1, e2, e3, _, h⟩ := get_after_erase P kb vw b ops hash ihash h1 h99 hroom hb hkb hkb' hv1 hv63 hv hlen hset hres k hk
  exact ⟨t, t', t'', e1, e2, e3, by rw [h k hk, hkv]; rfl⟩

/-- C45, the part that holds: right after one `erase` that follows a history without `erase`, `get` gives for every other key the last value. Missing: the erased key
is still there (`C45_erase_refuted`), and other keys may be lost later (`C45_other_key_lost`). -/
theorem C45_others_partial (P : Par) (kb vw b : Nat) (ops : List Op)
    (hash : ∀ x, x < 2 ^ kb → ∃ y, y < 2 ^ kb ∧ P.hash kb x = some y ∧ P.ihash kb y = some x)
    (ihash : ∀ y, y < 2 ^ kb → ∃ x, x < 2 ^ kb ∧ P.ihash kb y = some x ∧ P.hash kb x = some y)
    (h1 : 1 ≤ P.load) (h99 : P.load ≤ 99) (hroom : 100 ≤ 2 ^ b * P.load) (hb : b < 57) (hkb : kb ≤ 60) (hkb' : kb ≤ 59 + b)
    (hv1 : 1 ≤ vw) (hv63 : vw ≤ 63) (hv : P.vbits = vw ∨ P.vbits = 0) (hlen : ops.length ≤ 2 ^ 55)
    (hset : ∀ k v, Op.set k v ∈ ops → k < 2 ^ kb ∧ v < 2 ^ vw) (hres : ∀ n, Op.reserve n ∈ ops → n ≤ 2 ^ 56) (k : Nat) (hk : k < 2 ^ kb) :
    ∃ t t' t'', start P kb (2 ^ b) vw = some t ∧ run P t ops = some t' ∧ t'.erase P false k = some t'' ∧
      (∀ x v, x < 2 ^ kb → x ≠ k → lastOf ops x = some v → t''.get P x = some (true, v)) ∧
      (∀ x, x < 2 ^ kb → x ≠ k → lastOf ops x = none → t''.get P x = some (false, 0)) := by
  obtain ⟨t, t', t'', e1, e2, e3, _, h⟩ := get_after_erase P kb vw b ops hash ihash h1 h99 hroom hb hkb hkb' hv1 hv63 hv hlen hset hres k hk
  exact ⟨t, t', t'', e1, e2, e3, fun x v hx _ hl => by rw [h x hx, hl]; rfl, fun x hx _ hl => by rw [h x hx, hl]; rfl⟩

/-- A history that meets the hypotheses, with the default parameters. -/
example : ∃ t t' t'', start (defaultPar 5) 6 8 5 = some t ∧ run (defaultPar 5) t [.set 3 1, .set 7 2, .set 3 4] = some t' ∧
    t'.erase (defaultPar 5) false 3 = some t'' ∧ t''.get (defaultPar 5) 3 = some (true, 4) :=
  C45_erase_refuted (defaultPar 5) 6 5 3 [.set 3 1, .set 7 2, .set 3 4]
    (fun x hx => by obtain ⟨y, h1, h2, h3⟩ := Hash.C43_ihash_hash 6 x (by omega) hx; exact ⟨y, h2, h1, h3⟩)
    (fun y hy => by obtain ⟨x, h1, h2, h3⟩ := Hash.C43_hash_ihash 6 y (by omega) hy; exact ⟨x, h2, h1, h3⟩)
    (by decide) (by decide) (by decide) (by decide) (by decide) (by decide) (by decide) (by decide) (.inl rfl) (by decide)
    (by
      intro k v h
      simp at h
      omega)
    (by intro n h; simp at h) 3 4 (by decide) rfl

/-- C45: erasing a key that is not there can lose another one. With the default parameters: after `set(3, 1)`, `erase(22)`, `reserve(10)` the key 3 is gone. -/
theorem C45_other_key_lost : ∃ t t1 t2 t3, start (defaultPar 5) 6 8 5 = some t ∧ t.set (defaultPar 5) false 3 1 = some t1 ∧
    t1.erase (defaultPar 5) false 22 = some t2 ∧ t2.reserve (defaultPar 5) false 10 = some t3 ∧ t3.get (defaultPar 5) 3 = some (false, 0) := by
  have h : ((start (defaultPar 5) 6 8 5).bind (fun t => (t.set (defaultPar 5) false 3 1).bind (fun t1 => (t1.erase (defaultPar 5) false 22).bind (fun t2 =>
      (t2.reserve (defaultPar 5) false 10).bind (fun t3 => t3.get (defaultPar 5) 3))))) = some (false, 0) := by decide +kernel
  obtain ⟨t, e1, h⟩ := Option.bind_eq_some_iff.1 h
  obtain ⟨t1, e2, h⟩ := Option.bind_eq_some_iff.1 h
  obtain ⟨t2, e3, h⟩ := Option.bind_eq_some_iff.1 h
  obtain ⟨t3, e4, h⟩ := Option.bind_eq_some_iff.1 h
  exact ⟨t, t1, t2, t3, e1, e2, e3, e4, h⟩

/-- C45: on a table of one bucket `erase` divides by zero (unless it first makes the table larger). -/
theorem C45_one_bucket_ub (P : Par) (strict : Bool) (t : Tab) (k : Nat) (h0 : t.bucketBits = 0) (hs : t.size ≠ t.minSize) : t.erase P strict k = none := by
  unfold Tab.erase Tab.eraseD Tab.eraseIn Tab.eraseQuo
  simp only [if_neg hs, Option.bind_some, if_pos h0]
  cases P.hash t.keyBits k <;> rfl

example : (new (defaultPar 5) false 6 1).map (fun t => (t.bucketBits, decide (t.size ≠ t.minSize))) = some (0, true) := by decide +kernel

end Verif.CHT
