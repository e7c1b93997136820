/-
Property theorems C116 (CHT: the cost of growth).
-/
import Verif.CHT.Amort

namespace Verif.CHT
open Verif.IArr (M acc Runs Counts)

variable {P : Par} {kb vw b : Nat}

/-- C116: after any history of `set` and `reserve`, a call of `set` evaluates the hash once, and `size()` more times if the load is reached. -/
theorem C116_set {ops : List Op} (F : Fine P kb vw b ops) (k v : Nat) (hk : k < 2 ^ kb) (hv : v < 2 ^ vw) :
    ∃ t t' t'', start P kb (2 ^ b) vw = some t ∧ run P t ops = some t' ∧ t'.set P false k v = some t'' ∧ t'.size = keyCount ops ∧
      Runs (t'.setC P false k v) t'' (1 + if keyCount ops = t'.bucket * P.load / 100 then keyCount ops else 0) := by
  obtain ⟨t, t', e, e', I, hu, hs, hb⟩ := F.run
  obtain ⟨t'', e'', _⟩ := setD_spec F.good F.width F.load1 (by have := F.load99; omega) I (by omega) hk hv 1
  have hr := setD_runs F.good F.width F.load1 (by have := F.load99; omega) I (by omega) hk hv 1 e''
  rw [I.maxSize, hu] at hr
  exact ⟨t, t', t'', e, e', e'', hs, hr⟩

example : ∃ t t' t'', start (defaultPar 5) 8 8 5 = some t ∧ run (defaultPar 5) t [.set 1 1, .set 7 2, .set 200 3, .set 9 4] = some t' ∧
    t'.set (defaultPar 5) false 33 5 = some t'' ∧ Runs (t'.setC (defaultPar 5) false 33 5) t'' 5 := by
  have F : Fine (defaultPar 5) 8 5 3 [.set 1 1, .set 7 2, .set 200 3, .set 9 4] := fine_default 8 5 _ (by decide) (by decide) (by decide) (by decide)
    (by simp only [List.mem_cons, Op.set.injEq, List.not_mem_nil, or_false]; omega) (by simp)
  obtain ⟨t, t', t'', e1, e2, e3, hs, hr⟩ := C116_set F 33 5 (by decide) (by decide)
  have hb : t'.bucket = 8 := by
    have h : ((start (defaultPar 5) 8 8 5).bind (run (defaultPar 5) · [.set 1 1, .set 7 2, .set 200 3, .set 9 4])).map Tab.bucket = some 8 := by decide +kernel
    rw [show start (defaultPar 5) 8 8 5 = some t from e1] at h
    simpa [e2] using h
  refine ⟨t, t', t'', e1, e2, e3, ?_⟩
  rw [hb] at hr
  exact hr.cast (by decide +kernel)

/-- The calls of a history of writes. -/
def toOps (l : List (Nat × Nat)) : List Op := l.map (fun o => .set o.1 o.2)

theorem setsC_append (t : Tab) : ∀ (l r : List (Nat × Nat)), setsC P t (l ++ r) = setsC P t l >>= fun t => setsC P t r
  | [], r => by simp [setsC]
  | o :: l, r => by
    simp only [List.cons_append, setsC, bind_assoc]
    congr 1
    funext t
    exact setsC_append t l r

theorem maxReserve_toOps : ∀ l, maxReserve (toOps l) = 0
  | [] => rfl
  | _ :: l => maxReserve_toOps l

theorem sets_aux (t : Tab) : ∀ l : List (Nat × Nat), Fine P kb vw b (toOps l) → start P kb (2 ^ b) vw = some t →
    ∃ t' c, run P t (toOps l) = some t' ∧ Runs (setsC P t l) t' (l.length + c) ∧ 2 ^ b ≤ t'.bucket ∧ 100 * c + 2 ^ b * P.load ≤ t'.bucket * P.load := by
  intro l
  induction l using List.reverseRecOn with
  | nil =>
    intro _ e
    exact ⟨t, 0, rfl, Runs.pure t, by rw [start_bucket e], by rw [start_bucket e]; omega⟩
  | append_singleton l o ih =>
    intro F e
    have hto : toOps (l ++ [o]) = toOps l ++ [.set o.1 o.2] := by simp [toOps]
    rw [hto] at F ⊢
    obtain ⟨t1, c, e1, r1, hb, hc⟩ := ih F.prefix e
    obtain ⟨hk, hv⟩ := F.set o.1 o.2 (by simp)
    obtain ⟨_, _, t2, x1, x2, e2, _, r2⟩ := C116_set F.prefix o.1 o.2 hk hv
    obtain ⟨_, _, _, y1, y2, y3, hB⟩ := C92_set F.prefix o.1 o.2 hk hv
    rw [e] at x1 y1
    cases x1
    cases y1
    rw [e1] at x2 y2
    cases x2
    cases y2
    rw [e2] at y3
    cases y3
    refine ⟨t2, c + (if keyCount (toOps l) = t1.bucket * P.load / 100 then keyCount (toOps l) else 0), ?_, ?_, ?_, ?_⟩
    · rw [run_append, e1]
      simp [run, e2]
    · rw [setsC_append, List.length_append, List.length_singleton]
      exact (r1.bind (r2.bind (Runs.pure t2))).cast (by omega)
    · rw [hB]
      split <;> omega
    · rw [hB]
      split
      · rw [Nat.mul_assoc]
        omega
      · omega

/-- C116: a history of `set` on a new table evaluates the hash once for each call and at most twice more for each different key, however the calls are ordered;
as long as the number of slots is the first one, not more than once for each call. -/
theorem C116_history (l : List (Nat × Nat)) (F : Fine P kb vw b (toOps l)) :
    ∃ t t' c, start P kb (2 ^ b) vw = some t ∧ run P t (toOps l) = some t' ∧ Runs (setsC P t l) t' (l.length + c) ∧ c ≤ 2 * (keyCount (toOps l) + 1) ∧
      (t'.bucket = 2 ^ b → c = 0) ∧ 100 * c ≤ (t'.bucket - 2 ^ b) * P.load := by
  obtain ⟨t, t', e, e', hs⟩ := C92_space F
  obtain ⟨t2, c, e2, r, hb, hc⟩ := sets_aux t l F e
  rw [e'] at e2
  cases e2
  rw [maxReserve_toOps] at hs
  refine ⟨t, t', c, e, e', r, ?_, ?_, ?_⟩
  · have : 2 ^ b * P.load ≤ t'.bucket * P.load := Nat.mul_le_mul_right _ hb
    omega
  · intro h
    rw [h] at hc
    omega
  · rw [Nat.sub_mul]
    omega

/-- The keys from 0 to 19, each written twice. -/
def twice : List (Nat × Nat) := (List.range 40).map (fun k => (k / 2, k % 32))

theorem twice_fine : Fine (defaultPar 5) 8 5 3 (toOps twice) := by
  refine fine_default 8 5 _ (by decide) (by decide) (by decide) (by decide) ?_ ?_
  · intro k v h
    simp only [toOps, twice, List.map_map, List.mem_map, List.mem_range, Function.comp, Op.set.injEq] at h
    obtain ⟨x, hx, rfl, rfl⟩ := h
    exact ⟨by omega, by omega⟩
  · intro n h
    simp [toOps] at h

example : ∃ t t' c, start (defaultPar 5) 8 8 5 = some t ∧ Runs (setsC (defaultPar 5) t twice) t' (40 + c) ∧ c ≤ 42 := by
  obtain ⟨t, t', c, e, _, r, h, _⟩ := C116_history twice twice_fine
  exact ⟨t, t', c, e, r, Nat.le_trans h (by decide +kernel)⟩

-- 28 elements are moved, when 4, 8 and 16 are present
example : ((start (defaultPar 5) 8 8 5).bind (fun t => (setsC (defaultPar 5) t twice 0).map Prod.snd)) = some (40 + 28) := by decide +kernel

end Verif.CHT
