/-
Property theorems C117 (CDRWVector: the elements moved by reallocation).
-/
import Verif.CDRW.PropsVec
import Verif.IArr.Count

namespace Verif.CDRW
open Verif.IArr (M acc Runs Counts)

/-- The loop of `_allocate`, CDRWArray.hpp:126-127; each element written to the new array counts. -/
def copyC (src : Arr) : (n i : Nat) → Arr → M Arr
  | 0, _, dst => pure dst
  | n + 1, i, dst => do
    let x ← (src.get i : M Nat)
    let dst ← acc (dst.set i x)
    copyC src n (i + 1) dst

/-- `_allocate`, CDRWArray.hpp:122-130. -/
def Vec.allocateC (v : Vec) (newCap : Nat) : M Vec := do
  let a ← (new false newCap : M Arr)
  let a ← copyC v.arr v.size 0 a
  pure { v with arr := a, cap := newCap }

/-- The calls with the elements moved, CDRWArray.hpp:77-117. -/
def VOp.runC (v : Vec) : VOp → M Vec
  | .push x => do
    let v ← if v.size = v.cap then v.allocateC (v.size * 2) else pure v
    (({ v with size := v.size + 1 } : Vec).set (v.size + 1 - 1) x : M Vec)
  | .pop =>
    if v.size = 0 then pure v
    else do
      let v ← if v.size * 3 < v.cap then v.allocateC (v.size * 2) else pure v
      pure { v with size := v.size - 1 }
  | .set i x => (v.set i x : M Vec)
  | .resize n => do
    let v ← if n > v.cap then v.allocateC (max n (v.cap * 2)) else pure v
    pure { v with size := n }
  | .reserve n => if n ≤ v.cap then pure v else v.allocateC (max n (v.cap * 2))
  | .shrink => if v.size = v.cap then pure v else v.allocateC v.size
  | .clear => pure v.clear

/-- Calls one after the other. -/
def runsC : Vec → List VOp → M Vec
  | v, [] => pure v
  | v, o :: ops => do
    let v ← o.runC v
    runsC v ops

/-- The size after a call. -/
def VOp.len (s : Nat) : VOp → Nat
  | .push _ => s + 1
  | .pop => s - 1
  | .resize n => n
  | .clear => 0
  | _ => s

/-- The number of elements a call appends or removes one by one; `clear` is free. -/
def VOp.moved (s : Nat) : VOp → Nat
  | .push _ => 1
  | .pop => 1
  | .resize n => (n - s) + (s - n)
  | _ => 0

/-- The elements appended or removed by a history that starts with `s` elements. -/
def moved : Nat → List VOp → Nat
  | _, [] => 0
  | s, o :: ops => o.moved s + moved (o.len s) ops

/-- The calls that do not ask for a capacity. -/
def VOp.plain : VOp → Bool
  | .reserve _ => false
  | .shrink => false
  | _ => true

theorem lift_runs {β : Type} {r : Option β} {x : β} (h : r = some x) : Runs (r : M β) x 0 := h ▸ Runs.lift x

theorem acc_runs {β : Type} {r : Option β} {x : β} (h : r = some x) : Runs (acc r) x 1 := h ▸ Runs.acc x

theorem copy_runs {src : Arr} : ∀ {n i : Nat} {dst r : Arr}, copy src n i dst = some r → Runs (copyC src n i dst) r n
  | 0, i, dst, r, e => by
    cases e
    exact Runs.pure _
  | n + 1, i, dst, r, e => by
    simp only [copy, Option.bind_eq_bind, Option.bind_eq_some_iff] at e
    obtain ⟨x, e1, dst', e2, e3⟩ := e
    exact ((lift_runs e1).bind ((acc_runs e2).bind (copy_runs e3))).cast (by omega)

theorem allocate_runs {v v' : Vec} {c : Nat} (e : v.allocate c = some v') : Runs (v.allocateC c) v' v.size ∧ v'.size = v.size ∧ v'.cap = c := by
  simp only [Vec.allocate, Option.bind_eq_bind, Option.bind_eq_some_iff, Option.pure_def, Option.some.injEq] at e
  obtain ⟨a, e1, a', e2, rfl⟩ := e
  refine ⟨((lift_runs e1).bind ((copy_runs e2).bind (Runs.pure _) (f := fun a => pure { v with arr := a, cap := c }))).cast ?_, rfl, rfl⟩
  omega

/-- The credit that pays for the next reallocation. -/
def credit (s c : Nat) : Nat := if c ≤ 2 * s then 2 * s - c else min (c - 2 * s) s

/-- One call: the elements it moves, and the credit it leaves. -/
theorem step_runs {v v' : Vec} {o : VOp} (hp : o.plain = true) (h1c : 1 ≤ v.cap) (hc : v.size ≤ v.cap) (e : o.run v = some v') :
    ∃ k, Runs (o.runC v) v' k ∧ v'.size = o.len v.size ∧ 1 ≤ v'.cap ∧ v'.size ≤ v'.cap ∧ k + credit v'.size v'.cap ≤ credit v.size v.cap + 2 * o.moved v.size := by
  cases o with
  | push x =>
    simp only [VOp.run, Vec.push, Vec.set, Option.bind_eq_bind, Option.bind_eq_some_iff, Option.pure_def, Option.some.injEq] at e
    obtain ⟨w, e1, a, e2, rfl⟩ := e
    have hset : Runs ((({ w with size := w.size + 1 } : Vec).set (w.size + 1 - 1) x : Option Vec) : M Vec) { w with size := w.size + 1, arr := a } 0 :=
      lift_runs (by simp only [Vec.set, e2, Option.bind_eq_bind, Option.bind_some, Option.pure_def])
    by_cases h : v.size = v.cap
    · rw [if_pos h] at e1
      obtain ⟨r, h1, h2⟩ := allocate_runs e1
      refine ⟨v.size, ?_, by simp only [VOp.len, h1], by simp only [h2]; omega, by simp only [h1, h2]; omega, ?_⟩
      · rw [VOp.runC, if_pos h]
        exact (r.bind hset).cast (Nat.add_zero _)
      · simp only [credit, VOp.moved]
        rw [h1, h2]
        split <;> split <;> omega
    · rw [if_neg h] at e1
      cases e1
      refine ⟨0, ?_, rfl, h1c, by simp only; omega, ?_⟩
      · rw [VOp.runC, if_neg h]
        exact ((Runs.pure _).bind hset).cast (by omega)
      · simp only [credit, VOp.moved]
        split <;> split <;> omega
  | pop =>
    simp only [VOp.run, Vec.pop] at e
    by_cases h0 : v.size = 0
    · rw [if_pos h0] at e
      cases e
      refine ⟨0, ?_, by simp [VOp.len, h0], h1c, hc, by omega⟩
      rw [VOp.runC, if_pos h0]
      exact Runs.pure _
    · rw [if_neg h0] at e
      obtain ⟨w, e1, rfl⟩ := Option.map_eq_some_iff.1 e
      by_cases h : v.size * 3 < v.cap
      · rw [if_pos h] at e1
        obtain ⟨r, h1, h2⟩ := allocate_runs e1
        refine ⟨v.size, ?_, by simp only [VOp.len, h1], by simp only [h2]; omega, by simp only [h1, h2]; omega, ?_⟩
        · rw [VOp.runC, if_neg h0, if_pos h]
          exact (r.bind (Runs.pure _) (f := fun v => pure { v with size := v.size - 1 })).cast (Nat.add_zero _)
        · simp only [credit, VOp.moved]
          rw [h1, h2]
          split <;> split <;> omega
      · rw [if_neg h] at e1
        cases e1
        refine ⟨0, ?_, rfl, h1c, by simp only; omega, ?_⟩
        · rw [VOp.runC, if_neg h0, if_neg h]
          exact (Runs.pure _).bind (Runs.pure _)
        · simp only [credit, VOp.moved]
          split <;> split <;> omega
  | set i x =>
    have e' := e
    simp only [VOp.run, Vec.set, Option.bind_eq_bind, Option.bind_eq_some_iff, Option.pure_def, Option.some.injEq] at e
    obtain ⟨a, _, rfl⟩ := e
    exact ⟨0, lift_runs e', rfl, h1c, hc, by simp only [VOp.moved]; omega⟩
  | resize n =>
    simp only [VOp.run, Vec.resize] at e
    obtain ⟨w, e1, rfl⟩ := Option.map_eq_some_iff.1 e
    by_cases h : n > v.cap
    · rw [if_pos h] at e1
      obtain ⟨r, h1, h2⟩ := allocate_runs e1
      refine ⟨v.size, ?_, rfl, by simp only [h2]; omega, by simp only [h2]; omega, ?_⟩
      · rw [VOp.runC, if_pos h]
        exact (r.bind (Runs.pure _) (f := fun v => pure { v with size := n })).cast (Nat.add_zero _)
      · simp only [credit, VOp.moved, h2]
        split <;> split <;> omega
    · rw [if_neg h] at e1
      cases e1
      refine ⟨0, ?_, rfl, h1c, by simp only; omega, ?_⟩
      · rw [VOp.runC, if_neg h]
        exact (Runs.pure _).bind (Runs.pure _)
      · simp only [credit, VOp.moved]
        split <;> split <;> omega
  | reserve n => simp [VOp.plain] at hp
  | shrink => simp [VOp.plain] at hp
  | clear =>
    cases e
    exact ⟨0, Runs.pure _, rfl, h1c, Nat.zero_le _, by simp [credit, VOp.moved, Vec.clear]⟩

theorem runs_runs : ∀ {ops : List VOp} {v v' : Vec}, (∀ o ∈ ops, o.plain = true) → 1 ≤ v.cap → v.size ≤ v.cap → runs v ops = some v' →
    ∃ k, Runs (runsC v ops) v' k ∧ k + credit v'.size v'.cap ≤ credit v.size v.cap + 2 * moved v.size ops
  | [], v, v', _, _, _, e => by
    cases e
    exact ⟨0, Runs.pure _, by simp [moved]⟩
  | o :: ops, v, v', hp, h0, hc, e => by
    obtain ⟨w, e1, e2⟩ := Option.bind_eq_some_iff.1 e
    obtain ⟨k, r1, h1, h0', h2, h3⟩ := step_runs (hp o (by simp)) h0 hc e1
    obtain ⟨k', r2, h4⟩ := runs_runs (fun o ho => hp o (by simp [ho])) h0' h2 e2
    refine ⟨k + k', r1.bind r2, ?_⟩
    rw [moved, ← h1]
    omega

/-- C117: a history of calls that do not ask for a capacity moves at most twice as many elements as it appends and removes, and once those of the start. -/
theorem C117_history (n : Nat) (hn : 1 ≤ n) (ops : List VOp) (hp : ∀ o ∈ ops, o.plain = true) (v v' : Vec) (e : newVec false n = some v) (e' : runs v ops = some v') :
    ∃ k, Runs (runsC v ops) v' k ∧ k ≤ n + 2 * moved n ops := by
  simp only [newVec, Option.bind_eq_bind, Option.bind_eq_some_iff, Option.pure_def, Option.some.injEq] at e
  obtain ⟨a, _, rfl⟩ := e
  obtain ⟨k, r, h⟩ := runs_runs hp hn (Nat.le_refl _) e'
  refine ⟨k, r, ?_⟩
  have h2 : credit n n = n := by
    simp only [credit]
    split <;> omega
  simp only [h2] at h
  omega

/-- A history for `C117_history`; it moves 1 + 2 + 4 + 3 elements. -/
example : ∀ v v', newVec false 1 = some v → runs v [.push 5, .push 6, .push 7, .push 8, .resize 3, .set 2 7, .resize 2, .pop] = some v' →
    ∃ k, Runs (runsC v [.push 5, .push 6, .push 7, .push 8, .resize 3, .set 2 7, .resize 2, .pop]) v' k ∧ k ≤ 1 + 2 * 8 :=
  fun v v' => C117_history 1 (by decide) _ (by decide) v v'

/-- C117: the calls of C68 return, so for them the bound holds without further conditions. -/
theorem C117_returns (n : Nat) (ops : List VOp) (h0 : 1 ≤ n) (hn : n ≤ 2 ^ 53) (hlen : ops.length ≤ 2 ^ 53) (hok : allOk ⟨List.replicate n 0, [], []⟩ ops)
    (hp : ∀ o ∈ ops, o.plain = true) : ∃ v v' k, newVec false n = some v ∧ runs v ops = some v' ∧ Runs (runsC v ops) v' k ∧ k ≤ n + 2 * moved n ops := by
  obtain ⟨v, v', e, e', _⟩ := C68_vector_partial n ops h0 hn hlen hok
  obtain ⟨k, r, h⟩ := C117_history n h0 ops hp v v' e e'
  exact ⟨v, v', k, e, e', r, h⟩

/-- A history for `C117_returns`. -/
example : ∃ v v' k, newVec false 1 = some v ∧ runs v [.push 5, .push 6, .push 2000, .pop, .push 1999, .set 0 9, .clear] = some v' ∧
    Runs (runsC v [.push 5, .push 6, .push 2000, .pop, .push 1999, .set 0 9, .clear]) v' k ∧ k ≤ 1 + 2 * 5 :=
  C117_returns 1 _ (by decide) (by decide) (by decide) (by simp [allOk, VOp.ok, VOp.eff]; decide) (by decide)

/-- C117: the elements moved by one call: all of them if the call reallocates, otherwise none. -/
theorem C117_call (v v' : Vec) (o : VOp) (e : o.run v = some v') :
    Runs (o.runC v) v' (match o with
      | .push _ => if v.size = v.cap then v.size else 0
      | .pop => if v.size * 3 < v.cap then v.size else 0
      | .resize n => if v.cap < n then v.size else 0
      | .reserve n => if v.cap < n then v.size else 0
      | .shrink => if v.size = v.cap then 0 else v.size
      | _ => 0) := by
  cases o with
  | push x =>
    simp only [VOp.run, Vec.push, Option.bind_eq_some_iff] at e
    obtain ⟨w, e1, e2⟩ := e
    by_cases h : v.size = v.cap
    · rw [if_pos h] at e1
      rw [VOp.runC, if_pos h]
      simp only [if_pos h]
      exact ((allocate_runs e1).1.bind (lift_runs e2)).cast (Nat.add_zero _)
    · rw [if_neg h] at e1
      cases e1
      rw [VOp.runC, if_neg h]
      simp only [if_neg h]
      exact (Runs.pure _).bind (lift_runs e2)
  | pop =>
    simp only [VOp.run, Vec.pop] at e
    by_cases h0 : v.size = 0
    · rw [if_pos h0] at e
      cases e
      rw [VOp.runC, if_pos h0]
      simp only [h0]
      split <;> exact Runs.pure _
    · rw [if_neg h0] at e
      obtain ⟨w, e1, rfl⟩ := Option.map_eq_some_iff.1 e
      by_cases h : v.size * 3 < v.cap
      · rw [if_pos h] at e1
        rw [VOp.runC, if_neg h0, if_pos h]
        simp only [if_pos h]
        exact ((allocate_runs e1).1.bind (Runs.pure _) (f := fun v => pure { v with size := v.size - 1 })).cast (Nat.add_zero _)
      · rw [if_neg h] at e1
        cases e1
        rw [VOp.runC, if_neg h0, if_neg h]
        simp only [if_neg h]
        exact (Runs.pure _).bind (Runs.pure _)
  | set i x => exact lift_runs e
  | resize n =>
    simp only [VOp.run, Vec.resize] at e
    obtain ⟨w, e1, rfl⟩ := Option.map_eq_some_iff.1 e
    by_cases h : v.cap < n
    · rw [if_pos h] at e1
      rw [VOp.runC, if_pos h]
      simp only [if_pos h]
      exact ((allocate_runs e1).1.bind (Runs.pure _) (f := fun v => pure { v with size := n })).cast (Nat.add_zero _)
    · rw [if_neg h] at e1
      cases e1
      rw [VOp.runC, if_neg h]
      simp only [if_neg h]
      exact (Runs.pure _).bind (Runs.pure _)
  | reserve n =>
    simp only [VOp.run, Vec.reserve] at e
    by_cases h : n ≤ v.cap
    · rw [if_pos h] at e
      cases e
      rw [VOp.runC, if_pos h]
      simp only [if_neg (show ¬ v.cap < n by omega)]
      exact Runs.pure _
    · rw [if_neg h] at e
      rw [VOp.runC, if_neg h]
      simp only [if_pos (show v.cap < n by omega)]
      exact (allocate_runs e).1
  | shrink =>
    simp only [VOp.run, Vec.shrink] at e
    by_cases h : v.size = v.cap
    · rw [if_pos h] at e
      cases e
      rw [VOp.runC, if_pos h]
      simp only [if_pos h]
      exact Runs.pure _
    · rw [if_neg h] at e
      rw [VOp.runC, if_neg h]
      simp only [if_neg h]
      exact (allocate_runs e).1
  | clear =>
    cases e
    exact Runs.pure _

/-- A call for `C117_call`: the first `push_back` on a full vector of two elements moves both. -/
example : ∃ v v', newVec false 2 = some v ∧ (VOp.push 5).run v = some v' ∧ Runs ((VOp.push 5).runC v) v' 2 := by
  obtain ⟨v, v', e, e', _⟩ := C68_vector_partial 2 [.push 5] (by decide) (by decide) (by decide) (by simp [allOk, VOp.ok])
  obtain ⟨w, e1, e2⟩ := Option.bind_eq_some_iff.1 (show ((VOp.push 5).run v).bind (runs · []) = some v' from e')
  cases e2
  refine ⟨v, v', e, e1, ?_⟩
  have h := C117_call v v' (.push 5) e1
  obtain ⟨a, _, e3⟩ := Option.bind_eq_some_iff.1 (show (new false 2).bind (fun a => some ⟨2, 2, a⟩) = some v from e)
  cases e3
  exact h

end Verif.CDRW
