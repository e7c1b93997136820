/-
Counted runs whose number of accesses does not depend on the counter they start with.
-/
import Verif.IArr.Cost

namespace Verif.IArr

variable {β γ : Type}

/-- The reads of a run that starts with the counter at 0. -/
def reads (m : M β) : Nat := ((m 0).map Prod.snd).getD 0

/-- `m` returns what `p` is, and adds the same number to any counter. -/
def Counts (m : M β) (p : Option β) : Prop := ∀ k, m k = p.map (fun x => (x, k + reads m))

theorem Counts.of {m : M β} {p : Option β} {n : Nat} (h : ∀ k, m k = p.map (fun x => (x, k + n))) : Counts m p := by
  intro k
  rw [h k]
  cases p with
  | none => rfl
  | some x =>
    have : reads m = n := by simp [reads, h 0]
    rw [this]

theorem Counts.pure (x : β) : Counts (pure x : M β) (some x) := Counts.of (n := 0) fun _ => rfl

theorem Counts.lift (p : Option β) : Counts (p : M β) p := Counts.of (n := 0) fun k => by cases p <;> rfl

theorem Counts.acc (p : Option β) : Counts (acc p) p := Counts.of (n := 1) fun _ => rfl

theorem bind_some' {m : M β} {p : Option β} {f : β → M γ} (h : Counts m p) {x : β} (hx : p = some x) (k : Nat) :
    (m >>= f) k = f x (k + reads m) := by
  change (m k).bind _ = _
  rw [h k, hx]
  rfl

theorem bind_none' {m : M β} {p : Option β} {f : β → M γ} (h : Counts m p) (hx : p = none) (k : Nat) : (m >>= f) k = none := by
  change (m k).bind _ = _
  rw [h k, hx]
  rfl

theorem Counts.bind {m : M β} {p : Option β} {f : β → M γ} {g : β → Option γ} (h : Counts m p) (hf : ∀ x, Counts (f x) (g x)) :
    Counts (m >>= f) (p >>= g) := by
  cases hp : p with
  | none => exact Counts.of (n := 0) fun k => bind_none' h hp k
  | some x =>
    refine Counts.of (n := reads m + reads (f x)) fun k => ?_
    rw [bind_some' h hp, hf x]
    simp only [Option.bind_eq_bind, Option.bind_some, Nat.add_assoc]

theorem reads_bind {m : M β} {p : Option β} {f : β → M γ} {q : Option γ} (h : Counts m p) {x : β} (hx : p = some x) (hf : Counts (f x) q) {y : γ}
    (hy : q = some y) : reads (m >>= f) = reads m + reads (f x) := by
  have : (m >>= f) 0 = some (y, reads m + reads (f x)) := by
    rw [bind_some' h hx, hf, hy]
    simp
  simp [reads, this]

theorem reads_none {m : M β} {p : Option β} (h : Counts m p) (hp : p = none) : reads m = 0 := by
  have : m 0 = none := by rw [h 0, hp]; rfl
  simp [reads, this]

theorem reads_of {m : M β} {x : β} {n : Nat} (h : m 0 = some (x, n)) : reads m = n := by simp [reads, h]

/-- `m` returns `x` and makes exactly `n` accesses. -/
def Runs (m : M β) (x : β) (n : Nat) : Prop := ∀ k, m k = some (x, k + n)

theorem Runs.pure (x : β) : Runs (pure x : M β) x 0 := fun _ => rfl

theorem Runs.acc (x : β) : Runs (acc (some x)) x 1 := fun _ => rfl

theorem Runs.lift (x : β) : Runs (some x : M β) x 0 := fun _ => rfl

theorem Runs.bind {m : M β} {x : β} {n : Nat} {f : β → M γ} {y : γ} {n' : Nat} (h : Runs m x n) (h' : Runs (f x) y n') : Runs (m >>= f) y (n + n') := by
  intro k
  change (m k).bind _ = _
  rw [h k]
  change f x (k + n) = _
  rw [h' (k + n), Nat.add_assoc]

theorem Runs.cast {m : M β} {x : β} {n n' : Nat} (h : Runs m x n) (e : n = n') : Runs m x n' := e ▸ h

theorem Runs.reads {m : M β} {x : β} {n : Nat} (h : Runs m x n) : reads m = n := reads_of (by rw [h 0, Nat.zero_add])

theorem Counts.runs {m : M β} {p : Option β} (h : Counts m p) {x : β} (hx : p = some x) : Runs m x (Verif.IArr.reads m) := fun k => by rw [h k, hx]; rfl

theorem Counts.value {m : M β} {p : Option β} (h : Counts m p) {x : β} {n : Nat} (hr : Runs m x n) : p = some x := by
  have := (h 0).symm.trans (hr 0)
  cases p with
  | none => simp at this
  | some y => simp at this; rw [this.1]

end Verif.IArr
