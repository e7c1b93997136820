/-
Counting distinct numbers.
-/
namespace Verif

theorem nodup_bound : ∀ (N : Nat) (l : List Nat), l.Nodup → (∀ x ∈ l, x < N) → l.length ≤ N := by
  intro N
  induction N with
  | zero =>
    intro l _ h
    cases l with
    | nil => simp
    | cons a l => exact absurd (h a (by simp)) (by omega)
  | succ N ih =>
    intro l hn h
    have h1 := ih (l.erase N) (hn.erase N) (fun x hx => by
      have := (hn.mem_erase_iff).1 hx
      have := h x this.2
      omega)
    rw [List.length_erase] at h1
    split at h1 <;> omega

theorem nodup_subset {α : Type} [DecidableEq α] : ∀ (l m : List α), l.Nodup → (∀ x ∈ l, x ∈ m) → l.length ≤ m.length := by
  intro l
  induction l with
  | nil => intro m _ _; simp
  | cons a l ih =>
    intro m hn h
    have hn' := List.nodup_cons.1 hn
    have ha := h a (by simp)
    have h1 := ih (m.erase a) hn'.2 (fun x hx => by
      have hxa : x ≠ a := fun e => hn'.1 (e ▸ hx)
      exact (List.mem_erase_of_ne hxa).2 (h x (by simp [hx])))
    rw [List.length_erase, if_pos ha] at h1
    have := List.length_pos_of_mem ha
    simp only [List.length_cons]
    omega

end Verif
