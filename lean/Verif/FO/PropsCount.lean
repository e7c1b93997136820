/-
Property theorem C80: the number of transitions of a factor oracle.
-/
import Verif.FO.Count

namespace Verif.FO
open Verif.PM (Byte)

/-- A list without repetitions, mapped into the members of another one without collisions, is not longer. -/
theorem length_le_of_inj {α β : Type} [DecidableEq β] (f : α → β) : ∀ (L : List α) (E : List β), L.Nodup → (∀ x ∈ L, f x ∈ E) →
    (∀ x ∈ L, ∀ y ∈ L, f x = f y → x = y) → L.length ≤ E.length := by
  intro L
  induction L with
  | nil => intro E _ _ _; simp
  | cons a L ih =>
    intro E hn hm hi
    have hn' := List.nodup_cons.1 hn
    have := ih (E.erase (f a)) hn'.2 (fun x hx => (List.mem_erase_of_ne (fun e => hn'.1 (by
      rw [← hi x (List.mem_cons_of_mem _ hx) a List.mem_cons_self e]; exact hx))).2 (hm x (List.mem_cons_of_mem _ hx)))
      (fun x hx y hy => hi x (List.mem_cons_of_mem _ hx) y (List.mem_cons_of_mem _ hy))
    have hma := hm a List.mem_cons_self
    rw [List.length_erase_of_mem hma] at this
    have := List.length_pos_of_mem hma
    simp only [List.length_cons]
    omega

/-- C80: a finished oracle of `m` letters has at most `m - 1` transitions to other states than the next one: so many different pairs of a
state below `m` and a letter. -/
theorem C80_external (fuel : Nat) (text : List Byte) (hne : text ≠ []) (hnz : ∀ c ∈ text, c ≠ 0#8) (o : Oracle)
    (ho : build fuel text = .ok o) (past : Option Byte) (L : List (Nat × Byte)) (hd : L.Nodup)
    (hL : ∀ p ∈ L, p.1 < text.length ∧ ∃ t, o.image past p.1 p.2 = some (some t) ∧ t ≠ p.1 + 1) : L.length + 1 ≤ text.length := by
  rcases build_count fuel text hne hnz with h | ⟨s, lrs, dep, E, h, hI, hX⟩
  · rw [h] at ho; cases ho
  · rw [h] at ho
    cases ho
    have hpos : 0 < text.length := List.length_pos_iff.2 hne
    have hdep := hX.dl text.length hpos (Nat.le_refl _)
    have hcnt := hX.cnt
    have hall : ∀ p ∈ L, ((p.1, p.2.toNat) : Nat × Nat) ∈ E.map (fun e => (e.1, e.2.1)) := by
      intro p hp
      obtain ⟨h1, t, h2, h3⟩ := hL p hp
      rcases image_spec text s lrs hI past p.1 (by omega) p.2 (by omega) with ⟨t', e, hD, _⟩ | ⟨e, _⟩
      · rw [e] at h2
        cases h2
        rcases hD with ⟨_, hD⟩ | ⟨_, hD⟩
        · exact absurd hD h3
        · exact List.mem_map.2 ⟨_, hX.all _ _ _ hD, rfl⟩
      · rw [e] at h2; cases h2
    have := length_le_of_inj (fun p : Nat × Byte => (p.1, p.2.toNat)) L (E.map fun e => (e.1, e.2.1)) hd hall (by
      rintro ⟨a, b⟩ _ ⟨a', b'⟩ _ e
      simp only [Prod.mk.injEq] at e
      obtain ⟨rfl, e⟩ := e
      rw [BitVec.eq_of_toNat_eq e])
    rw [List.length_map] at this
    omega

example : ∃ o, build 300 [97#8, 98#8] = .ok o ∧ ∀ L : List (Nat × Byte), L.Nodup →
    (∀ p ∈ L, p.1 < 2 ∧ ∃ t, o.image none p.1 p.2 = some (some t) ∧ t ≠ p.1 + 1) → L.length ≤ 1 := by
  have hb : (match build 300 [97#8, 98#8] with | .ok _ => true | _ => false) = true := by decide +kernel
  cases e : build 300 [97#8, 98#8] with
  | ok o => exact ⟨o, rfl, fun L hd hL => Nat.le_of_succ_le_succ (C80_external 300 [97#8, 98#8] (by decide) (by decide) o e none L hd hL)⟩
  | _ => rw [e] at hb; cases hb

/-- C80: and at most `2 m - 1` transitions in all. -/
theorem C80_all (fuel : Nat) (text : List Byte) (hne : text ≠ []) (hnz : ∀ c ∈ text, c ≠ 0#8) (o : Oracle)
    (ho : build fuel text = .ok o) (past : Option Byte) (L : List (Nat × Byte)) (hd : L.Nodup)
    (hL : ∀ p ∈ L, p.1 < text.length ∧ ∃ t, o.image past p.1 p.2 = some (some t)) : L.length + 1 ≤ 2 * text.length := by
  have hpart : L.length = (L.filter fun p => decide (o.image past p.1 p.2 = some (some (p.1 + 1)))).length +
      (L.filter fun p => !decide (o.image past p.1 p.2 = some (some (p.1 + 1)))).length := by
    have := (L.filter_append_perm fun p => decide (o.image past p.1 p.2 = some (some (p.1 + 1)))).length_eq
    rw [List.length_append] at this
    omega
  have h1 := C80_external fuel text hne hnz o ho past (L.filter fun p => !decide (o.image past p.1 p.2 = some (some (p.1 + 1)))) (hd.filter _) (by
    intro p hp
    rw [List.mem_filter] at hp
    obtain ⟨h1, t, h2⟩ := hL p hp.1
    refine ⟨h1, t, h2, fun e => ?_⟩
    rw [h2, e] at hp
    simp at hp)
  have h2 : (L.filter fun p => decide (o.image past p.1 p.2 = some (some (p.1 + 1)))).length ≤ (List.range text.length).length := by
    refine length_le_of_inj (fun p : Nat × Byte => p.1) _ _ (hd.filter _) (fun p hp => ?_) ?_
    · exact List.mem_range.2 (hL p (List.mem_filter.1 hp).1).1
    · rintro ⟨a, b⟩ hx ⟨a', b'⟩ hy e
      simp only at e
      subst e
      rw [List.mem_filter] at hx hy
      have hlt := (hL _ hx.1).1
      simp only [decide_eq_true_eq] at hx hy hlt
      rcases build_spec fuel text hne hnz with h | ⟨s, lrs, h, hI⟩
      · rw [h] at ho; cases ho
      · rw [h] at ho
        cases ho
        have key : ∀ c : Byte, (fin s).image past a c = some (some (a + 1)) → ck s.check (a + 1) = c.toNat := by
          intro c hc
          rcases image_spec text s lrs hI past a (by omega) c (by omega) with ⟨t', e, hD, _⟩ | ⟨e, _⟩
          · rw [e] at hc
            cases hc
            rcases hD with ⟨hD, _⟩ | ⟨_, hD⟩
            · exact hD
            · exact hD.choose_spec.2.2.2.2.2
          · rw [e] at hc; cases hc
        have e1 := key b hx.2
        have e2 := key b' hy.2
        rw [BitVec.eq_of_toNat_eq (e1.symm.trans e2)]
  rw [List.length_range] at h2
  omega

-- the bounds are reached: "ab" has one external transition, three transitions in all
example : (match build 300 [97#8, 98#8] with
    | .ok o => [o.image none 0 97#8, o.image none 0 98#8, o.image none 1 98#8] | _ => []) = [some (some 1), some (some 2), some (some 2)] := by decide +kernel
example : (match build 300 [97#8, 98#8, 99#8] with
    | .ok o => [o.image none 0 98#8, o.image none 0 99#8, o.image none 1 99#8] | _ => []) = [some (some 2), some (some 3), some none] := by decide +kernel

end Verif.FO
