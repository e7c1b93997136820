/-
Property theorems C98 (how much of the text the BOM and Turbo-BOM searches read).
-/
import Verif.FO.CostLemmas
import Verif.FO.PropsTurbo
import Mathlib.Data.List.Perm.Subperm

namespace Verif.FO

open PM (Byte Occ kmpBuild_spec)

/-- C98, BOM: with a finished oracle, a key of `m` characters and a text of `n`, `image` is called at least `m` times for each occurrence reported and at most
`m * (n - m + 1)` times; if no character of the text occurs in the key, exactly `n / m` times. -/
theorem C98_bom (fuel : Nat) (text key : List Byte) (hne : key ≠ []) (hnz : ∀ c ∈ key, c ≠ 0#8) (g : Byte) (hg : g ∉ text) :
    bom fuel text key (some g) = .stop ∨ ∃ r k, bom fuel text key (some g) = .ok r ∧ bomC fuel text key (some g) = .ok (r, k) ∧
      key.length * r.length ≤ k ∧ k ≤ key.length * (text.length + 1 - key.length) ∧ ((∀ c ∈ text, c ∉ key) → k = text.length / key.length) := by
  have hp := List.length_pos_iff.2 hne
  rcases C55_bom_partial fuel text key hne hnz g hg with h | ⟨r, er, _⟩
  · exact .inl h
  · refine .inr ⟨r, ?_⟩
    have er' := er
    unfold bom at er'
    unfold bomC
    rcases build_spec fuel key.reverse (by simpa using hne) (fun c hc => hnz c (by simpa using hc)) with h | ⟨s, lrs, h, hL⟩
    · rw [h] at er'; cases er'
    · rw [h, ok_bind] at er' ⊢
      obtain ⟨h1, h2⟩ := bomLoopC_spec (fin s) (some g) text key.length _ (key.length - 1) [] 0 (Nat.le_refl _) (by omega)
      cases e : bomLoopC (fin s) (some g) text key.length (key.length - 1) [] 0 with
      | none => rw [e] at h1; rw [← h1] at er'; cases er'
      | some x =>
        obtain ⟨r', k⟩ := x
        rw [e] at h1
        rw [← h1] at er'
        cases er'
        obtain ⟨h3, h4⟩ := h2 _ _ e
        refine ⟨k, er, rfl, by simpa using h4, ?_, fun ha => ?_⟩
        · rw [show text.length + 1 - key.length = text.length - (key.length - 1) by omega]
          simpa using h3
        · have := bomLoopC_alien (fin s) (some g) text key.length hp
            (fun c hc => image_alien key.reverse s lrs hL (by simpa using hne) _ c (by simpa using ha c hc)) _ (key.length - 1) [] 0 (Nat.le_refl _) (by omega)
          rw [this] at e
          simp only [Option.some.injEq, Prod.mk.injEq] at e
          rw [← e.2, show text.length + key.length - 1 - (key.length - 1) = text.length by omega, Nat.zero_add]

example := C98_bom 300 [97#8, 97#8, 98#8, 97#8, 97#8, 98#8] [97#8, 97#8] (by decide) (by decide) 0#8 (by decide)

/-- C98, Turbo-BOM: let `w` be `m / 2`. With a finished oracle and a key of two characters or more, `image` is called at least `m` times for each occurrence
reported and at most `m` times for each of them and for each of `n / w + 1` windows; the KMP part makes at most `2 * (n + w)` comparisons and `m` for each
occurrence reported. -/
theorem C98_turbo (fuel : Nat) (text key : List Byte) (hl : 2 ≤ key.length) (hnz : ∀ c ∈ key, c ≠ 0#8) (g1 g2 : Byte) (hg1 : g1 ∉ text) (hg2 : g2 ∉ text) :
    turboBom fuel text key (some g1) (some g2) = .stop ∨ ∃ r a b, turboBom fuel text key (some g1) (some g2) = .ok r ∧
      turboBomC fuel text key (some g1) (some g2) = .ok (r, a, b) ∧ key.length * r.length ≤ a ∧
      a ≤ key.length * (text.length / (key.length / 2) + 1 + r.length) ∧ b ≤ 2 * (text.length + key.length / 2) + key.length * r.length := by
  have hne : key ≠ [] := List.ne_nil_of_length_pos (by omega)
  unfold turboBom turboBomC
  rcases build_spec fuel key.reverse (by simpa using hne) (fun c hc => hnz c (by simpa using hc)) with h | ⟨s, lrs, h, hL⟩
  · left; rw [h]; rfl
  · right
    obtain ⟨next, en, _, hn⟩ := kmpBuild_spec key
    rw [h, ok_bind, ok_bind, en, lift_some, ok_bind, ok_bind]
    obtain ⟨r, a, b, I, e1, e2, i1, i2, i3, i4, i5⟩ := turboLoopC_spec key text hne s lrs hL g1 g2 hg1 hg2 next hn _ (key.length - 1) 0 [] 0 0 (Nat.le_refl _)
      (by omega) (by omega) (by intro _ h; omega)
    refine ⟨r, a, b, by rw [e2]; rfl, by rw [e1]; rfl, by simpa using i1, ?_, ?_⟩
    · have hI : I ≤ text.length / (key.length / 2) + 1 := by
        by_cases hb : key.length - 1 < text.length
        · have := i4 hb
          rw [Nat.zero_add] at this
          rw [← Nat.add_div_right _ (show 0 < key.length / 2 by omega), Nat.le_div_iff_mul_le (by omega), Nat.mul_comm]
          exact this
        · rw [i5 hb]; exact Nat.zero_le _
      have := Nat.mul_le_mul_left key.length (Nat.add_le_add_right hI r.length)
      simp only [List.length_nil, Nat.mul_zero, Nat.add_zero, Nat.zero_add] at i2
      omega
    · have hI : key.length / 2 * I ≤ text.length + key.length / 2 := by
        by_cases hb : key.length - 1 < text.length
        · have := i4 hb
          omega
        · rw [i5 hb]; omega
      simp only [List.length_nil, Nat.mul_zero, Nat.add_zero, Nat.zero_add, Nat.zero_sub] at i3
      rw [Nat.mul_assoc] at i3
      generalize key.length / 2 * I = z at *
      omega

example := C98_turbo 300 [97#8, 97#8, 98#8, 97#8, 97#8, 98#8] [97#8, 97#8] (by decide) (by decide) 0#8 0#8 (by decide) (by decide)

/-- C98: the total is linear but for a cost of at most `2 * m` for each occurrence reported. -/
theorem C98_turbo_sum (fuel : Nat) (text key : List Byte) (hl : 2 ≤ key.length) (hnz : ∀ c ∈ key, c ≠ 0#8) (g1 g2 : Byte) (hg1 : g1 ∉ text) (hg2 : g2 ∉ text)
    (r : List Nat) (a b : Nat) (e : turboBomC fuel text key (some g1) (some g2) = .ok (r, a, b)) :
    a + b ≤ 5 * text.length + 4 * key.length + 2 * key.length * r.length := by
  rcases C98_turbo fuel text key hl hnz g1 g2 hg1 hg2 with h | ⟨r', a', b', _, h, _, h2, h3⟩
  · exfalso
    unfold turboBom at h
    unfold turboBomC at e
    rcases build_spec fuel key.reverse (List.ne_nil_of_length_pos (by rw [List.length_reverse]; omega)) (fun c hc => hnz c (by simpa using hc)) with hb | ⟨s, lrs, hb, hL⟩
    · rw [hb] at e; cases e
    · obtain ⟨next, en, _⟩ := kmpBuild_spec key
      rw [hb, ok_bind, en, lift_some, ok_bind] at h
      revert h
      cases turboLoop (fin s) (some g1) (some g2) next key text (key.length / 2) (key.length - 1) 0 [] <;> intro h <;> cases h
  · rw [e] at h
    cases h
    have hq : key.length * (text.length / (key.length / 2)) ≤ 3 * text.length := by
      have h4 : key.length ≤ 3 * (key.length / 2) := by omega
      have h5 := Nat.mul_le_mul_right (text.length / (key.length / 2)) h4
      have h6 := Nat.div_mul_le_self text.length (key.length / 2)
      rw [Nat.mul_assoc, Nat.mul_comm (key.length / 2)] at h5
      omega
    rw [Nat.mul_add, Nat.mul_add, Nat.mul_one] at h2
    rw [Nat.mul_assoc 2]
    omega

example : 12 + 0 ≤ 5 * 6 + 4 * 3 + 2 * 3 * 4 := C98_turbo_sum 300 (List.replicate 6 97#8) [97#8, 97#8, 97#8] (by decide) (by decide) 0#8 0#8 (by decide) (by decide)
  [0, 1, 2, 3] 12 0 (by decide +kernel)

/-- C98: if no character of the text occurs in the key, Turbo-BOM calls `image` exactly `(n + w) / (m + w)` times, and makes at most `w` comparisons for each call. -/
theorem C98_turbo_alien (fuel : Nat) (text key : List Byte) (hne : key ≠ []) (hnz : ∀ c ∈ key, c ≠ 0#8) (past1 past2 : Option Byte) (ha : ∀ c ∈ text, c ∉ key) :
    turboBomC fuel text key past1 past2 = .stop ∨
    ∃ b, turboBomC fuel text key past1 past2 = .ok ([], (text.length + key.length / 2) / (key.length + key.length / 2), b) ∧
      b ≤ key.length / 2 * ((text.length + key.length / 2) / (key.length + key.length / 2)) := by
  have hp := List.length_pos_iff.2 hne
  unfold turboBomC
  rcases build_spec fuel key.reverse (by simpa using hne) (fun c hc => hnz c (by simpa using hc)) with h | ⟨s, lrs, h, hL⟩
  · left; rw [h]; rfl
  · right
    obtain ⟨next, en, _, hn⟩ := kmpBuild_spec key
    rw [h, ok_bind, en, lift_some, ok_bind]
    obtain ⟨p, e0, h1, h2, _⟩ := hn 0 (Nat.zero_le _)
    obtain ⟨b, e, hb⟩ := turboLoopC_alien (fin s) past1 past2 next (by rw [e0]; congr 1; omega) key text hne (key.length / 2) ha
      (fun c hc => image_alien key.reverse s lrs hL (by simpa using hne) _ c (by simpa using ha c hc)) _ (key.length - 1) 0 [] 0 0 (Nat.le_refl _) (by omega) (by omega)
    rw [show text.length + (key.length + key.length / 2) - 1 - (key.length - 1) = text.length + key.length / 2 by omega] at e hb
    exact ⟨b, by rw [e, Nat.zero_add]; rfl, by omega⟩

example := C98_turbo_alien 300 (List.replicate 12 98#8) [97#8, 99#8, 97#8, 97#8] (by decide) (by decide) (some 0#8) none (by decide)

/-- C98: the cost of the occurrences is real: a run of `m` equal characters in a run of `n` makes Turbo-BOM call `image` at least `m * (n - m + 1)` times, so the search
is not linear. -/
theorem C98_turbo_run (n m : Nat) (c : Byte) (hm : 2 ≤ m) (hmn : m ≤ n) (hl : m ≤ 2 ^ 23) (hc : c ≠ 0#8) (g1 g2 : Byte) (hg1 : g1 ≠ c) (hg2 : g2 ≠ c)
    (fuel : Nat) (hf : 2 ^ 32 + 1 ≤ fuel) :
    ∃ r a b, turboBomC fuel (List.replicate n c) (List.replicate m c) (some g1) (some g2) = .ok (r, a, b) ∧ m * (n + 1 - m) ≤ a := by
  have hne : List.replicate m c ≠ [] := List.ne_nil_of_length_pos (by simpa using (by omega : 0 < m))
  have hnz : ∀ x ∈ List.replicate m c, x ≠ 0#8 := fun x hx => by rw [List.eq_of_mem_replicate hx]; exact hc
  have h1 : g1 ∉ List.replicate n c := fun h => hg1 (List.eq_of_mem_replicate h)
  have h2 : g2 ∉ List.replicate n c := fun h => hg2 (List.eq_of_mem_replicate h)
  obtain ⟨r, er, hs, ho⟩ := C56_total (List.replicate n c) (List.replicate m c) [c] hne hnz (fun x hx => by rw [List.eq_of_mem_replicate hx]; simp) (by
      simp only [List.length_replicate, List.length_singleton]; omega) (by simpa using hl) (fun q d _ _ _ _ t ht => by
      simp only [List.length_replicate] at ht
      rw [List.getElem?_replicate, List.getElem?_replicate, if_pos (by omega), if_pos ht]) g1 g2 h1 h2 fuel hf
  rcases C98_turbo fuel (List.replicate n c) (List.replicate m c) (by simpa using hm) hnz g1 g2 h1 h2 with h | ⟨r', a, b, e1, e2, h3, _⟩
  · rw [er] at h; cases h
  · rw [er] at e1
    cases e1
    refine ⟨r, a, b, e2, ?_⟩
    rw [List.length_replicate] at h3
    refine Nat.le_trans (Nat.mul_le_mul_left m ?_) h3
    have hsub : List.range (n + 1 - m) ⊆ r := by
      intro p hp
      rw [List.mem_range] at hp
      rw [ho]
      refine ⟨by simp only [List.length_replicate]; omega, fun t ht => ?_⟩
      rw [List.length_replicate] at ht
      rw [List.getElem?_replicate, List.getElem?_replicate, if_pos (by omega), if_pos ht]
    have := (List.Nodup.subperm List.nodup_range hsub).length_le
    simpa using this

example := C98_turbo_run 6 3 97#8 (by decide) (by decide) (by decide) (by decide) 0#8 0#8 (by decide) (by decide) _ (Nat.le_refl _)

/-- The counts for a run, for a text without characters of the key, and for a text with some of them. -/
example : bomC 300 (List.replicate 6 97#8) [97#8, 97#8, 97#8] (some 0#8) = .ok ([0, 1, 2, 3], 12) ∧
    turboBomC 300 (List.replicate 6 97#8) [97#8, 97#8, 97#8] (some 0#8) (some 0#8) = .ok ([0, 1, 2, 3], 12, 0) ∧
    bomC 300 (List.replicate 12 98#8) [97#8, 99#8, 97#8, 97#8] (some 0#8) = .ok ([], 3) ∧
    turboBomC 300 (List.replicate 12 98#8) [97#8, 99#8, 97#8, 97#8] (some 0#8) (some 0#8) = .ok ([], 2, 4) ∧
    bomC 300 [97#8, 97#8, 98#8, 97#8, 97#8, 98#8] [97#8, 97#8] (some 0#8) = .ok ([0, 3], 6) := by decide +kernel

end Verif.FO
