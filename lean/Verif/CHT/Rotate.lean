/-
The same table seen from another slot that is not shifted.
-/
import Verif.CHT.Layout

namespace Verif.CHT

variable {B : Nat} {f : Nat → Slot} {home : Nat → Nat}

/-- The homes seen from slot `c`. -/
def rotHome (B : Nat) (home : Nat → Nat) (c p : Nat) : Nat := if p + c < B then home (p + c) - c else home (p + c - B) + B - c

/-- Elements from an unshifted slot on have homes from there on. -/
theorem Lay.cut (L : Lay B f home) {c : Nat} (hc : c < B) (hcut : (f c).sh = false) {p : Nat} (hp : p < B) (hf : (f p).fil) (hcp : c ≤ p) : c ≤ home p := by
  by_cases hfc : (f c).fil
  · have h1 := L.mono c p hcp hp hfc hf
    have h2 := (L.sh c hc).not.1 (by simp [hcut])
    have h3 := L.le c hc hfc
    have : ¬ home c < c := fun h => h2 ⟨hfc, h⟩
    omega
  · by_contra hlt
    exact hfc (L.between p hp hf c (by omega) hcp)

theorem Lay.rotate (L : Lay B f home) (hper : ∀ p, f (p + B) = f p) {c : Nat} (hc : c < B) (hcut : (f c).sh = false) :
    Lay B (fun p => f (p + c)) (rotHome B home c) := by
  have hB : 0 < B := by omega
  -- slot `p` of the new view is slot `p + c` or `p + c - B` of the old one
  have hf2 : ∀ p, B ≤ p → f p = f (p - B) := by
    intro p hp
    have := hper (p - B)
    rw [Nat.sub_add_cancel hp] at this
    exact this
  have hlow : ∀ p, p < B → (f p).fil → home p ≤ p := L.le
  have hhi : ∀ p, p < B → (f p).fil → c ≤ p → c ≤ home p := fun p hp hf hcp => L.cut hc hcut hp hf hcp
  have hcontc : (f c).cont = false := by
    cases hcc : (f c).cont with
    | false => rfl
    | true =>
      by_cases h0 : c = 0
      · rw [h0, L.cont0] at hcc; simp at hcc
      · have h1 := (L.cont (c - 1) (by omega)).1 (by rw [show c - 1 + 1 = c by omega]; exact hcc)
        rw [show c - 1 + 1 = c by omega] at h1
        have h2 := hlow (c - 1) (by omega) h1.1
        have h3 := (L.sh c hc).2 ⟨h1.2.1, by omega⟩
        rw [hcut] at h3; simp at h3
  refine ⟨?_, ?_, ?_, ?_, ?_, ?_, ?_, ?_⟩
  · intro p hp hf
    unfold rotHome
    by_cases h : p + c < B
    · rw [if_pos h]
      have := hlow _ h hf
      omega
    · rw [if_neg h]
      rw [hf2 _ (by omega)] at hf
      have := hlow _ (by omega) hf
      omega
  · intro p hp hf q h1 h2
    unfold rotHome at h1
    by_cases h : p + c < B
    · rw [if_pos h] at h1
      have := hhi _ h hf (by omega)
      exact L.between _ h hf _ (by omega) (by omega)
    · rw [if_neg h] at h1
      rw [hf2 _ (by omega)] at hf
      rw [hf2 _ (by omega)]
      exact L.between _ (by omega) hf _ (by omega) (by omega)
  · intro p q hpq hq hfp hfq
    unfold rotHome
    by_cases h : q + c < B
    · rw [if_pos h, if_pos (by omega)]
      have := L.mono _ _ (show p + c ≤ q + c by omega) h hfp hfq
      omega
    · rw [if_neg h]
      rw [hf2 _ (by omega)] at hfq
      by_cases h' : p + c < B
      · rw [if_pos h']
        have := hlow _ h' hfp
        omega
      · rw [if_neg h']
        rw [hf2 _ (by omega)] at hfp
        have := L.mono _ _ (show p + c - B ≤ q + c - B by omega) (by omega) hfp hfq
        omega
  · intro p hp
    unfold rotHome
    by_cases h : p + c < B
    · rw [if_pos h, L.sh _ h]
      constructor
      · rintro ⟨h1, h2⟩
        have := hhi _ h h1 (by omega)
        exact ⟨h1, by omega⟩
      · rintro ⟨h1, h2⟩
        have := hhi _ h h1 (by omega)
        exact ⟨h1, by omega⟩
    · rw [if_neg h, hf2 _ (by omega), L.sh _ (by omega)]
      constructor
      · rintro ⟨h1, h2⟩
        exact ⟨h1, by omega⟩
      · rintro ⟨h1, h2⟩
        exact ⟨h1, by omega⟩
  · simp only [Nat.zero_add]
    exact hcontc
  · intro p hp
    unfold rotHome
    by_cases h : p + 1 + c < B
    · rw [if_pos h, if_pos (by omega), show p + 1 + c = p + c + 1 by omega, L.cont _ (by omega)]
      constructor
      · rintro ⟨h1, h2, h3⟩
        exact ⟨h1, h2, by omega⟩
      · rintro ⟨h1, h2, h3⟩
        have h4 := hhi _ (by omega) h1 (by omega)
        have h5 := hhi _ (by omega) h2 (by omega)
        exact ⟨h1, h2, by omega⟩
    · rw [if_neg h]
      by_cases h' : p + c < B
      · -- the old slot 0
        have e0 : p + 1 + c = B := by omega
        rw [if_pos h', hf2 _ (show B ≤ p + 1 + c by omega), e0, Nat.sub_self, L.cont0]
        simp only [Bool.false_eq_true, false_iff]
        rintro ⟨h1, h2, h3⟩
        have := hlow _ h' h1
        omega
      · rw [if_neg h', hf2 _ (by omega), hf2 (p + c) (by omega), show p + 1 + c - B = p + c - B + 1 by omega, L.cont _ (by omega)]
        constructor
        · rintro ⟨h1, h2, h3⟩
          exact ⟨h1, h2, by omega⟩
        · rintro ⟨h1, h2, h3⟩
          exact ⟨h1, h2, by omega⟩
  · intro p hp
    by_cases h : p + c < B
    · rw [L.occ _ h]
      constructor
      · rintro ⟨q, hq, hf, e⟩
        have h1 := hlow q hq hf
        refine ⟨q - c, by omega, by rw [Nat.sub_add_cancel (by omega)]; exact hf, ?_⟩
        unfold rotHome
        rw [if_pos (by omega), Nat.sub_add_cancel (by omega)]
        omega
      · rintro ⟨q, hq, hf, e⟩
        unfold rotHome at e
        by_cases h' : q + c < B
        · rw [if_pos h'] at e
          have := hhi _ h' hf (by omega)
          exact ⟨q + c, h', hf, by omega⟩
        · rw [if_neg h'] at e
          omega
    · rw [hf2 _ (by omega), L.occ _ (by omega)]
      constructor
      · rintro ⟨q, hq, hf, e⟩
        have hqc : q < c := by
          by_contra hlt
          have := hhi q hq hf (by omega)
          omega
        refine ⟨q + B - c, by omega, ?_, ?_⟩
        · rw [show q + B - c + c = q + B by omega, hper]
          exact hf
        · unfold rotHome
          rw [if_neg (by omega), show q + B - c + c - B = q by omega]
          omega
      · rintro ⟨q, hq, hf, e⟩
        unfold rotHome at e
        by_cases h' : q + c < B
        · rw [if_pos h'] at e
          have := hlow _ h' hf
          omega
        · rw [if_neg h'] at e
          rw [hf2 _ (by omega)] at hf
          exact ⟨q + c - B, by omega, hf, by omega⟩
  · intro p q hpq hq hfp hfq he
    unfold rotHome at he
    by_cases h : q + c < B
    · rw [if_pos h, if_pos (by omega)] at he
      have h4 := hhi _ (by omega) hfp (by omega)
      have h5 := hhi _ (by omega) hfq (by omega)
      exact L.uniq _ _ (by omega) h hfp hfq (by omega)
    · rw [if_neg h] at he
      by_cases h' : p + c < B
      · rw [if_pos h'] at he
        have := hlow _ h' hfp
        omega
      · rw [if_neg h'] at he
        rw [hf2 (p + c) (by omega)] at hfp ⊢
        rw [hf2 (q + c) (by omega)] at hfq ⊢
        exact L.uniq _ _ (by omega) (by omega) hfp hfq (by omega)

end Verif.CHT
