/-
The layout of a table, seen from a slot that is not shifted: slots are numbered from there, without wrapping around.
-/
import Verif.CHT.Model
import Mathlib.Tactic.ByContra

namespace Verif.CHT

/-- The flags and the quotient of a slot. -/
structure Slot where
  occ : Bool
  cont : Bool
  sh : Bool
  del : Bool
  quo : Nat
deriving DecidableEq

/-- The slot is not null. -/
def Slot.fil (s : Slot) : Prop := s.occ = true ∨ s.cont = true ∨ s.sh = true ∨ s.del = true

instance (s : Slot) : Decidable s.fil := inferInstanceAs (Decidable (_ ∨ _))

/-- `home p` is the slot the element of slot `p` belongs to. -/
structure Lay (B : Nat) (f : Nat → Slot) (home : Nat → Nat) : Prop where
  le : ∀ p, p < B → (f p).fil → home p ≤ p
  between : ∀ p, p < B → (f p).fil → ∀ q, home p ≤ q → q ≤ p → (f q).fil
  mono : ∀ p q, p ≤ q → q < B → (f p).fil → (f q).fil → home p ≤ home q
  sh : ∀ p, p < B → ((f p).sh = true ↔ (f p).fil ∧ home p < p)
  cont0 : (f 0).cont = false
  cont : ∀ p, p + 1 < B → ((f (p + 1)).cont = true ↔ (f p).fil ∧ (f (p + 1)).fil ∧ home p = home (p + 1))
  occ : ∀ p, p < B → ((f p).occ = true ↔ ∃ q, q < B ∧ (f q).fil ∧ home q = p)
  uniq : ∀ p q, p < q → q < B → (f p).fil → (f q).fil → home p = home q → (f p).quo ≠ (f q).quo

variable {B : Nat} {f : Nat → Slot} {home : Nat → Nat}

theorem Lay.occ_home (L : Lay B f home) {p : Nat} (hp : p < B) (h : (f p).fil) : (f (home p)).occ = true := by
  have := L.le p hp h
  exact (L.occ _ (by omega)).2 ⟨p, hp, h, rfl⟩

/-- Where the run of `h` starts, or would start: behind the elements of smaller homes. -/
structure Head (B : Nat) (f : Nat → Slot) (home : Nat → Nat) (h i : Nat) : Prop where
  le : h ≤ i
  leB : i ≤ B
  pre : ∀ q, h ≤ q → q < i → (f q).fil ∧ home q < h
  post : i < B → (f i).fil → h ≤ home i

theorem exists_head (h : Nat) (hh : h < B) : ∃ i, Head B f home h i := by
  have key : ∀ n i, i + n = B → h ≤ i → (∀ q, h ≤ q → q < i → (f q).fil ∧ home q < h) → ∃ i, Head B f home h i := by
    intro n
    induction n with
    | zero =>
      intro i hi hle hpre
      exact ⟨i, hle, by omega, hpre, fun hc => by omega⟩
    | succ n ih =>
      intro i hi hle hpre
      by_cases hc : (f i).fil ∧ home i < h
      · refine ih (i + 1) (by omega) (by omega) ?_
        intro q h1 h2
        by_cases hq : q = i
        · rw [hq]; exact hc
        · exact hpre q h1 (by omega)
      · refine ⟨i, hle, by omega, hpre, ?_⟩
        intro _ hf
        by_contra hlt
        exact hc ⟨hf, by omega⟩
  exact key (B - h) h (by omega) (Nat.le_refl _) (by intro q h1 h2; omega)

/-- Behind the head there are only homes from `h` on. -/
theorem Head.after (L : Lay B f home) {h i : Nat} (H : Head B f home h i) {q : Nat} (hq : q < B) (hf : (f q).fil) (hiq : i ≤ q) : h ≤ home q := by
  by_cases hi : (f i).fil
  · exact Nat.le_trans (H.post (by omega) hi) (L.mono i q hiq hq hi hf)
  · have h1 := L.between q hq hf i
    by_contra hlt
    have := H.le
    exact hi (h1 (by omega) hiq)

theorem Head.before (L : Lay B f home) {h i : Nat} (H : Head B f home h i) {q : Nat} (hf : (f q).fil) (hqi : q < i) : home q < h := by
  by_cases hq : q < h
  · have := L.le q (by have := H.leB; omega) hf
    omega
  · exact (H.pre q (by omega) hqi).2

/-- The head of an occupied home holds an element of it. -/
theorem Head.occ (L : Lay B f home) {h i : Nat} (H : Head B f home h i) (hh : h < B) (ho : (f h).occ = true) : i < B ∧ (f i).fil ∧ home i = h := by
  obtain ⟨q, hq, hf, e⟩ := (L.occ h hh).1 ho
  have hiq : i ≤ q := by
    by_contra hlt
    have := H.before L hf (by omega)
    omega
  have hle := H.le
  have hfi : (f i).fil := L.between q hq hf i (by omega) hiq
  have h1 := H.after L (show i < B by omega) hfi (Nat.le_refl _)
  have h2 := L.mono i q hiq hq hfi hf
  exact ⟨by omega, hfi, by omega⟩

/-- Behind the head of a home that is not occupied there are only greater homes. -/
theorem Head.free (L : Lay B f home) {h i : Nat} (H : Head B f home h i) (hh : h < B) (ho : (f h).occ = false) {q : Nat} (hq : q < B) (hf : (f q).fil)
    (hiq : i ≤ q) : h < home q := by
  have h1 := H.after L hq hf hiq
  refine Nat.lt_of_le_of_ne h1 (fun e => ?_)
  have := (L.occ h hh).2 ⟨q, hq, hf, e.symm⟩
  rw [ho] at this
  simp at this

/-- The slot behind the run of `h`. -/
structure Tail (B : Nat) (f : Nat → Slot) (home : Nat → Nat) (h e : Nat) : Prop where
  le : h ≤ e
  leB : e ≤ B
  pre : ∀ q, h ≤ q → q < e → (f q).fil ∧ home q ≤ h
  post : ∀ q, q < B → (f q).fil → e ≤ q → h < home q

theorem Head.tail (L : Lay B f home) {h i : Nat} (H : Head B f home h i) (hh : h < B) (ho : (f h).occ = false) : Tail B f home h i :=
  ⟨H.le, H.leB, fun q h1 h2 => ⟨(H.pre q h1 h2).1, Nat.le_of_lt (H.pre q h1 h2).2⟩, fun _ hq hf hiq => H.free L hh ho hq hf hiq⟩

/-- The slots after an insertion at `e`, with `y` the first empty slot from `e` on. -/
def insSlot (f : Nat → Slot) (h e y quo : Nat) (q : Nat) : Slot :=
  if q = e then ⟨(f e).occ || decide (e = h), (f h).occ, (f h).occ || decide (e ≠ h), false, quo⟩
  else if e < q ∧ q ≤ y then ⟨(f q).occ, (f (q - 1)).cont, true, (f q).del, (f (q - 1)).quo⟩
  else if q = h then { f q with occ := true }
  else f q

def insHome (home : Nat → Nat) (h e y : Nat) (q : Nat) : Nat :=
  if q < e then home q else if q = e then h else if q ≤ y then home (q - 1) else home q

theorem insSlot_fil {h e y quo : Nat} (hfe : ∀ q, e ≤ q → q < y → (f q).fil) (T : Tail B f home h e) (hey : e ≤ y) (q : Nat) :
    (insSlot f h e y quo q).fil ↔ (f q).fil ∨ q = y := by
  have hle := T.le
  unfold insSlot
  split
  · rename_i hq
    subst hq
    have h1 : (f q).fil ∨ q = y := by
      by_cases hqy : q = y
      · exact .inr hqy
      · exact .inl (hfe q (Nat.le_refl _) (by omega))
    simp only [h1, iff_true]
    simp only [Slot.fil, Bool.or_eq_true, decide_eq_true_eq]
    by_cases hqh : q = h
    · exact .inl (.inr hqh)
    · exact .inr (.inr (.inl (.inr hqh)))
  · rename_i hqe
    split
    · rename_i hq
      have h1 : (f q).fil ∨ q = y := by
        by_cases hqy : q = y
        · exact .inr hqy
        · exact .inl (hfe q (by omega) (by omega))
      simp only [h1, iff_true]
      exact .inr (.inr (.inl rfl))
    · rename_i hq
      have hqy : q ≠ y := by omega
      simp only [hqy, or_false]
      split
      · rename_i hqh
        have := (T.pre q (by omega) (by omega)).1
        simp only [this, iff_true]
        exact .inl rfl
      · rfl

theorem insert_lay (L : Lay B f home) {h e y quo : Nat} (hh : h < B) (T : Tail B f home h e) (hey : e ≤ y) (hy : y < B) (hny : ¬ (f y).fil)
    (hfe : ∀ q, e ≤ q → q < y → (f q).fil) (huq : ∀ p, p < B → (f p).fil → home p = h → (f p).quo ≠ quo) :
    Lay B (insSlot f h e y quo) (insHome home h e y) := by
  have hle := T.le
  have hfil := insSlot_fil (quo := quo) hfe T hey
  have hocc : (f h).occ = true ↔ e > 0 ∧ (f (e - 1)).fil ∧ home (e - 1) = h := by
    rw [L.occ h hh]
    constructor
    · rintro ⟨q, hq, hf, e1⟩
      have hqe : q < e := by
        by_contra hlt
        have := T.post q hq hf (by omega)
        omega
      have hhq := L.le q hq hf
      have h1 := T.pre (e - 1) (by omega) (by omega)
      have h2 := L.mono q (e - 1) (by omega) (by omega) hf h1.1
      exact ⟨by omega, h1.1, by omega⟩
    · rintro ⟨h1, h2, h3⟩
      exact ⟨e - 1, by omega, h2, h3⟩
  -- homes of the slots before `e` and from `e` on
  have hbef : ∀ q, q < e → (f q).fil → home q ≤ h := by
    intro q hq hf
    by_cases hqh : q < h
    · have := L.le q (by omega) hf
      omega
    · exact (T.pre q (by omega) hq).2
  have haft : ∀ q, q < B → (f q).fil → e ≤ q → h < home q := T.post
  -- behind `y` homes are behind `y`
  have hbeh : ∀ q, q < B → (f q).fil → y < q → y < home q := by
    intro q hq hf hyq
    by_contra hlt
    exact hny (L.between q hq hf y (by omega) (by omega))
  have hhome_le : ∀ p, p < B → (insSlot f h e y quo p).fil → insHome home h e y p ≤ p := by
    intro p hp hf
    rw [hfil] at hf
    unfold insHome
    split
    · rename_i hpe
      exact L.le p hp (hf.resolve_right (by omega))
    · split
      · omega
      · split
        · rename_i h1 h2 h3
          have := L.le (p - 1) (by omega) (hfe _ (by omega) (by omega))
          omega
        · rename_i h1 h2 h3
          exact L.le p hp (hf.resolve_right (by omega))
  refine ⟨hhome_le, ?_, ?_, ?_, ?_, ?_, ?_, ?_⟩
  · intro p hp hf q h1 h2
    rw [hfil] at hf ⊢
    unfold insHome at h1
    by_cases hqy : q = y
    · exact .inr hqy
    · left
      split at h1
      · rename_i hpe
        exact L.between p hp (hf.resolve_right (by omega)) q h1 h2
      · split at h1
        · rename_i hpe
          by_cases hqe : q < e
          · exact (T.pre q h1 hqe).1
          · exact hfe q (by omega) (by omega)
        · split at h1
          · by_cases hqp : q ≤ p - 1
            · exact L.between (p - 1) (by omega) (hfe _ (by omega) (by omega)) q h1 hqp
            · exact hfe q (by omega) (by omega)
          · exact L.between p hp (hf.resolve_right (by omega)) q h1 h2
  · intro p q hpq hq hfp hfq
    rw [hfil] at hfp hfq
    have hyB : ∀ r, y < r → r < B → (f r).fil → y < home r := fun r h1 h2 h3 => hbeh r h2 h3 h1
    -- the home of any slot up to `y` is at most `y`
    unfold insHome
    by_cases hp1 : p < e
    · rw [if_pos hp1]
      have hfp' := hfp.resolve_right (by omega)
      have hph := hbef p hp1 hfp'
      by_cases hq1 : q < e
      · rw [if_pos hq1]
        exact L.mono p q hpq hq hfp' (hfq.resolve_right (by omega))
      · rw [if_neg hq1]
        split
        · exact hph
        · split
          · have := haft (q - 1) (by omega) (hfe _ (by omega) (by omega)) (by omega)
            omega
          · have := haft q hq (hfq.resolve_right (by omega)) (by omega)
            omega
    · rw [if_neg hp1, if_neg (show ¬ q < e by omega)]
      by_cases hp2 : p = e
      · rw [if_pos hp2]
        split
        · omega
        · split
          · have := haft (q - 1) (by omega) (hfe _ (by omega) (by omega)) (by omega)
            omega
          · have := haft q hq (hfq.resolve_right (by omega)) (by omega)
            omega
      · rw [if_neg hp2, if_neg (show ¬ q = e by omega)]
        by_cases hp3 : p ≤ y
        · rw [if_pos hp3]
          have hfp1 := hfe (p - 1) (by omega) (by omega)
          split
          · exact L.mono (p - 1) (q - 1) (by omega) (by omega) hfp1 (hfe _ (by omega) (by omega))
          · exact L.mono (p - 1) q (by omega) hq hfp1 (hfq.resolve_right (by omega))
        · rw [if_neg hp3, if_neg (show ¬ q ≤ y by omega)]
          exact L.mono p q hpq hq (hfp.resolve_right (by omega)) (hfq.resolve_right (by omega))
  · intro p hp
    rw [hfil]
    unfold insSlot insHome
    by_cases hp1 : p = e
    · subst hp1
      rw [if_pos rfl, if_neg (by omega), if_pos rfl]
      simp only [Bool.or_eq_true, decide_eq_true_eq]
      have h1 : (f p).fil ∨ p = y := by
        by_cases hqy : p = y
        · exact .inr hqy
        · exact .inl (hfe p (Nat.le_refl _) (by omega))
      simp only [h1, true_and]
      constructor
      · rintro (h2 | h2)
        · have h3 := hocc.1 h2
          have := L.le (p - 1) (by omega) h3.2.1
          omega
        · omega
      · intro h2
        right
        omega
    · rw [if_neg hp1]
      by_cases hp2 : e < p ∧ p ≤ y
      · rw [if_pos hp2, if_neg (by omega), if_neg hp1, if_pos hp2.2]
        have h1 := hfe (p - 1) (by omega) (by omega)
        have h2 := L.le (p - 1) (by omega) h1
        have h3 : (f p).fil ∨ p = y := by
          by_cases hqy : p = y
          · exact .inr hqy
          · exact .inl (hfe p (by omega) (by omega))
        simp only [true_iff]
        exact ⟨h3, by omega⟩
      · rw [if_neg hp2]
        have hpy : p ≠ y := by omega
        have key : (f p).sh = true ↔ (f p).fil ∧ home p < p := L.sh p hp
        simp only [hpy, or_false]
        have hs : (if p = h then { f p with occ := true } else f p).sh = (f p).sh := by split <;> rfl
        rw [hs, key]
        by_cases hpe : p < e
        · rw [if_pos hpe]
        · rw [if_neg hpe, if_neg hp1, if_neg (by omega)]
  · unfold insSlot
    split
    · rename_i he
      cases ho : (f h).occ with
      | false => rfl
      | true => have := (hocc.1 ho).1; omega
    · rw [if_neg (by omega)]
      split
      · exact L.cont0
      · exact L.cont0
  · intro p hp
    rw [hfil, hfil]
    have hB := L.cont p hp
    unfold insSlot insHome
    by_cases h1 : p + 1 = e
    · rw [if_pos h1, if_pos (show p < e by omega), if_neg (show ¬ p + 1 < e by omega), if_pos h1]
      have hf1 : (f (p + 1)).fil ∨ p + 1 = y := by
        by_cases hqy : p + 1 = y
        · exact .inr hqy
        · exact .inl (hfe (p + 1) (by omega) (by omega))
      simp only
      rw [hocc, show e - 1 = p by omega]
      have hpy : p ≠ y := by omega
      simp only [hf1, true_and, hpy, or_false]
      exact ⟨fun h => h.2, fun h => ⟨by omega, h⟩⟩
    · rw [if_neg h1]
      by_cases h2 : e < p + 1 ∧ p + 1 ≤ y
      · rw [if_pos h2, if_neg (show ¬ p + 1 < e by omega), if_neg h1, if_pos h2.2]
        simp only [Nat.add_sub_cancel]
        have hfp : (f p).fil := hfe p (by omega) (by omega)
        have hf1 : (f (p + 1)).fil ∨ p + 1 = y := by
          by_cases hqy : p + 1 = y
          · exact .inr hqy
          · exact .inl (hfe (p + 1) (by omega) (by omega))
        simp only [hfp, hf1, true_or, true_and]
        rw [if_neg (show ¬ p < e by omega)]
        by_cases h3 : p = e
        · rw [if_pos h3]
          have hne : ¬ h = home p := by
            have := haft p (by omega) hfp (by omega)
            omega
          simp only [hne, iff_false]
          intro hc
          -- `e` would continue the run before it
          by_cases hp0 : p = 0
          · rw [hp0, L.cont0] at hc; simp at hc
          · have := (L.cont (p - 1) (by omega)).1 (by rw [show p - 1 + 1 = p by omega]; exact hc)
            rw [show p - 1 + 1 = p by omega] at this
            have h4 := hbef (p - 1) (by omega) this.1
            have h5 := haft p (by omega) hfp (by omega)
            omega
        · rw [if_neg h3, if_pos (show p ≤ y by omega)]
          have := L.cont (p - 1) (by omega)
          rw [show p - 1 + 1 = p by omega] at this
          rw [this]
          simp only [hfp, true_and, hfe (p - 1) (by omega) (by omega)]
      · rw [if_neg h2]
        have hpy : p + 1 ≠ y := by omega
        simp only [hpy, or_false]
        have hs : (if p + 1 = h then { f (p + 1) with occ := true } else f (p + 1)).cont = (f (p + 1)).cont := by split <;> rfl
        rw [hs, hB]
        by_cases h3 : p + 1 < e
        · rw [if_pos h3, if_pos (show p < e by omega)]
          have : p ≠ y := by omega
          simp only [this, or_false]
        · have h4 : y < p + 1 := by omega
          rw [if_neg h3, if_neg h1, if_neg (show ¬ p + 1 ≤ y by omega), if_neg (show ¬ p < e by omega)]
          by_cases h5 : p = y
          · subst h5
            constructor
            · rintro ⟨h6, _⟩; exact absurd h6 hny
            · rintro ⟨_, h6, h7⟩
              have h8 := hbeh (p + 1) hp h6 (by omega)
              exfalso
              split at h7
              · omega
              · rw [if_pos (Nat.le_refl p)] at h7
                have := L.le (p - 1) (by omega) (hfe (p - 1) (by omega) (by omega))
                omega
          · rw [if_neg (show ¬ p = e by omega), if_neg (show ¬ p ≤ y by omega)]
            simp only [h5, or_false]
  · intro p hp
    have hB := L.occ p hp
    have hother : p ≠ h → ((∃ q, q < B ∧ (f q).fil ∧ home q = p) ↔ ∃ q, q < B ∧ (insSlot f h e y quo q).fil ∧ insHome home h e y q = p) := by
      intro hph
      constructor
      · rintro ⟨q, hq, hf, e1⟩
        by_cases h1 : q < e
        · exact ⟨q, hq, (hfil q).2 (.inl hf), by unfold insHome; rw [if_pos h1]; exact e1⟩
        · by_cases h2 : q < y
          · refine ⟨q + 1, by omega, (hfil _).2 ?_, ?_⟩
            · by_cases hqy : q + 1 = y
              · exact .inr hqy
              · exact .inl (hfe (q + 1) (by omega) (by omega))
            · unfold insHome
              rw [if_neg (by omega), if_neg (by omega), if_pos (by omega)]
              exact e1
          · have h3 : q ≠ y := by rintro rfl; exact hny hf
            refine ⟨q, hq, (hfil q).2 (.inl hf), ?_⟩
            unfold insHome
            rw [if_neg h1, if_neg (by omega), if_neg (by omega)]
            exact e1
      · rintro ⟨q, hq, hf, e1⟩
        rw [hfil] at hf
        unfold insHome at e1
        split at e1
        · exact ⟨q, hq, hf.resolve_right (by omega), e1⟩
        · split at e1
          · exact absurd e1.symm hph
          · split at e1
            · exact ⟨q - 1, by omega, hfe _ (by omega) (by omega), e1⟩
            · exact ⟨q, hq, hf.resolve_right (by omega), e1⟩
    by_cases hph : p = h
    · have h1 : (insSlot f h e y quo p).occ = true := by
        unfold insSlot
        split
        · rename_i hpe
          simp only [Bool.or_eq_true, decide_eq_true_eq]
          right; omega
        · rw [if_neg (by omega)]
      simp only [h1, true_iff]
      refine ⟨e, by omega, (hfil e).2 ?_, ?_⟩
      · by_cases hqy : e = y
        · exact .inr hqy
        · exact .inl (hfe e (Nat.le_refl _) (by omega))
      · unfold insHome
        rw [if_neg (by omega), if_pos rfl, hph]
    · rw [← hother hph, ← hB]
      unfold insSlot
      split
      · rename_i hpe
        subst hpe
        simp [hph]
      · split
        · rfl
        · rfl
  · -- quotients
    intro p q hpq hq hfp hfq hhe
    rw [hfil] at hfp hfq
    have hq' : ∀ r, r ≠ e → (insSlot f h e y quo r).quo = if e < r ∧ r ≤ y then (f (r - 1)).quo else (f r).quo := by
      intro r hr
      unfold insSlot
      rw [if_neg hr]
      split
      · rfl
      · split <;> rfl
    have he' : (insSlot f h e y quo e).quo = quo := by unfold insSlot; rw [if_pos rfl]
    unfold insHome at hhe
    by_cases hp1 : p = e
    · rw [hp1, he', hq' q (by omega)]
      rw [if_neg (by omega), if_pos hp1, if_neg (by omega), if_neg (by omega)] at hhe
      by_cases hq2 : q ≤ y
      · rw [if_pos hq2] at hhe
        have := haft (q - 1) (by omega) (hfe _ (by omega) (by omega)) (by omega)
        omega
      · rw [if_neg hq2] at hhe
        have := haft q hq (hfq.resolve_right (by omega)) (by omega)
        omega
    · rw [hq' p hp1]
      by_cases hq1 : q = e
      · rw [hq1, he', if_neg (by omega)]
        rw [if_pos (by omega), if_neg (by omega), if_pos hq1] at hhe
        exact huq p (by omega) (hfp.resolve_right (by omega)) hhe
      · rw [hq' q hq1]
        by_cases hp2 : p < e
        · rw [if_pos hp2] at hhe
          rw [if_neg (by omega)]
          have hfp' := hfp.resolve_right (show p ≠ y by omega)
          by_cases hq2 : q < e
          · rw [if_pos hq2] at hhe
            rw [if_neg (by omega)]
            exact L.uniq p q hpq hq hfp' (hfq.resolve_right (by omega)) hhe
          · rw [if_neg hq2, if_neg hq1] at hhe
            have h1 := hbef p hp2 hfp'
            split at hhe
            · have := haft (q - 1) (by omega) (hfe _ (by omega) (by omega)) (by omega)
              omega
            · have := haft q hq (hfq.resolve_right (by omega)) (by omega)
              omega
        · rw [if_neg hp2, if_neg hp1, if_neg (show ¬ q < e by omega), if_neg hq1] at hhe
          by_cases hp3 : p ≤ y
          · rw [if_pos hp3] at hhe
            rw [if_pos ⟨by omega, hp3⟩]
            have hfp1 := hfe (p - 1) (by omega) (by omega)
            by_cases hq3 : q ≤ y
            · rw [if_pos hq3] at hhe
              rw [if_pos ⟨by omega, hq3⟩]
              exact L.uniq (p - 1) (q - 1) (by omega) (by omega) hfp1 (hfe _ (by omega) (by omega)) hhe
            · rw [if_neg hq3] at hhe
              rw [if_neg (by omega)]
              exact L.uniq (p - 1) q (by omega) hq hfp1 (hfq.resolve_right (by omega)) hhe
          · rw [if_neg hp3, if_neg (show ¬ q ≤ y by omega)] at hhe
            rw [if_neg (by omega), if_neg (by omega)]
            exact L.uniq p q hpq hq (hfp.resolve_right (by omega)) (hfq.resolve_right (by omega)) hhe

end Verif.CHT
