/-
The loops that find slots.
-/
import Verif.CHT.Words

namespace Verif.CHT
open Verif.Bits Verif.Fit

/-- The number of occupied homes in `[a, b)`. -/
def cnt (f : Nat → Slot) (a : Nat) : Nat → Nat
  | 0 => 0
  | b + 1 => cnt f a b + if a ≤ b ∧ (f b).occ = true then 1 else 0

theorem cnt_zero {f : Nat → Slot} {a : Nat} : ∀ {b : Nat}, (∀ q, a ≤ q → q < b → (f q).occ = false) → cnt f a b = 0
  | 0, _ => rfl
  | b + 1, h => by
    rw [cnt, cnt_zero (fun q h1 h2 => h q h1 (by omega)), if_neg]
    rintro ⟨h1, h2⟩
    rw [h b h1 (by omega)] at h2
    simp at h2

theorem cnt_skip {f : Nat → Slot} {a a' : Nat} (haa : a ≤ a') : ∀ {b : Nat}, (∀ q, a ≤ q → q < a' → q < b → (f q).occ = false) → cnt f a b = cnt f a' b
  | 0, _ => rfl
  | b + 1, h => by
    rw [cnt, cnt, cnt_skip haa (fun q h1 h2 h3 => h q h1 h2 (by omega))]
    congr 1
    by_cases hb : a' ≤ b
    · simp [hb, show a ≤ b by omega]
    · by_cases hb2 : a ≤ b
      · simp [h b hb2 (by omega) (by omega)]
      · simp [hb, hb2]

theorem cnt_first {f : Nat → Slot} {a : Nat} (ho : (f a).occ = true) : ∀ {b : Nat}, a < b → cnt f a b = cnt f (a + 1) b + 1
  | 0, h => by omega
  | b + 1, h => by
    rw [cnt, cnt]
    by_cases hb : a = b
    · subst hb
      rw [cnt_zero (fun q h1 h2 => by omega), cnt_zero (fun q h1 h2 => by omega)]
      simp [ho]
    · rw [cnt_first ho (show a < b by omega)]
      simp only [show a ≤ b by omega, show a + 1 ≤ b by omega]
      omega

variable {kb vw : Nat} {t : Tab} {s : Nat} {home : Nat → Nat}

theorem back_spec (w : WT kb vw t) (L : Lay t.bucket (view kb t s) home) : ∀ (p n k : Nat), p < t.bucket → p ≤ n → (view kb t s p).sh = true →
    ∃ c, c < p ∧ (view kb t s c).sh = false ∧ (∀ q, c < q → q ≤ p → (view kb t s q).sh = true) ∧
      t.back n ((s + p) % t.bucket) k = some ((s + c) % t.bucket, k + cnt (view kb t s) c p) := by
  intro p
  induction p with
  | zero =>
    intro n k hp _ hs
    have := ((L.sh 0 hp).1 hs).2
    omega
  | succ p ih =>
    intro n k hp hn hs
    obtain ⟨n, rfl⟩ : ∃ m, n = m + 1 := ⟨n - 1, by omega⟩
    obtain ⟨x, hx, ho, _, hsh, _⟩ := read_view w s p
    have hpr : t.pred ((s + (p + 1)) % t.bucket) = (s + p) % t.bucket := by
      rw [pred_idx w _ (by omega)]
      rfl
    simp only [Tab.back, hpr, hx, Option.bind_eq_bind, Option.bind_some, Option.pure_def, ho, hsh]
    by_cases hsp : (view kb t s p).sh = true
    · rw [if_pos hsp]
      obtain ⟨c, hc, hcs, hall, e⟩ := ih n (if (view kb t s p).occ = true then k + 1 else k) (by omega) (by omega) hsp
      refine ⟨c, by omega, hcs, ?_, ?_⟩
      · intro q h1 h2
        by_cases hq : q = p + 1
        · rw [hq]; exact hs
        · exact hall q h1 (by omega)
      · rw [e, cnt]
        simp only [show c ≤ p by omega, true_and]
        split
        · simp only [Option.some.injEq, Prod.mk.injEq, true_and]
          omega
        · rfl
    · rw [if_neg hsp]
      refine ⟨p, by omega, by simpa using hsp, ?_, ?_⟩
      · intro q h1 h2
        rw [show q = p + 1 by omega]
        exact hs
      · rw [cnt, cnt_zero (fun q h1 h2 => by omega)]
        simp only [Nat.le_refl, true_and]
        split <;> simp

theorem fwd_spec (w : WT kb vw t) (L : Lay t.bucket (view kb t s) home) {h i c : Nat} (H : Head t.bucket (view kb t s) home h i)
    (hfil : ∀ q, c ≤ q → q < i → (view kb t s q).fil ∧ home q < h) (hhB : h < t.bucket) :
    ∀ (d j n : Nat), j + d + 1 = i → c ≤ j → d + 1 ≤ n → t.fwd n ((s + j) % t.bucket) (cnt (view kb t s) (home j) h) = some ((s + i) % t.bucket) := by
  have hi := H.leB
  intro d
  induction d with
  | zero =>
    intro j n hj hcj hn
    obtain ⟨n, rfl⟩ : ∃ m, n = m + 1 := ⟨n - 1, by omega⟩
    have hf := hfil j hcj (by omega)
    have ho := L.occ_home (show j < t.bucket by omega) hf.1
    have hc1 : cnt (view kb t s) (home j) h = 0 + 1 := by
      rw [cnt_first ho hf.2, cnt_zero]
      intro q h1 h2
      by_contra hq
      obtain ⟨g, hg, hgf, e⟩ := (L.occ q (by omega)).1 (by simpa using hq)
      by_cases hgj : g ≤ j
      · have := L.mono g j hgj (by omega) hgf hf.1
        omega
      · have := H.after L hg hgf (by omega)
        omega
    obtain ⟨x, hx, _, hcx, _⟩ := read_view w s (j + 1)
    have hncont : (view kb t s (j + 1)).cont = false := by
      by_cases hjB : j + 1 < t.bucket
      · by_contra hc
        obtain ⟨_, h2, h3⟩ := (L.cont j hjB).1 (by simpa using hc)
        have := H.after L hjB h2 (by omega)
        omega
      · have : j + 1 = 0 + t.bucket := by omega
        rw [this, view_per]
        exact L.cont0
    rw [hc1]
    simp only [Tab.fwd, succ_idx w, Option.bind_eq_bind]
    rw [Nat.add_assoc, hx]
    simp only [Option.bind_some, hcx, hncont, Bool.false_eq_true, if_false]
    rw [show i = j + 1 by omega]
  | succ d ih =>
    intro j n hj hcj hn
    obtain ⟨n, rfl⟩ : ∃ m, n = m + 1 := ⟨n - 1, by omega⟩
    have hf := hfil j hcj (by omega)
    have hf1 := hfil (j + 1) (by omega) (by omega)
    have ho := L.occ_home (show j < t.bucket by omega) hf.1
    have ih := ih (j + 1) n (by omega) (by omega) (by omega)
    have hm := L.mono j (j + 1) (by omega) (by omega) hf.1 hf1.1
    obtain ⟨x, hx, _, hcx, _⟩ := read_view w s (j + 1)
    have hcont := L.cont j (by omega)
    rw [cnt_first ho hf.2]
    simp only [Tab.fwd, succ_idx w, Option.bind_eq_bind]
    rw [Nat.add_assoc, hx]
    simp only [Option.bind_some, hcx]
    by_cases hc : (view kb t s (j + 1)).cont = true
    · rw [if_pos hc]
      rw [← (hcont.1 hc).2.2, cnt_first ho hf.2] at ih
      exact ih
    · rw [if_neg hc]
      have hne : home j ≠ home (j + 1) := fun e => hc (hcont.2 ⟨hf.1, hf1.1, e⟩)
      rw [cnt_skip (show home j + 1 ≤ home (j + 1) by omega)]
      · exact ih
      · intro q h1 h2 h3
        by_contra hq
        obtain ⟨g, hg, hgf, e⟩ := (L.occ q (by omega)).1 (by simpa using hq)
        by_cases hgj : g ≤ j
        · have := L.mono g j hgj (by omega) hgf hf.1
          omega
        · have := L.mono (j + 1) g (by omega) hg hf1.1 hgf
          omega

theorem head_spec (w : WT kb vw t) (L : Lay t.bucket (view kb t s) home) {h i : Nat} (hh : h < t.bucket) (H : Head t.bucket (view kb t s) home h i) :
    t.head ((s + h) % t.bucket) = some ((s + i) % t.bucket) := by
  obtain ⟨x, hx, _, _, hsx, _⟩ := read_view w s h
  unfold Tab.head
  simp only [hx, hsx, Option.bind_eq_bind, Option.bind_some, Option.pure_def]
  by_cases hs : (view kb t s h).sh = true
  · rw [if_pos hs]
    obtain ⟨c, hc, hcs, hall, e⟩ := back_spec w L h t.bucket 0 hh (by omega) hs
    rw [e]
    simp only [Option.bind_some, Nat.zero_add]
    have hsh := (L.sh h hh).1 hs
    have hhi : h < i := by
      by_contra hle
      have : i = h := by have := H.le; omega
      have := H.post (by omega) (this ▸ hsh.1)
      rw [‹i = h›] at this
      omega
    have hfil : ∀ q, c ≤ q → q < i → (view kb t s q).fil ∧ home q < h := by
      intro q h1 h2
      by_cases hqh : h ≤ q
      · exact H.pre q hqh h2
      · have hf : (view kb t s q).fil := by
          by_cases hqc : q = c
          · subst hqc
            have h3 := (L.sh (q + 1) (by omega)).1 (hall (q + 1) (by omega) (by omega))
            exact L.between (q + 1) (by omega) h3.1 q (by omega) (by omega)
          · exact ((L.sh q (by omega)).1 (hall q (by omega) (by omega))).1
        have := L.le q (by omega) hf
        exact ⟨hf, by omega⟩
    have hhc : home c = c := by
      have h1 := hfil c (Nat.le_refl _) (by omega)
      have h2 := L.le c (by omega) h1.1
      by_contra hne
      have := (L.sh c (by omega)).2 ⟨h1.1, by omega⟩
      rw [hcs] at this
      simp at this
    have := fwd_spec w L H hfil hh (i - c - 1) c (t.bucket * t.bucket + t.bucket) (by omega) (Nat.le_refl _) (by have := H.leB; omega)
    rw [hhc] at this
    exact this
  · rw [if_neg hs]
    have : i = h := by
      by_contra hne
      have hp := H.pre h (Nat.le_refl _) (by have := H.le; omega)
      exact hs ((L.sh h hh).2 hp)
    rw [this]

/-- The search through the run of `h`. -/
theorem find_spec (w : WT kb vw t) (L : Lay t.bucket (view kb t s) home) (h q : Nat) : ∀ (n i : Nat), i < t.bucket → t.bucket ≤ i + n → (view kb t s i).fil → home i = h →
    (∃ p, i ≤ p ∧ p < t.bucket ∧ (view kb t s p).fil ∧ home p = h ∧ (view kb t s p).quo = q ∧ t.find q n ((s + i) % t.bucket) = some ((s + p) % t.bucket, true)) ∨
    (∃ e, i < e ∧ e ≤ t.bucket ∧ (∀ p, i ≤ p → p < e → (view kb t s p).fil ∧ home p = h ∧ (view kb t s p).quo ≠ q) ∧
      (∀ p, p < t.bucket → (view kb t s p).fil → e ≤ p → h < home p) ∧ t.find q n ((s + i) % t.bucket) = some ((s + e) % t.bucket, false)) := by
  intro n
  induction n with
  | zero => intro i h1 h2; omega
  | succ n ih =>
    intro i hi hn hf hhi
    obtain ⟨x, hx, _, _, _, _, hqx, _⟩ := read_view w s i
    obtain ⟨x1, hx1, _, hcx, _⟩ := read_view w s (i + 1)
    simp only [Tab.find, hx, hqx, Option.bind_eq_bind, Option.bind_some, Option.pure_def, succ_idx w]
    by_cases hq : (view kb t s i).quo = q
    · simp only [if_pos hq]
      exact .inl ⟨i, Nat.le_refl _, hi, hf, hhi, hq, rfl⟩
    · simp only [if_neg hq]
      rw [Nat.add_assoc, hx1]
      simp only [Option.bind_some, hcx]
      by_cases hc : (view kb t s (i + 1)).cont = true
      · simp only [if_pos hc]
        have hiB : i + 1 < t.bucket := by
          by_contra hle
          have : i + 1 = 0 + t.bucket := by omega
          rw [this, view_per, L.cont0] at hc
          simp at hc
        obtain ⟨_, hf1, he⟩ := (L.cont i hiB).1 hc
        rcases ih (i + 1) hiB (by omega) hf1 (by omega) with ⟨p, h1, h2, h3, h4, h5, h6⟩ | ⟨e, h1, h2, h3, h4, h5⟩
        · exact .inl ⟨p, by omega, h2, h3, h4, h5, h6⟩
        · refine .inr ⟨e, by omega, h2, ?_, h4, h5⟩
          intro p hp1 hp2
          by_cases hpi : p = i
          · rw [hpi]; exact ⟨hf, hhi, hq⟩
          · exact h3 p (by omega) hp2
      · simp only [if_neg hc]
        refine .inr ⟨i + 1, by omega, by omega, ?_, ?_, rfl⟩
        · intro p hp1 hp2
          rw [show p = i by omega]
          exact ⟨hf, hhi, hq⟩
        · intro p hp hpf hip
          have hm := L.mono i p (by omega) hp hf hpf
          by_contra hle
          have hle2 := L.le i hi hf
          have hf1 : (view kb t s (i + 1)).fil := L.between p hp hpf (i + 1) (by omega) hip
          have hm1 := L.mono i (i + 1) (by omega) (by omega) hf hf1
          have hm2 := L.mono (i + 1) p hip hp hf1 hpf
          exact hc ((L.cont i (by omega)).2 ⟨hf, hf1, by omega⟩)

theorem nextNull_spec (w : WT kb vw t) {y : Nat} (hny : ¬ (view kb t s y).fil) : ∀ (d j n : Nat), j + d + 1 = y → d + 1 ≤ n →
    (∀ q, j < q → q < y → (view kb t s q).fil) → t.nextNull n ((s + j) % t.bucket) = some ((s + y) % t.bucket) := by
  intro d
  induction d with
  | zero =>
    intro j n hj hn _
    obtain ⟨n, rfl⟩ : ∃ m, n = m + 1 := ⟨n - 1, by omega⟩
    obtain ⟨x, hx, _, _, _, _, _, hz⟩ := read_view w s (j + 1)
    simp only [Tab.nextNull, Option.bind_eq_bind, Option.pure_def, succ_idx w]
    rw [Nat.add_assoc, hx, Option.bind_some, if_pos (hz.2 (by rw [show j + 1 = y by omega]; exact hny)), show j + 1 = y by omega]
  | succ d ih =>
    intro j n hj hn hf
    obtain ⟨n, rfl⟩ : ∃ m, n = m + 1 := ⟨n - 1, by omega⟩
    obtain ⟨x, hx, _, _, _, _, _, hz⟩ := read_view w s (j + 1)
    simp only [Tab.nextNull, Option.bind_eq_bind, Option.pure_def, succ_idx w]
    rw [Nat.add_assoc, hx, Option.bind_some, if_neg (fun h => hz.1 h (hf (j + 1) (by omega) (by omega)))]
    exact ih (j + 1) n (by omega) (by omega) (fun q h1 h2 => hf q (by omega) h2)

end Verif.CHT
