/-
The scan that induces an order, on functions instead of arrays.

Slots `0 .. n-1` are visited in increasing order. A slot holding `j + 1` with `P j` puts `j` into the next slot of the region of its letter.
-/
import Verif.Pigeon

namespace Verif.SA

/-- Number of `i < n` with `p i`. -/
def cp (n : Nat) (p : Nat → Bool) : Nat := ((List.range n).filter p).length

theorem cp_succ (n : Nat) (p : Nat → Bool) : cp (n + 1) p = cp n p + if p n then 1 else 0 := by
  unfold cp
  rw [List.range_succ, List.filter_append, List.length_append]
  congr 1
  by_cases h : p n = true <;> simp [h]

/-- An injective numbering of some indices with `p` counts at most `cp`. -/
theorem cp_ge (n : Nat) (p : Nat → Bool) (m : Nat) (f : Nat → Nat) (hf : ∀ i, i < m → f i < n ∧ p (f i) = true)
    (hinj : ∀ i j, i < m → j < m → f i = f j → i = j) : m ≤ cp n p := by
  have h := nodup_subset ((List.range m).map f) ((List.range n).filter p) ?_ ?_
  · simpa [cp] using h
  · rw [List.Nodup, List.pairwise_map]
    refine (List.Pairwise.and_mem.1 (List.nodup_range (n := m))).imp ?_
    rintro a b ⟨ha, hb, hab⟩ e
    exact hab (hinj a b (List.mem_range.1 ha) (List.mem_range.1 hb) e)
  · intro x hx
    obtain ⟨i, hi, rfl⟩ := List.mem_map.1 hx
    have := hf i (List.mem_range.1 hi)
    exact List.mem_filter.2 ⟨List.mem_range.2 this.1, this.2⟩

/-- If every index with `p` is one of `m` values, there are at most `m`. -/
theorem cp_le (n : Nat) (p : Nat → Bool) (m : Nat) (f : Nat → Option Nat) (h : ∀ i, i < n → p i = true → ∃ u, u < m ∧ f u = some i) : cp n p ≤ m := by
  have h1 := nodup_subset ((List.range n).filter p) ((List.range m).filterMap f) (List.nodup_range.filter _) ?_
  · have h2 := List.length_filterMap_le f (List.range m)
    rw [List.length_range] at h2
    unfold cp
    omega
  · intro x hx
    have hx' := List.mem_filter.1 hx
    obtain ⟨u, hu, e⟩ := h x (List.mem_range.1 hx'.1) hx'.2
    exact List.mem_filterMap.2 ⟨u, List.mem_range.2 hu, e⟩

structure Setup where
  n : Nat
  s : Nat → Nat
  P : Nat → Bool
  B : Nat → Nat
  A0 : Nat → Option Nat
  R : Nat → Nat → Prop

/-- The size of a region. -/
def Setup.N (S : Setup) (c : Nat) : Nat := cp S.n (fun j => S.P j && decide (S.s j = c))

structure Setup.Ok (S : Setup) : Prop where
  lt : ∀ u j, S.A0 u = some j → u < S.n ∧ j < S.n ∧ S.P j = false
  inj : ∀ u v j, S.A0 u = some j → S.A0 v = some j → u = v
  pn : ∀ j, S.P j = true → j < S.n
  free : ∀ c u, S.B c ≤ u → u < S.B c + S.N c → S.A0 u = none
  fit : ∀ c, 0 < S.N c → S.B c + S.N c ≤ S.n
  disj : ∀ c c', c ≠ c' → 0 < S.N c → 0 < S.N c' → S.B c + S.N c ≤ S.B c' ∨ S.B c' + S.N c' ≤ S.B c
  ahead0 : ∀ u j, S.A0 u = some (j + 1) → S.P j = true → u < S.B (S.s j)
  ahead : ∀ j, S.P j = true → S.P (j + 1) = true → S.s j ≠ S.s (j + 1) → S.B (S.s (j + 1)) + S.N (S.s (j + 1)) ≤ S.B (S.s j)
  src : ∀ j, S.P j = true → S.P (j + 1) = true ∨ ∃ u, S.A0 u = some (j + 1)
  ord0 : ∀ u v i j, u < v → S.A0 u = some i → S.A0 v = some j → S.R i j
  step : ∀ i j, S.P i = true → S.P j = true → S.s i = S.s j → S.R (i + 1) (j + 1) → S.R i j
  ordB : ∀ i j, S.P i = true → S.P j = true → S.B (S.s i) < S.B (S.s j) → S.R i j
  ordl : ∀ u i j, S.A0 u = some i → S.P j = true → u < S.B (S.s j) → S.R i j
  ordr : ∀ u i j, S.A0 u = some i → S.P j = true → S.B (S.s j) + S.N (S.s j) ≤ u → S.R j i

structure Setup.Inv (S : Setup) (t : Nat) (A : Nat → Option Nat) (k : Nat → Nat) : Prop where
  out : ∀ u, (∀ c, ¬ (S.B c ≤ u ∧ u < S.B c + k c)) → A u = S.A0 u
  placed : ∀ c u, S.B c ≤ u → u < S.B c + k c → ∃ j t', A u = some j ∧ S.P j = true ∧ S.s j = c ∧ t' < t ∧ A t' = some (j + 1)
  le : ∀ c, k c ≤ S.N c
  inj : ∀ u v j, A u = some j → A v = some j → u = v
  complete : ∀ t' j, t' < t → A t' = some (j + 1) → S.P j = true → ∃ u, A u = some j
  sorted : ∀ u v i j, u < v → A u = some i → A v = some j → S.R i j
  lt : ∀ u j, A u = some j → u < S.n ∧ j < S.n

namespace Setup
variable {S : Setup} (h : S.Ok)

include h

theorem N_pos {j : Nat} (hj : S.P j = true) : 0 < S.N (S.s j) := by
  apply cp_ge S.n _ 1 (fun _ => j)
  · intro i _
    exact ⟨h.pn j hj, by simp [hj]⟩
  · intro i i' _ _ _; omega

theorem inv_init : S.Inv 0 S.A0 (fun _ => 0) where
  out := fun _ _ => rfl
  placed := fun c u h1 h2 => by omega
  le := fun _ => Nat.zero_le _
  inj := h.inj
  complete := fun t' j ht => by omega
  sorted := h.ord0
  lt := fun u j hu => ⟨(h.lt u j hu).1, (h.lt u j hu).2.1⟩

/-- An entry without `P` comes from the start. -/
theorem Inv.origin {t : Nat} {A : Nat → Option Nat} {k : Nat → Nat} (hI : S.Inv t A k) {u j : Nat} (hu : A u = some j) :
    (S.P j = true ∧ S.B (S.s j) ≤ u ∧ u < S.B (S.s j) + k (S.s j)) ∨ (S.P j = false ∧ S.A0 u = some j) := by
  by_cases hc : ∃ c, S.B c ≤ u ∧ u < S.B c + k c
  · obtain ⟨c, h1, h2⟩ := hc
    obtain ⟨j', t', e, hp, hs, _⟩ := hI.placed c u h1 h2
    rw [hu] at e
    cases e
    left
    rw [hs]
    exact ⟨hp, h1, h2⟩
  · have := hI.out u (fun c hcc => hc ⟨c, hcc⟩)
    rw [hu] at this
    exact Or.inr ⟨(h.lt u j this.symm).2.2, this.symm⟩

theorem Inv.room {t : Nat} {A : Nat → Option Nat} {k : Nat → Nat} (hI : S.Inv t A k) {j : Nat} (hj : A t = some (j + 1)) (hp : S.P j = true) :
    (∀ u, A u ≠ some j) ∧ k (S.s j) < S.N (S.s j) := by
  have hnew : ∀ u, A u ≠ some j := by
    intro u hu
    rcases Inv.origin h hI hu with ⟨_, h1, h2⟩ | ⟨h1, _⟩
    · obtain ⟨j', t', e, _, _, ht, e'⟩ := hI.placed _ u h1 h2
      rw [hu] at e
      cases e
      have := hI.inj t t' _ hj e'
      omega
    · rw [hp] at h1
      cases h1
  refine ⟨hnew, ?_⟩
  have hex : ∀ i, i < k (S.s j) → ∃ x, A (S.B (S.s j) + i) = some x ∧ S.P x = true ∧ S.s x = S.s j := by
    intro i hi
    obtain ⟨x, _, e, hx, hs, _⟩ := hI.placed (S.s j) (S.B (S.s j) + i) (by omega) (by omega)
    exact ⟨x, e, hx, hs⟩
  apply cp_ge S.n _ (k (S.s j) + 1) (fun i => if i < k (S.s j) then (A (S.B (S.s j) + i)).getD 0 else j)
  · intro i hi
    by_cases hik : i < k (S.s j)
    · obtain ⟨x, e, hx, hs⟩ := hex i hik
      simp only [if_pos hik, e, Option.getD_some]
      exact ⟨(hI.lt _ _ e).2, by simp [hx, hs]⟩
    · simp only [if_neg hik]
      exact ⟨h.pn j hp, by simp [hp]⟩
  · intro a b ha hb hab
    by_cases ha' : a < k (S.s j) <;> by_cases hb' : b < k (S.s j)
    · obtain ⟨x, e, _⟩ := hex a ha'
      obtain ⟨y, e', _⟩ := hex b hb'
      simp only [if_pos ha', if_pos hb', e, e', Option.getD_some] at hab
      subst hab
      have := hI.inj _ _ _ e e'
      omega
    · obtain ⟨x, e, _⟩ := hex a ha'
      simp only [if_pos ha', if_neg hb', e, Option.getD_some] at hab
      exact absurd (hab ▸ e) (hnew _)
    · obtain ⟨x, e, _⟩ := hex b hb'
      simp only [if_pos hb', if_neg ha', e, Option.getD_some] at hab
      exact absurd (e.trans (congrArg some hab.symm)) (hnew _)
    · omega

/-- Regions do not meet. -/
theorem Inv.sep {t : Nat} {A : Nat → Option Nat} {k : Nat → Nat} (hI : S.Inv t A k) {c c' u : Nat} (hc : c ≠ c') (hN : 0 < S.N c)
    (h1 : S.B c' ≤ u) (h2 : u < S.B c' + k c') : (u < S.B c ∧ S.B c' < S.B c) ∨ (S.B c + S.N c ≤ u ∧ S.B c < S.B c') := by
  have := hI.le c'
  rcases h.disj c c' hc hN (by omega) with h3 | h3
  · right; omega
  · left; omega

theorem Inv.next_put {t : Nat} {A : Nat → Option Nat} {k : Nat → Nat} (hI : S.Inv t A k) {j : Nat} (hj : A t = some (j + 1))
    (hp : S.P j = true) :
    t < S.B (S.s j) + k (S.s j) ∧ A (S.B (S.s j) + k (S.s j)) = none ∧ S.B (S.s j) + k (S.s j) < S.n ∧
    S.Inv (t + 1) (fun u => if u = S.B (S.s j) + k (S.s j) then some j else A u) (fun c => if c = S.s j then k c + 1 else k c) := by
  obtain ⟨hnew, hroom⟩ := Inv.room h hI hj hp
  have hN : 0 < S.N (S.s j) := by omega
  have hpn : S.B (S.s j) + k (S.s j) < S.n := by have := h.fit _ hN; omega
  have hnone : A (S.B (S.s j) + k (S.s j)) = none := by
    rw [hI.out]
    · exact h.free (S.s j) _ (by omega) (by omega)
    · rintro c ⟨h1, h2⟩
      by_cases hc : S.s j = c
      · subst hc; omega
      · have := Inv.sep h hI hc hN h1 h2
        omega
  have hahead : t < S.B (S.s j) + k (S.s j) := by
    rcases Inv.origin h hI hj with ⟨hp', h1, h2⟩ | ⟨_, h2⟩
    · by_cases hs : S.s j = S.s (j + 1)
      · rw [← hs] at h2; exact h2
      · have := h.ahead j hp hp' hs
        have := hI.le (S.s (j + 1))
        omega
    · have := h.ahead0 t j h2 hp
      omega
  refine ⟨hahead, hnone, hpn, ?_⟩
  generalize hpdef : S.B (S.s j) + k (S.s j) = p at *
  -- entries to the left and to the right of the new one
  have hleft : ∀ u i, u < p → A u = some i → S.R i j := by
    intro u i hu hi
    rcases Inv.origin h hI hi with ⟨hp', h1, h2⟩ | ⟨_, h2⟩
    · by_cases hs : S.s j = S.s i
      · obtain ⟨i', t', e, _, _, ht, e'⟩ := hI.placed _ u h1 h2
        rw [hi] at e
        cases e
        exact h.step i j hp' hp hs.symm (hI.sorted _ _ _ _ ht e' hj)
      · rcases Inv.sep h hI hs hN h1 h2 with h3 | h3
        · exact h.ordB i j hp' hp h3.2
        · omega
    · apply h.ordl u i j h2 hp
      apply Decidable.byContradiction
      intro hc
      have := h.free (S.s j) u (by omega) (by omega)
      rw [h2] at this
      cases this
  have hright : ∀ u i, p < u → A u = some i → S.R j i := by
    intro u i hu hi
    rcases Inv.origin h hI hi with ⟨hp', h1, h2⟩ | ⟨_, h2⟩
    · by_cases hs : S.s j = S.s i
      · rw [← hs] at h2
        omega
      · rcases Inv.sep h hI hs hN h1 h2 with h3 | h3
        · omega
        · exact h.ordB j i hp hp' h3.2
    · apply h.ordr u i j h2 hp
      apply Decidable.byContradiction
      intro hc
      have := h.free (S.s j) u (by omega) (by omega)
      rw [h2] at this
      cases this
  constructor
  · intro u hu
    have hup : u ≠ p := by
      rintro rfl
      refine hu (S.s j) ?_
      rw [if_pos rfl]
      omega
    simp only [if_neg hup]
    apply hI.out
    intro c hc
    refine hu c ⟨hc.1, ?_⟩
    split <;> omega
  · intro c u h1 h2
    by_cases hup : u = p
    · subst hup
      have hcs : S.s j = c := by
        apply Decidable.byContradiction
        intro hc
        simp only [if_neg (fun e => hc (Eq.symm e))] at h2
        have := Inv.sep h hI hc hN h1 h2
        omega
      exact ⟨j, t, by simp, hp, hcs, by omega, by rw [if_neg (by omega)]; exact hj⟩
    · have h2' : u < S.B c + k c := by
        by_cases hc : c = S.s j
        · subst hc
          simp only [if_true] at h2
          omega
        · simpa only [if_neg hc] using h2
      obtain ⟨x, t', e, hx, hs, ht, e'⟩ := hI.placed c u h1 h2'
      refine ⟨x, t', by simp only [if_neg hup, e], hx, hs, by omega, ?_⟩
      rw [if_neg (by rintro rfl; rw [hnone] at e'; cases e'), e']
  · intro c
    have := hI.le c
    by_cases hc : c = S.s j
    · subst hc
      simp only [if_true]
      omega
    · simpa only [if_neg hc] using this
  · intro u v i hu hv
    by_cases hup : u = p <;> by_cases hvp : v = p
    · omega
    · simp only [if_pos hup, if_neg hvp] at hu hv
      cases hu
      exact absurd hv (hnew v)
    · simp only [if_pos hvp, if_neg hup] at hu hv
      cases hv
      exact absurd hu (hnew u)
    · simp only [if_neg hup, if_neg hvp] at hu hv
      exact hI.inj u v i hu hv
  · intro t' i ht ht' hpi
    have htp : t' ≠ p := by omega
    simp only [if_neg htp] at ht'
    by_cases htt : t' = t
    · subst htt
      rw [hj] at ht'
      cases ht'
      exact ⟨p, by simp⟩
    · obtain ⟨u, hu⟩ := hI.complete t' i (by omega) ht' hpi
      refine ⟨u, ?_⟩
      rw [if_neg (by rintro rfl; rw [hnone] at hu; cases hu), hu]
  · intro u v a b huv hu hv
    by_cases hup : u = p <;> by_cases hvp : v = p
    · omega
    · simp only [if_pos hup, if_neg hvp] at hu hv
      cases hu
      exact hright v b (by omega) hv
    · simp only [if_pos hvp, if_neg hup] at hu hv
      cases hv
      exact hleft u a (by omega) hu
    · simp only [if_neg hup, if_neg hvp] at hu hv
      exact hI.sorted u v a b huv hu hv
  · intro u i hu
    by_cases hup : u = p
    · simp only [if_pos hup] at hu
      cases hu
      exact ⟨by omega, h.pn _ hp⟩
    · simp only [if_neg hup] at hu
      exact hI.lt u i hu

omit h in
theorem Inv.next_skip {t : Nat} {A : Nat → Option Nat} {k : Nat → Nat} (hI : S.Inv t A k) (hj : ∀ j, A t = some (j + 1) → S.P j = false) :
    S.Inv (t + 1) A k where
  out := hI.out
  placed := fun c u h1 h2 => by
    obtain ⟨j, t', e, hp, hs, ht, e'⟩ := hI.placed c u h1 h2
    exact ⟨j, t', e, hp, hs, by omega, e'⟩
  le := hI.le
  inj := hI.inj
  complete := fun t' j ht e hp => by
    by_cases htt : t' = t
    · subst htt
      rw [hj j e] at hp
      cases hp
    · exact hI.complete t' j (by omega) e hp
  sorted := hI.sorted
  lt := hI.lt

theorem Inv.all {A : Nat → Option Nat} {k : Nat → Nat} (hI : S.Inv S.n A k) : ∀ j, S.P j = true → ∃ u, A u = some j := by
  have key : ∀ d j, S.n - j = d → S.P j = true → ∃ u, A u = some j := by
    intro d
    induction d with
    | zero => intro j hd hp; have := h.pn j hp; omega
    | succ d ih =>
      intro j hd hp
      have hs : ∃ u, A u = some (j + 1) := by
        rcases h.src j hp with h1 | ⟨u, hu⟩
        · exact ih (j + 1) (by omega) h1
        · refine ⟨u, ?_⟩
          rw [hI.out, hu]
          rintro c ⟨h1, h2⟩
          have := hI.le c
          have := h.free c u h1 (by omega)
          rw [hu] at this
          cases this
      obtain ⟨u, hu⟩ := hs
      exact hI.complete u j (hI.lt u _ hu).1 hu hp
  exact fun j => key _ j rfl

theorem Inv.full {A : Nat → Option Nat} {k : Nat → Nat} (hI : S.Inv S.n A k) (c : Nat) : k c = S.N c := by
  have h1 := hI.le c
  have h2 : S.N c ≤ k c := by
    apply cp_le S.n _ (k c) (fun i => A (S.B c + i))
    intro j _ hj
    simp only [Bool.and_eq_true, decide_eq_true_eq] at hj
    obtain ⟨u, hu⟩ := Inv.all h hI j hj.1
    rcases Inv.origin h hI hu with ⟨_, h3, h4⟩ | ⟨h3, _⟩
    · rw [hj.2] at h3 h4
      exact ⟨u - S.B c, by omega, by rw [show S.B c + (u - S.B c) = u by omega, hu]⟩
    · rw [hj.1] at h3
      cases h3
  omega

end Setup

end Verif.SA
