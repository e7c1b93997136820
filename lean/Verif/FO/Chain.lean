/-
The factor oracle: the transitions built for a text lead every factor of the text to a state.
-/
import Verif.FO.Insert

namespace Verif.FO
open Verif.PM (Byte)

/-- The transition from state `k` with label `c`: to the next state, or an external one. -/
def D (s : Builder) (k c t : Nat) : Prop := (ck s.check (k + 1) = c ∧ t = k + 1) ∨ (ck s.check (k + 1) ≠ c ∧ Ext s k c t)

theorem D_fun {s : Builder} {k c t t' : Nat} (h : D s k c t) (h' : D s k c t') : t = t' := by
  rcases h with ⟨h1, h2⟩ | ⟨h1, b, b1, b2, b3, b4, _⟩ <;> rcases h' with ⟨g1, g2⟩ | ⟨g1, b', c1, c2, c3, c4, _⟩
  · omega
  · exact absurd h1 g1
  · exact absurd g1 h1
  · rw [b1] at c1
    have := Option.some.inj c1
    subst this
    rw [← b4, ← c4]

theorem transition_spec (s : Builder) (h : Inv s No) (k n : Nat) (hk : k + 1 ≤ s.check.length) (hn : n ≤ s.check.length) :
    (∃ t, s.transition k n = some t ∧ 0 < t ∧ D s k (ck s.check n) t) ∨ (s.transition k n = some 0 ∧ ∀ t, ¬ D s k (ck s.check n) t) := by
  have hbl := h.blen
  unfold Builder.transition
  rw [checkAt_eq _ _ hk, checkAt_eq _ _ hn]
  simp only [Option.bind_eq_bind, Option.bind_some, Option.pure_def]
  by_cases ha : ck s.check (k + 1) = ck s.check n
  · rw [if_pos ha]
    exact Or.inl ⟨k + 1, rfl, by omega, Or.inl ⟨ha, rfl⟩⟩
  · rw [if_neg ha]
    obtain ⟨b, hb⟩ : ∃ b, s.base[k]? = some b := ⟨_, List.getElem?_eq_getElem (by omega)⟩
    rw [hb, Option.bind_some]
    have nod : (∀ t, ¬ Ext s k (ck s.check n) t) → ∀ t, ¬ D s k (ck s.check n) t := by
      rintro hne t (⟨h1, _⟩ | ⟨_, h2⟩)
      · exact ha h1
      · exact hne t h2
    by_cases hbe : b = kEmpty
    · rw [if_pos hbe]
      refine Or.inr ⟨rfl, nod ?_⟩
      rintro t ⟨b', h1, h2, _⟩
      rw [hb] at h1
      exact h2 ((Option.some.inj h1).symm.trans hbe)
    · rw [if_neg hbe]
      have hx := xor_lt h.dvd (h.own _ _ hb hbe).1 (ck_lt s.check n)
      have e1 : s.usedTrans[b ^^^ ck s.check n]? = some (ut s (b ^^^ ck s.check n)) := some_getD _ _ _ (h.ring.n2 ▸ hx)
      have e2 : s.next[b ^^^ ck s.check n]? = some (nx s (b ^^^ ck s.check n)) := some_getD _ _ _ hx
      rw [e1, e2]
      simp only [Option.bind_some]
      cases hu : ut s (b ^^^ ck s.check n) with
      | false =>
        refine Or.inr ⟨rfl, nod ?_⟩
        rintro t ⟨b', h1, h2, h3, _⟩
        rw [hb] at h1
        rw [← Option.some.inj h1, hu] at h3; cases h3
      | true =>
        simp only [Bool.not_true, Bool.false_eq_true, if_false]
        by_cases h0 : nx s (b ^^^ ck s.check n) = 0
        · rw [if_pos h0]
          refine Or.inr ⟨rfl, nod ?_⟩
          rintro t ⟨b', h1, h2, h3, h4, h5, _⟩
          rw [hb] at h1
          rw [← Option.some.inj h1, h0] at h4; omega
        · rw [if_neg h0]
          have hle : nx s (b ^^^ ck s.check n) ≤ s.check.length := by
            rcases h.used _ hu with hz | hz | ⟨st, b', _, _, _, h2, _⟩
            · rw [hz, h.zero.2] at h0; omega
            · exact hz.elim
            · exact h2
          rw [checkAt_eq _ _ hle, Option.bind_some]
          by_cases hd : ck s.check (nx s (b ^^^ ck s.check n)) = ck s.check n
          · rw [if_neg (by simpa using hd)]
            exact Or.inl ⟨_, rfl, by omega, Or.inr ⟨ha, b, hb, hbe, hu, rfl, by omega, hd⟩⟩
          · rw [if_pos hd]
            refine Or.inr ⟨rfl, nod ?_⟩
            rintro t ⟨b', h1, h2, h3, h4, h5, h6⟩
            rw [hb] at h1
            rw [← Option.some.inj h1] at h4
            rw [← h4] at h6
            exact hd h6

/-- `k` is on the chain of suffix links from `j`. -/
inductive Ch (S : Nat → Nat) : Nat → Nat → Prop
  | refl (j : Nat) : Ch S j j
  | step {j k : Nat} : 0 < j → Ch S (S j) k → Ch S j k

theorem Ch.trans {S : Nat → Nat} {a b c : Nat} (h : Ch S a b) (h' : Ch S b c) : Ch S a c := by
  induction h with
  | refl => exact h'
  | step h0 _ ih => exact .step h0 (ih h')

theorem Ch.le {S : Nat → Nat} {n a b : Nat} (hS : ∀ x, 0 < x → x ≤ n → S x < x) (ha : a ≤ n) (h : Ch S a b) : b ≤ a := by
  induction h with
  | refl => exact Nat.le_refl _
  | step h0 _ ih =>
    have := hS _ h0 ha
    have := ih (by omega)
    omega

theorem Ch.congr {S S' : Nat → Nat} {n a b : Nat} (hS : ∀ x, 0 < x → x ≤ n → S x < x) (hE : ∀ x, 0 < x → x ≤ n → S x = S' x) (ha : a ≤ n)
    (h : Ch S a b) : Ch S' a b := by
  induction h with
  | refl => exact .refl _
  | step h0 _ ih =>
    have := hS _ h0 ha
    exact .step h0 (hE _ h0 ha ▸ ih (by omega))

theorem Ch.zero {S : Nat → Nat} {n : Nat} (hS : ∀ x, 0 < x → x ≤ n → S x < x) : ∀ j, j ≤ n → Ch S j 0 := by
  intro j
  induction j using Nat.strongRecOn with
  | _ j ih =>
    intro hj
    by_cases h0 : j = 0
    · subst h0; exact .refl _
    · have := hS j (by omega) hj
      exact .step (by omega) (ih _ this (by omega))

def lk (lrs : List Nat) (j : Nat) : Nat := lrs[j]?.getD 0

/-- The chain loop: the states of the chain down to `k'` receive the new transition. -/
theorem chainLoop_spec (fuel : Nat) (lrs : List Nat) (i : Nat) (hS : ∀ x, 0 < x → x ≤ i → lk lrs x < x) (h0 : lk lrs 0 = i + 1)
    (hl : i + 1 < lrs.length) : ∀ (k : Nat) (s : Builder), Inv s No → (∀ t, 0 < t → t ≤ s.check.length → ck s.check t ≠ 0) → i + 1 ≤ s.check.length →
    k ≤ i →
    chainLoop (findBase fuel) lrs i s k = .stop ∨ ∃ s' k', chainLoop (findBase fuel) lrs i s k = .ok (s', k') ∧ Inv s' No ∧ s'.check = s.check ∧
      (∀ st d t, Ext s' st d t ↔ Ext s st d t ∨ (d = ck s.check (i + 1) ∧ t = i + 1 ∧ Ch (lk lrs) k st ∧ (k' = i + 1 ∨ k' < st))) ∧
      (∀ st, Ch (lk lrs) k st → (k' = i + 1 ∨ k' < st) → ∀ t, ¬ D s st (ck s.check (i + 1)) t) ∧
      (k' = i + 1 ∨ (Ch (lk lrs) k k' ∧ ∃ t, D s k' (ck s.check (i + 1)) t)) := by
  intro k
  induction k using Nat.strongRecOn with
  | _ k ih =>
    intro s h hnz hi hk
    have hSle : ∀ a b, a ≤ i → Ch (lk lrs) a b → b ≤ a := fun a b ha hc => hc.le hS ha
    unfold chainLoop
    rw [dif_pos (by omega)]
    rcases transition_spec s h k (i + 1) (by omega) hi with ⟨t, e, ht, hd⟩ | ⟨e, hnd⟩
    · rw [e]
      simp only
      rw [if_neg (by omega)]
      refine Or.inr ⟨s, k, rfl, h, rfl, fun st d t => ⟨Or.inl, ?_⟩, fun st hc hor => ?_, Or.inr ⟨.refl _, t, hd⟩⟩
      · rintro (hz | ⟨_, _, hc, hor⟩)
        · exact hz
        · have := hSle _ _ hk hc
          omega
      · have := hSle _ _ hk hc
        omega
    · rw [e]
      simp only [if_true]
      have hno : ∀ t, ¬ Ext s k (ck s.check (i + 1)) t := by
        intro t he
        apply hnd t
        by_cases ha : ck s.check (k + 1) = ck s.check (i + 1)
        · exact absurd (Or.inl ⟨ha, rfl⟩) (hnd (k + 1))
        · exact Or.inr ⟨ha, he⟩
      rcases insertTrans_spec fuel s h hnz k (i + 1) (by omega) hi hno with ⟨es, _⟩ | ⟨s1, es, c1, h1, _, x1⟩
      · rw [es]; exact Or.inl rfl
      · rw [es]
        simp only
        have el : lrs[k]? = some (lk lrs k) := some_getD _ _ _ (by omega)
        rw [el]
        simp only
        have hDo : ∀ st t, st ≠ k → (D s1 st (ck s.check (i + 1)) t ↔ D s st (ck s.check (i + 1)) t) := by
          intro st t hne
          unfold D
          rw [c1, x1]
          constructor
          · rintro (hz | ⟨hz, hz1 | hz1⟩)
            · exact Or.inl hz
            · exact Or.inr ⟨hz, hz1⟩
            · exact absurd hz1.1 hne
          · rintro (hz | ⟨hz, hz1⟩)
            · exact Or.inl hz
            · exact Or.inr ⟨hz, Or.inl hz1⟩
        by_cases hk0 : k = 0
        · subst hk0
          rw [h0, dif_neg (by omega), if_pos rfl]
          have hc0 : ∀ st, Ch (lk lrs) 0 st → st = 0 := by
            intro st hc
            have := hSle _ _ (by omega) hc
            omega
          refine Or.inr ⟨s1, i + 1, rfl, h1, c1, fun st d t => ?_, fun st hc _ t => ?_, Or.inl rfl⟩
          · rw [x1]
            constructor
            · rintro (hz | ⟨rfl, rfl, rfl⟩)
              · exact Or.inl hz
              · exact Or.inr ⟨rfl, rfl, .refl _, Or.inl rfl⟩
            · rintro (hz | ⟨rfl, rfl, hc, _⟩)
              · exact Or.inl hz
              · exact Or.inr ⟨hc0 st hc, rfl, rfl⟩
          · rw [hc0 st hc]; exact hnd t
        · have hlt := hS k (by omega) hk
          rw [dif_pos hlt]
          rcases ih _ hlt s1 h1 (by rw [c1]; exact hnz) (by rw [c1]; exact hi) (by omega) with es2 | ⟨s2, k2, es2, h2, c2, x2, n2, z2⟩
          · exact Or.inl es2
          · rw [c1] at c2 x2 n2 z2
            have hk2 : k2 = i + 1 ∨ k2 < k := by
              rcases z2 with z | ⟨z, _⟩
              · exact Or.inl z
              · have := hSle _ _ (by omega) z
                exact Or.inr (by omega)
            refine Or.inr ⟨s2, k2, es2, h2, c2, fun st d t => ?_, fun st hc hor t => ?_, ?_⟩
            · rw [x2, x1]
              constructor
              · rintro ((hz | ⟨rfl, rfl, rfl⟩) | ⟨rfl, rfl, hc, hor⟩)
                · exact Or.inl hz
                · exact Or.inr ⟨rfl, rfl, .refl _, hk2⟩
                · exact Or.inr ⟨rfl, rfl, .step (by omega) hc, hor⟩
              · rintro (hz | ⟨rfl, rfl, hc, hor⟩)
                · exact Or.inl (Or.inl hz)
                · cases hc with
                  | refl => exact Or.inl (Or.inr ⟨rfl, rfl, rfl⟩)
                  | step _ hc => exact Or.inr ⟨rfl, rfl, hc, hor⟩
            · cases hc with
              | refl => exact hnd t
              | step _ hc =>
                have := hSle _ _ (by omega) hc
                rw [← hDo _ _ (by omega)]
                exact n2 st hc hor t
            · rcases z2 with z | ⟨z, t, hz⟩
              · exact Or.inl z
              · have := hSle _ _ (by omega) z
                exact Or.inr ⟨.step (by omega) z, t, (hDo _ _ (by omega)).1 hz⟩

/-- The invariant of the loop over the letters. -/
structure LI (text : List Byte) (i : Nat) (lrs : List Nat) (s : Builder) : Prop where
  inv : Inv s No
  check : s.check = text
  len : lrs.length = text.length + 1
  le : ∀ st c t, Ext s st c t → t ≤ i
  dec : ∀ k, 0 < k → k ≤ i → lk lrs k < k
  com : ∀ k, 0 < k → k ≤ i → ∀ c t, D s k c t → t ≤ i → ∃ t', t' ≤ i ∧ D s (lk lrs k) c t' ∧ Ch (lk lrs) t t'

theorem D_lt {s : Builder} (h : Inv s No) {k c t : Nat} (hd : D s k c t) : k < t := by
  rcases hd with ⟨_, h2⟩ | ⟨_, h2⟩
  · omega
  · exact (h.ext_lt h2).1

theorem letterLoop_spec (fuel : Nat) (text : List Byte) (hnz : ∀ t, 0 < t → t ≤ text.length → ck text t ≠ 0) : ∀ (n i : Nat) (lrs : List Nat)
    (s : Builder), i + n ≤ text.length → LI text i lrs s →
    letterLoop (findBase fuel) n i lrs s = .stop ∨ ∃ s' lrs', letterLoop (findBase fuel) n i lrs s = .ok (s', lrs') ∧ LI text (i + n) lrs' s' := by
  intro n
  induction n with
  | zero =>
    intro i lrs s hi h
    exact Or.inr ⟨s, lrs, rfl, h⟩
  | succ n ih =>
    intro i lrs s hi h
    have hadd : i + (n + 1) = i + 1 + n := by omega
    rw [hadd]
    have hck := h.check
    have hlen := h.len
    unfold letterLoop
    rw [wr_eq _ _ _ (by omega)]
    simp only [lift_some, ok_bind]
    have hL : ∀ x, lk (lrs.set 0 (i + 1)) x = if 0 = x then i + 1 else lk lrs x := fun x => getD_set _ _ _ _ _ (by omega)
    have hlen1 : (lrs.set 0 (i + 1)).length = text.length + 1 := by rw [List.length_set]; exact hlen
    have dec1 : ∀ k, 0 < k → k ≤ i → lk (lrs.set 0 (i + 1)) k < k := by
      intro k h1 h2
      rw [hL, if_neg (by omega)]; exact h.dec k h1 h2
    have com1 : ∀ k, 0 < k → k ≤ i → ∀ c t, D s k c t → t ≤ i → ∃ t', t' ≤ i ∧ D s (lk (lrs.set 0 (i + 1)) k) c t' ∧
        Ch (lk (lrs.set 0 (i + 1))) t t' := by
      intro k h1 h2 c t h3 h4
      obtain ⟨t', g1, g2, g3⟩ := h.com k h1 h2 c t h3 h4
      refine ⟨t', g1, by rw [hL, if_neg (by omega)]; exact g2, g3.congr h.dec (fun x hx _ => ?_) h4⟩
      rw [hL, if_neg (by omega)]
    have z1 : lk (lrs.set 0 (i + 1)) 0 = i + 1 := by rw [hL, if_pos rfl]
    clear hL
    generalize lrs.set 0 (i + 1) = l1 at *
    have el : l1[i]? = some (lk l1 i) := some_getD _ _ _ (by omega)
    rw [el]
    simp only [lift_some, ok_bind]
    -- after the chain: builder `s'`, last state `k'`, new suffix link `v`
    have fin : ∀ s' k' v, Inv s' No → s'.check = s.check → v ≤ i →
        (∀ st d t, Ext s' st d t ↔ Ext s st d t ∨ (d = ck s.check (i + 1) ∧ t = i + 1 ∧ (0 < i ∧ Ch (lk l1) (lk l1 i) st ∧ (k' = i + 1 ∨ k' < st)))) →
        (0 < i → ∀ st, Ch (lk l1) (lk l1 i) st → (k' = i + 1 ∨ k' < st) → ∀ t, ¬ D s st (ck s.check (i + 1)) t) →
        (k' = i + 1 ∨ (0 < i ∧ Ch (lk l1) (lk l1 i) k' ∧ D s k' (ck s.check (i + 1)) v)) → LI text (i + 1) (l1.set (i + 1) v) s' := by
      intro s' k' v hI hc' hv hx hn hk'
      have hL : ∀ x, lk (l1.set (i + 1) v) x = if i + 1 = x then v else lk l1 x := fun x => getD_set _ _ _ _ _ (by omega)
      have hCh : ∀ a b, a ≤ i → Ch (lk l1) a b → Ch (lk (l1.set (i + 1) v)) a b := by
        intro a b ha hc
        refine hc.congr dec1 (fun x hx hxi => ?_) ha
        rw [hL, if_neg (by omega)]
      have hDold : ∀ k c t, D s k c t → t ≤ i → D s' k c t := by
        intro k c t hd ht
        unfold D
        rw [hc', hx]
        rcases hd with hd | ⟨d1, d2⟩
        · exact Or.inl hd
        · exact Or.inr ⟨d1, Or.inl d2⟩
      have hle_lk : 0 < i → lk l1 i ≤ i := fun h0 => by have := dec1 i h0 (by omega); omega
      refine ⟨hI, hc'.trans hck, by rw [List.length_set]; exact hlen1, fun st c t he => ?_, fun k h1 h2 => ?_, fun k h1 h2 c t hd ht => ?_⟩
      · rw [hx] at he
        rcases he with he | ⟨_, he, _⟩
        · have := h.le _ _ _ he; omega
        · omega
      · rw [hL]
        by_cases e : i + 1 = k
        · rw [if_pos e]; omega
        · rw [if_neg e]; exact dec1 k h1 (by omega)
      · have hkt := D_lt hI hd
        have hki : k ≤ i := by omega
        rw [hL, if_neg (by omega)]
        by_cases hti : t ≤ i
        · have hds : D s k c t := by
            unfold D at hd ⊢
            rw [hc', hx] at hd
            rcases hd with hd | ⟨d1, d2 | d2⟩
            · exact Or.inl hd
            · exact Or.inr ⟨d1, d2⟩
            · omega
          obtain ⟨t', g1, g2, g3⟩ := com1 k h1 hki c t hds hti
          exact ⟨t', by omega, hDold _ _ _ g2 g1, hCh _ _ hti g3⟩
        · -- a new transition
          have hte : t = i + 1 := by omega
          subst hte
          have hlast : ∀ st, Ch (lk l1) (lk l1 i) st → 0 < i → (k' = i + 1 ∨ k' < st) → D s' st (ck s.check (i + 1)) (i + 1) := by
            intro st hc h0 hor
            refine Or.inr ⟨?_, (hx _ _ _).2 (Or.inr ⟨rfl, rfl, h0, hc, hor⟩)⟩
            intro e
            rw [hc'] at e
            exact hn h0 st hc hor _ (Or.inl ⟨e, rfl⟩)
          -- the next state of the chain
          have key : ∀ st, 0 < i → c = ck s.check (i + 1) → Ch (lk l1) (lk l1 i) st → (k' = i + 1 ∨ k' ≤ st) →
              ∃ t', t' ≤ i + 1 ∧ D s' st c t' ∧ Ch (lk (l1.set (i + 1) v)) (i + 1) t' := by
            intro st h0 hce hc hor
            subst hce
            by_cases hor2 : k' = i + 1 ∨ k' < st
            · exact ⟨i + 1, by omega, hlast st hc h0 hor2, .refl _⟩
            · have hst : st = k' := by omega
              subst hst
              rcases hk' with hk' | ⟨_, _, hk'⟩
              · exact absurd (Or.inl hk') hor2
              · refine ⟨v, by omega, hDold _ _ _ hk' hv, .step (by omega) ?_⟩
                rw [hL, if_pos rfl]; exact .refl _
          have chle : ∀ st, 0 < i → Ch (lk l1) (lk l1 i) st → st ≤ lk l1 i := fun st h0 hc => hc.le dec1 (hle_lk h0)
          by_cases hkie : k = i
          · have h0 : 0 < i := by omega
            have hce : c = ck s.check (i + 1) := by
              rcases hd with ⟨d1, d2⟩ | ⟨d1, d2⟩
              · rw [← d1, hc', hkie]
              · rw [hx] at d2
                rcases d2 with d2 | d2
                · have := h.le _ _ _ d2; omega
                · exact d2.1
            rw [hkie]
            refine key _ h0 hce (.refl _) ?_
            rcases hk' with hk' | ⟨_, hk', _⟩
            · exact Or.inl hk'
            · exact Or.inr (chle _ h0 hk')
          · rcases hd with ⟨d1, d2⟩ | ⟨d1, d2⟩
            · omega
            · rw [hx] at d2
              rcases d2 with d2 | ⟨d2, _, h0, hc, hor⟩
              · have := h.le _ _ _ d2; omega
              · have hdk := dec1 k h1 hki
                refine key _ h0 d2 (hc.trans (.step h1 (.refl _))) ?_
                rcases hor with hor | hor
                · exact Or.inl hor
                · -- `k'` is further down the chain
                  rcases hk' with hk' | ⟨_, hk', _⟩
                  · exact Or.inl hk'
                  · refine Or.inr ?_
                    have lin : ∀ a, a ≤ i → Ch (lk l1) a k → Ch (lk l1) a k' → k' < k → k' ≤ lk l1 k := by
                      intro a
                      induction a using Nat.strongRecOn with
                      | _ a ih2 =>
                        intro ha hak hak' hlt
                        cases hak with
                        | refl =>
                          cases hak' with
                          | refl => omega
                          | step hj hc2 => exact hc2.le dec1 (by omega)
                        | step hj hc1 =>
                          have hda := dec1 a hj ha
                          have hk1 := hc1.le dec1 (by omega)
                          cases hak' with
                          | refl => omega
                          | step _ hc2 => exact ih2 _ hda (by omega) hc1 hc2 hlt
                    exact lin _ (hle_lk h0) hc hk' hor
    by_cases hi0 : i = 0
    · subst hi0
      have hcl : chainLoop (findBase fuel) l1 0 s (lk l1 0) = .ok (s, 1) := by
        unfold chainLoop
        rw [z1, dif_neg (by omega)]
      rw [hcl]
      simp only [ok_bind, Nat.zero_add, if_true, lift_some]
      rw [wr_eq _ _ _ (by omega)]
      simp only [lift_some, ok_bind]
      apply ih (0 + 1) _ _ (by omega)
      refine fin s 1 0 h.inv rfl (by omega) (fun st d t => ?_) (fun h0 => by omega) (Or.inl rfl)
      constructor
      · exact Or.inl
      · rintro (hz | ⟨_, _, h0, _⟩)
        · exact hz
        · omega
    · have hlt := dec1 i (by omega) (by omega)
      rcases chainLoop_spec fuel l1 i dec1 z1 (by omega) (lk l1 i) s h.inv (by rw [hck]; exact hnz) (by rw [hck]; omega) (by omega) with
        es | ⟨s', k', es, h', c', x', n', z'⟩
      · rw [es]; exact Or.inl rfl
      · rw [es]
        simp only [ok_bind]
        have hx' : ∀ st d t, Ext s' st d t ↔ Ext s st d t ∨ (d = ck s.check (i + 1) ∧ t = i + 1 ∧
            (0 < i ∧ Ch (lk l1) (lk l1 i) st ∧ (k' = i + 1 ∨ k' < st))) := by
          intro st d t
          rw [x']
          have : 0 < i := by omega
          simp only [this, true_and]
        by_cases hk' : k' = i + 1
        · rw [if_pos hk']
          simp only [lift_some, ok_bind]
          rw [wr_eq _ _ _ (by omega)]
          simp only [lift_some, ok_bind]
          apply ih (i + 1) _ _ (by omega)
          exact fin s' k' 0 h' c' (by omega) hx' (fun _ => n') (Or.inl hk')
        · rw [if_neg hk']
          rcases z' with z' | ⟨zc, t, zt⟩
          · exact absurd z' hk'
          · have hk'le := zc.le dec1 (by omega)
            have hti : t ≤ i := by
              rcases zt with ⟨_, zt⟩ | ⟨_, zt⟩
              · omega
              · exact h.le _ _ _ zt
            have htD : D s' k' (ck s.check (i + 1)) t := by
              rcases zt with zt | ⟨z1, z2⟩
              · exact Or.inl (by rw [c']; exact zt)
              · exact Or.inr ⟨by rw [c']; exact z1, (x' _ _ _).2 (Or.inl z2)⟩
            rcases transition_spec s' h' k' (i + 1) (by rw [c', hck]; omega) (by rw [c', hck]; omega) with ⟨t2, e2, _, hd2⟩ | ⟨_, hnd⟩
            · rw [e2]
              rw [c'] at hd2
              have := D_fun htD hd2
              subst this
              simp only [lift_some, ok_bind]
              rw [wr_eq _ _ _ (by omega)]
              simp only [lift_some, ok_bind]
              apply ih (i + 1) _ _ (by omega)
              exact fin s' k' t h' c' hti hx' (fun _ => n') (Or.inr ⟨by omega, zc, zt⟩)
            · rw [c'] at hnd
              exact absurd htD (hnd t)

/-- The state reached from `st` by a word. -/
def Reads (s : Builder) : Nat → List Byte → Nat → Prop
  | st, [], t => t = st
  | st, c :: w, t => ∃ u, D s st c.toNat u ∧ u ≤ s.check.length ∧ Reads s u w t

theorem Reads_append (s : Builder) : ∀ (w : List Byte) (st u : Nat) (c : Byte) (t : Nat), Reads s st w u → D s u c.toNat t →
    t ≤ s.check.length → Reads s st (w ++ [c]) t := by
  intro w
  induction w with
  | nil => intro st u c t h hd hl; cases h; exact ⟨t, hd, hl, rfl⟩
  | cons a w ih =>
    rintro st u c t ⟨v, h1, h2, h3⟩ hd hl
    exact ⟨v, h1, h2, ih _ _ _ _ h3 hd hl⟩

theorem LI.chain {text : List Byte} {lrs : List Nat} {s : Builder} (h : LI text text.length lrs s) {c : Nat} : ∀ (j k t : Nat), j ≤ text.length →
    Ch (lk lrs) j k → D s j c t → t ≤ text.length → ∃ t', D s k c t' ∧ t' ≤ text.length ∧ Ch (lk lrs) t t' := by
  intro j k t hj hc
  induction hc generalizing t with
  | refl => intro hd ht; exact ⟨t, hd, ht, .refl _⟩
  | step h0 _ ih =>
    intro hd ht
    obtain ⟨t', h1, h2, h3⟩ := h.com _ h0 hj c t hd ht
    have := h.dec _ h0 hj
    obtain ⟨t'', g1, g2, g3⟩ := ih t' (by omega) h2 h1
    exact ⟨t'', g1, g2, h3.trans g3⟩

/-- Every suffix of every prefix is read, to a state on the chain of the prefix. -/
theorem LI.reads {text : List Byte} {lrs : List Nat} {s : Builder} (h : LI text text.length lrs s) : ∀ (j : Nat), j ≤ text.length → ∀ p ≤ j,
    ∃ t, Reads s 0 ((text.take j).drop p) t ∧ t ≤ text.length ∧ Ch (lk lrs) j t := by
  intro j
  induction j with
  | zero =>
    intro hj p hp
    exact ⟨0, by simp [Reads], by omega, .refl _⟩
  | succ j ih =>
    intro hj p hp
    by_cases hpj : p = j + 1
    · refine ⟨0, ?_, by omega, Ch.zero h.dec _ hj⟩
      rw [List.drop_eq_nil_of_le (by rw [List.length_take]; omega)]
      rfl
    · obtain ⟨k, hk, hkl, hc⟩ := ih (by omega) p (by omega)
      have hcj : ck s.check (j + 1) = (text[j]).toNat := by
        rw [h.check]
        unfold ck checkAt
        rw [if_neg (by omega), Nat.add_sub_cancel, List.getElem?_eq_getElem (by omega)]; rfl
      obtain ⟨t, h1, h2, h3⟩ := h.chain j k (j + 1) (c := (text[j]).toNat) (by omega) hc (Or.inl ⟨hcj, rfl⟩) hj
      refine ⟨t, ?_, h2, h3⟩
      have : (text.take (j + 1)).drop p = (text.take j).drop p ++ [text[j]] := by
        rw [List.take_succ_eq_append_getElem (by omega), List.drop_append_of_le_length (by rw [List.length_take]; omega)]
      rw [this]
      exact Reads_append s _ _ _ _ _ hk h1 (by rw [h.check]; exact h2)

end Verif.FO
