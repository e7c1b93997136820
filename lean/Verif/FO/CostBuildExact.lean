/-
The construction of the factor oracle: the exact numbers of calls of `transition` and `_insert_trans`.
-/
import Verif.FO.CostBuildLemmas

namespace Verif.FO
open Verif.PM (Byte)

/-- `E` lists the external transitions, each once, and none is hidden by the transition to the next state. -/
structure Lists (E : List (Nat × Nat × Nat)) (s : Builder) : Prop where
  nodup : E.Nodup
  mem : ∀ st c t, (st, c, t) ∈ E ↔ Ext s st c t
  hint : Hint s

theorem chainLoopC_lists (fuel : Nat) (lrs : List Nat) (i : Nat) : ∀ (k : Nat) (s : Builder) (a b : Nat)
    (E : List (Nat × Nat × Nat)), Inv s No → (∀ t, 0 < t → t ≤ s.check.length → ck s.check t ≠ 0) → i + 1 ≤ s.check.length → k ≤ i →
    Lists E s → ∀ s' k' a' b', chainLoopC (findBase fuel) lrs i s k a b = .ok (s', k', a', b') →
    ∃ E', Lists E' s' ∧ E'.length + b = E.length + b' := by
  intro k
  induction k using Nat.strongRecOn with
  | _ k ih =>
    intro s a b E h hnz hi hk hE s' k' a' b' e
    unfold chainLoopC at e
    rw [dif_pos (by omega)] at e
    rcases transition_spec s h k (i + 1) (by omega) hi with ⟨t, et, ht, hd⟩ | ⟨et, hnd⟩
    · rw [et] at e
      simp only at e
      rw [if_neg (by omega)] at e
      cases e
      exact ⟨E, hE, rfl⟩
    · rw [et] at e
      simp only [if_true] at e
      have hki : ck s.check (k + 1) ≠ ck s.check (i + 1) := fun ha => absurd (Or.inl ⟨ha, rfl⟩) (hnd (k + 1))
      have hno : ∀ t, ¬ Ext s k (ck s.check (i + 1)) t := fun t he => hnd t (Or.inr ⟨hki, he⟩)
      rcases insertTrans_spec fuel s h hnz k (i + 1) (by omega) hi hno with ⟨es, _⟩ | ⟨s1, es, c1, h1, _, x1⟩
      · rw [es] at e; cases e
      · rw [es] at e
        simp only at e
        have hE1 : Lists ((k, ck s.check (i + 1), i + 1) :: E) s1 := by
          refine ⟨List.nodup_cons.2 ⟨fun hm => hno _ ((hE.mem _ _ _).1 hm), hE.nodup⟩, fun st c t => ?_, fun st c t he => ?_⟩
          · rw [x1, List.mem_cons, hE.mem]
            simp only [Prod.mk.injEq]
            exact Or.comm
          · rw [c1]
            rcases (x1 st c t).1 he with he | ⟨rfl, rfl, rfl⟩
            · exact hE.hint _ _ _ he
            · exact hki
        split at e
        · cases e
        · split at e
          · rename_i hlt
            obtain ⟨E', g1, g2⟩ := ih _ hlt s1 _ _ _ h1 (by rw [c1]; exact hnz) (by rw [c1]; exact hi) (by omega) hE1 _ _ _ _ e
            refine ⟨E', g1, ?_⟩
            rw [List.length_cons] at g2
            omega
          · split at e
            · cases e
              refine ⟨_, hE1, ?_⟩
              rw [List.length_cons]
              omega
            · cases e

/-- The root has a transition by exactly the letters read so far. -/
theorem LI.root {text : List Byte} {i : Nat} {lrs : List Nat} {s : Builder} (h : LI text i lrs s) {c : Nat} :
    (∃ t, t ≤ i ∧ D s 0 c t) ↔ ∃ j, 0 < j ∧ j ≤ i ∧ ck text j = c := by
  have hck := h.check
  constructor
  · rintro ⟨t, ht, hd⟩
    have hlt := D_lt h.inv hd
    refine ⟨t, hlt, ht, ?_⟩
    rcases hd with ⟨h1, h2⟩ | ⟨_, h2⟩
    · rw [h2, ← hck]; exact h1
    · obtain ⟨_, _, _, _, _, _, e⟩ := h2
      rw [← hck]; exact e
  · rintro ⟨j, h1, h2, h3⟩
    have key : ∀ k, k < i → ∀ t, t ≤ i → D s k c t → ∃ t, t ≤ i ∧ D s 0 c t := by
      intro k
      induction k using Nat.strongRecOn with
      | _ k ih =>
        intro hk t ht hd
        rcases Nat.eq_zero_or_pos k with h0 | h0
        · subst h0
          exact ⟨t, ht, hd⟩
        · obtain ⟨t', g1, g2, _⟩ := h.com k h0 (by omega) c t hd ht
          have := h.dec k h0 (by omega)
          exact ih _ this (by omega) t' g1 g2
    exact key (j - 1) (by omega) j h2 (Or.inl ⟨by rw [show j - 1 + 1 = j by omega, hck]; exact h3, by omega⟩)

/-- The exact counts of one letter: two more calls of `transition` than of `_insert_trans`, or none more if the letter is new. -/
theorem letterC_exact (fuel : Nat) (text : List Byte) (hnz : ∀ t, 0 < t → t ≤ text.length → ck text t ≠ 0) (i : Nat) (hi : i + 1 ≤ text.length)
    (lrs : List Nat) (s : Builder) (dep : Nat → Nat) (E X : List (Nat × Nat × Nat)) (h : LI text i lrs s) (hX : XC i lrs s dep X) (hE : Lists E s) (s' : Builder)
    (lrs' : List Nat) (a b a' b' : Nat) (hr : letterC (findBase fuel) i lrs s a b = .ok (s', lrs', a', b')) :
    ∃ E', Lists E' s' ∧ E'.length + b = E.length + b' ∧ (((∃ j, 0 < j ∧ j ≤ i ∧ ck text j = ck text (i + 1)) ∧ a' + b = a + b' + 2) ∨
      ((¬ ∃ j, 0 < j ∧ j ≤ i ∧ ck text j = ck text (i + 1)) ∧ a' + b = a + b')) := by
  have hlen := h.len
  have hck := h.check
  have hL : ∀ x, lk (lrs.set 0 (i + 1)) x = if 0 = x then i + 1 else lk lrs x := fun x => getD_set _ _ _ _ _ (by omega)
  have dec1 : ∀ k, 0 < k → k ≤ i → lk (lrs.set 0 (i + 1)) k < k := by
    intro k h1 h2
    rw [hL, if_neg (by omega)]; exact h.dec k h1 h2
  have dl1 : ∀ k, 0 < k → k ≤ i → dep k = dep (lk (lrs.set 0 (i + 1)) k) + 1 := by
    intro k h1 h2
    rw [hL, if_neg (by omega)]; exact hX.dl k h1 h2
  have z1 : lk (lrs.set 0 (i + 1)) 0 = i + 1 := by rw [hL, if_pos rfl]
  have hlen1 : (lrs.set 0 (i + 1)).length = text.length + 1 := by rw [List.length_set]; exact hlen
  unfold letterC at hr
  rw [wr_eq _ _ _ (by omega)] at hr
  simp only [lift_some, ok_bind] at hr
  clear hL
  generalize lrs.set 0 (i + 1) = m1 at *
  have el : m1[i]? = some (lk m1 i) := some_getD _ _ _ (by omega)
  rw [el] at hr
  simp only [lift_some, ok_bind] at hr
  have hfst := chainLoopC_fst (findBase fuel) m1 i (lk m1 i) s a b
  cases hcl : chainLoopC (findBase fuel) m1 i s (lk m1 i) a b with
  | ub => rw [hcl] at hr; cases hr
  | stop => rw [hcl] at hr; cases hr
  | ok p =>
    obtain ⟨s2, k', a2, b2⟩ := p
    rw [hcl] at hr hfst
    simp only [ok_bind] at hr hfst
    have hv : s' = s2 ∧ a' = (if k' = i + 1 then a2 else a2 + 1) ∧ b' = b2 := by
      cases hv : lift (if k' = i + 1 then some 0 else s2.transition k' (i + 1)) with
      | ub => rw [hv] at hr; cases hr
      | stop => rw [hv] at hr; cases hr
      | ok v =>
        rw [hv] at hr
        simp only [ok_bind] at hr
        rw [wr_eq _ _ _ (by omega)] at hr
        simp only [lift_some, ok_bind] at hr
        cases hr
        exact ⟨rfl, rfl, rfl⟩
    obtain ⟨rfl, rfl, rfl⟩ := hv
    by_cases hi0 : i = 0
    · subst hi0
      have : chainLoopC (findBase fuel) m1 0 s (lk m1 0) a b = .ok (s, 1, a, b) := by
        unfold chainLoopC
        rw [z1, dif_neg (by omega)]
      rw [this] at hcl
      cases hcl
      refine ⟨E, hE, rfl, Or.inr ⟨?_, rfl⟩⟩
      rintro ⟨j, h1, h2, _⟩
      omega
    · have hlt := dec1 i (by omega) (Nat.le_refl _)
      obtain ⟨E', g1, g2⟩ := chainLoopC_lists fuel m1 i (lk m1 i) s a b E h.inv (by rw [hck]; exact hnz) (by rw [hck]; omega) (by omega) hE _ _ _ _ hcl
      refine ⟨E', g1, g2, ?_⟩
      have hsp := chainLoop_spec fuel m1 i dec1 z1 (by omega) (lk m1 i) s h.inv (by rw [hck]; exact hnz) (by rw [hck]; omega) (by omega)
      rw [← hfst] at hsp
      rcases hsp with hsp | ⟨s3, k3, es, h', c', x', n', z'⟩
      · cases hsp
      · cases es
        rw [← h.root]
        rw [hck] at n' z'
        rcases chainLoopC_cnt (findBase fuel) m1 i dep dec1 dl1 z1 hX.d0 (lk m1 i) s a b (by omega) _ _ _ _ hcl with ⟨q1, q2, q3⟩ | ⟨q1, q2, q3⟩
        · right
          refine ⟨?_, by rw [if_pos q1]; exact q3⟩
          rintro ⟨t, _, hd⟩
          exact n' 0 (Ch.zero dec1 _ (by omega)) (Or.inl q1) t hd
        · left
          rcases z' with z' | ⟨z1', t, z2⟩
          · omega
          · refine ⟨?_, by rw [if_neg (by omega)]; omega⟩
            have htl : t ≤ i := by
              rcases z2 with ⟨_, z2⟩ | ⟨_, z2⟩
              · omega
              · exact h.le _ _ _ z2
            have hlt2 := D_lt h.inv z2
            refine h.root.2 ⟨t, by omega, htl, ?_⟩
            rcases z2 with ⟨z3, z4⟩ | ⟨_, z3⟩
            · rw [z4, ← hck, z3, hck]
            · obtain ⟨_, _, _, _, _, _, e⟩ := z3
              rw [← hck, e, hck]

theorem ck_getElem (text : List Byte) (i : Nat) (hi : i < text.length) : ck text (i + 1) = text[i].toNat := by
  unfold ck checkAt
  rw [if_neg (by omega), show i + 1 - 1 = i by omega, List.getElem?_eq_getElem hi]
  rfl

theorem letterLoopC_exact (fuel : Nat) (text : List Byte) (hnz : ∀ t, 0 < t → t ≤ text.length → ck text t ≠ 0) : ∀ (n i : Nat)
    (lrs : List Nat) (s : Builder) (dep : Nat → Nat) (E X : List (Nat × Nat × Nat)) (a b : Nat), i + n ≤ text.length → LI text i lrs s → XC i lrs s dep X →
    Lists E s → E.length = b → (∀ A : List Byte, A.Nodup → (∀ c, c ∈ A ↔ c ∈ text.take i) → a + 2 * A.length = b + 2 * i) →
    ∀ s' lrs' a' b', letterLoopC (findBase fuel) n i lrs s a b = .ok (s', lrs', a', b') →
      ∃ E', LI text (i + n) lrs' s' ∧ Lists E' s' ∧ E'.length = b' ∧
        ∀ A : List Byte, A.Nodup → (∀ c, c ∈ A ↔ c ∈ text.take (i + n)) → a' + 2 * A.length = b' + 2 * (i + n) := by
  intro n
  induction n with
  | zero =>
    intro i lrs s dep E X a b _ h hX hE h1 h2 s' lrs' a' b' hr
    cases hr
    exact ⟨E, h, hE, h1, h2⟩
  | succ n ih =>
    intro i lrs s dep E X a b hi h hX hE h1 h2 s' lrs' a' b' hr
    unfold letterLoopC at hr
    cases e : letterC (findBase fuel) i lrs s a b with
    | ub => rw [e] at hr; cases hr
    | stop => rw [e] at hr; cases hr
    | ok p =>
      obtain ⟨s1, l1, a1, b1⟩ := p
      rw [e] at hr
      simp only [ok_bind] at hr
      obtain ⟨d1, X1, g1, g2, _⟩ := letterC_cnt fuel text hnz i (by omega) lrs s dep X h hX s1 l1 a b a1 b1 e
      obtain ⟨E1, f1, f2, f3⟩ := letterC_exact fuel text hnz i (by omega) lrs s dep E X h hX hE s1 l1 a b a1 b1 e
      have hil : i < text.length := by omega
      have hnew : (∃ j, 0 < j ∧ j ≤ i ∧ ck text j = ck text (i + 1)) ↔ text[i] ∈ text.take i := by
        rw [List.mem_iff_getElem]
        constructor
        · rintro ⟨j, j1, j2, j3⟩
          obtain ⟨j, rfl⟩ : ∃ x, j = x + 1 := ⟨j - 1, by omega⟩
          rw [ck_getElem _ _ (by omega), ck_getElem _ _ hil] at j3
          exact ⟨j, by rw [List.length_take]; omega, by rw [List.getElem_take]; exact BitVec.eq_of_toNat_eq j3⟩
        · rintro ⟨j, j1, j2⟩
          rw [List.length_take] at j1
          rw [List.getElem_take] at j2
          exact ⟨j + 1, by omega, by omega, by rw [ck_getElem _ _ (by omega), ck_getElem _ _ hil, j2]⟩
      have htake : text.take (i + 1) = text.take i ++ [text[i]] := by rw [List.take_add_one, List.getElem?_eq_getElem hil]; rfl
      have := ih (i + 1) l1 s1 d1 E1 X1 a1 b1 (by omega) g1 g2 f1 (by omega) (by
        intro A hA hm
        rcases f3 with ⟨k1, k2⟩ | ⟨k1, k2⟩
        · have := h2 A hA (fun c => by
            rw [hm, htake, List.mem_append, List.mem_singleton]
            exact ⟨fun hc => hc.elim id (fun hc => hc ▸ hnew.1 k1), Or.inl⟩)
          omega
        · have hin : text[i] ∈ A := (hm _).2 (by rw [htake]; exact List.mem_append_right _ (List.mem_singleton.2 rfl))
          have := h2 (A.erase text[i]) (hA.erase _) (fun c => by
            rw [hA.mem_erase_iff, hm, htake, List.mem_append, List.mem_singleton]
            constructor
            · rintro ⟨q1, q2 | q2⟩
              · exact q2
              · exact absurd q2 q1
            · intro q
              exact ⟨fun hc => k1 (hnew.2 (hc ▸ q)), Or.inl q⟩)
          rw [List.length_erase_of_mem hin] at this
          have := List.length_pos_of_mem hin
          omega) s' lrs' a' b' hr
      rw [show i + (n + 1) = i + 1 + n by omega]
      exact this

end Verif.FO
