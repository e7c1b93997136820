/-
The construction of the factor oracle: how often `transition` and `_insert_trans` are called.
-/
import Verif.FO.CostBuild
import Verif.FO.Count

namespace Verif.FO
open Verif.PM (Byte)

theorem chainLoopC_fst (fb : Builder → List Nat → Nat → Res (Builder × Nat)) (lrs : List Nat) (i : Nat) : ∀ (k : Nat) (s : Builder) (a b : Nat),
    (chainLoopC fb lrs i s k a b >>= fun r => .ok (r.1, r.2.1)) = chainLoop fb lrs i s k := by
  intro k
  induction k using Nat.strongRecOn with
  | _ k ih =>
    intro s a b
    unfold chainLoopC chainLoop
    by_cases h : k < i + 1
    · rw [dif_pos h, dif_pos h]
      cases s.transition k (i + 1) with
      | none => rfl
      | some t =>
        simp only
        by_cases ht : t = 0
        · rw [if_pos ht, if_pos ht]
          cases insertTrans fb s k (i + 1) with
          | ub => rfl
          | stop => rfl
          | ok s =>
            simp only
            cases lrs[k]? with
            | none => rfl
            | some k' =>
              simp only
              by_cases h2 : k' < k
              · rw [dif_pos h2, dif_pos h2]
                exact ih k' h2 s _ _
              · rw [dif_neg h2, dif_neg h2]
                split <;> rfl
        · rw [if_neg ht, if_neg ht]
          rfl
    · rw [dif_neg h, dif_neg h]
      rfl

theorem letterC_fst (fb : Builder → List Nat → Nat → Res (Builder × Nat)) (i : Nat) (lrs : List Nat) (s : Builder) (a b : Nat) :
    (letterC fb i lrs s a b >>= fun r => .ok (r.1, r.2.1)) = letterLoop fb 1 i lrs s := by
  unfold letterC letterLoop
  cases lift (wr lrs 0 (i + 1)) with
  | ub => rfl
  | stop => rfl
  | ok l =>
    simp only [ok_bind]
    cases lift l[i]? with
    | ub => rfl
    | stop => rfl
    | ok k =>
      simp only [ok_bind]
      rw [← chainLoopC_fst fb l i k s a b]
      cases chainLoopC fb l i s k a b with
      | ub => rfl
      | stop => rfl
      | ok p =>
        simp only [ok_bind]
        cases lift (if p.2.1 = i + 1 then some 0 else p.1.transition p.2.1 (i + 1)) with
        | ub => rfl
        | stop => rfl
        | ok v =>
          simp only [ok_bind]
          cases lift (wr l (i + 1) v) with
          | ub => rfl
          | stop => rfl
          | ok l2 => rfl

theorem letterLoopC_fst (fb : Builder → List Nat → Nat → Res (Builder × Nat)) : ∀ (n i : Nat) (lrs : List Nat) (s : Builder) (a b : Nat),
    (letterLoopC fb n i lrs s a b >>= fun r => .ok (r.1, r.2.1)) = letterLoop fb n i lrs s
  | 0, _, _, _, _, _ => rfl
  | n + 1, i, lrs, s, a, b => by
    rw [letterLoop_one, ← letterC_fst fb i lrs s a b]
    unfold letterLoopC
    cases letterC fb i lrs s a b with
    | ub => rfl
    | stop => rfl
    | ok p =>
      simp only [ok_bind]
      exact letterLoopC_fst fb n (i + 1) _ _ _ _

/-- The counts of one chain: as many insertions as the depth of the chain above the state where it ends. -/
theorem chainLoopC_cnt (fb : Builder → List Nat → Nat → Res (Builder × Nat)) (lrs : List Nat) (i : Nat) (dep : Nat → Nat) (hS : ∀ x, 0 < x → x ≤ i → lk lrs x < x)
    (hd : ∀ x, 0 < x → x ≤ i → dep x = dep (lk lrs x) + 1) (h0 : lk lrs 0 = i + 1) (d0 : dep 0 = 0) : ∀ (k : Nat) (s : Builder) (a b : Nat), k ≤ i →
    ∀ s' k' a' b', chainLoopC fb lrs i s k a b = .ok (s', k', a', b') →
    (k' = i + 1 ∧ b' = b + dep k + 1 ∧ a' + b = a + b') ∨ (k' ≤ k ∧ b' + dep k' = b + dep k ∧ a' + b = a + b' + 1) := by
  intro k
  induction k using Nat.strongRecOn with
  | _ k ih =>
    intro s a b hk s' k' a' b' e
    unfold chainLoopC at e
    rw [dif_pos (by omega)] at e
    split at e
    · cases e
    · split at e
      · split at e
        · cases e
        · cases e
        · split at e
          · cases e
          · rename_i k1 hk1
            have hlk : lk lrs k = k1 := by
              unfold lk
              rw [hk1]
              rfl
            split at e
            · rename_i hlt
              have hpos : 0 < k := by omega
              have := hd k hpos hk
              rw [hlk] at this
              rcases ih k1 hlt _ _ _ (by omega) _ _ _ _ e with h | h
              · exact .inl ⟨h.1, by omega, by omega⟩
              · exact .inr ⟨by omega, by omega, by omega⟩
            · rename_i hlt
              split at e
              · cases e
                have : k = 0 := by
                  by_contra hc
                  have := hS k (by omega) hk
                  omega
                subst this
                exact .inl ⟨by assumption, by omega, by omega⟩
              · cases e
      · cases e
        exact .inr ⟨Nat.le_refl _, rfl, by omega⟩

/-- The counts of one letter. -/
theorem letterC_cnt (fuel : Nat) (text : List Byte) (hnz : ∀ t, 0 < t → t ≤ text.length → ck text t ≠ 0) (i : Nat) (hi : i + 1 ≤ text.length)
    (lrs : List Nat) (s : Builder) (dep : Nat → Nat) (E : List (Nat × Nat × Nat)) (h : LI text i lrs s) (hX : XC i lrs s dep E) (s' : Builder)
    (lrs' : List Nat) (a b a' b' : Nat) (hr : letterC (findBase fuel) i lrs s a b = .ok (s', lrs', a', b')) :
    ∃ dep' E', LI text (i + 1) lrs' s' ∧ XC (i + 1) lrs' s' dep' E' ∧ b' + dep' (i + 1) ≤ b + dep i + 1 ∧ a' + b ≤ a + b' + 2 ∧ (i = 0 → a' = a ∧ b' = b) := by
  have hone : letterLoop (findBase fuel) 1 i lrs s = .ok (s', lrs') := by
    rw [← letterC_fst (findBase fuel) i lrs s a b, hr]
    rfl
  obtain ⟨s1, l1, e1, h1⟩ := (letterLoop_spec fuel text hnz 1 i lrs s (by omega) h).resolve_left (by rw [hone]; simp)
  rw [hone] at e1
  cases e1
  obtain ⟨dep', E', X'⟩ := letter_count fuel text hnz i hi lrs s dep E h hX s' lrs' hone
  refine ⟨dep', E', h1, X', ?_⟩
  have hlen := h.len
  have hck := h.check
  have hL : ∀ x, lk (lrs.set 0 (i + 1)) x = if 0 = x then i + 1 else lk lrs x := fun x => getD_set _ _ _ _ _ (by omega)
  have dec1 : ∀ k, 0 < k → k ≤ i → lk (lrs.set 0 (i + 1)) k < k := by
    intro k h1 h2
    rw [hL, if_neg (by omega)]; exact h.dec k h1 h2
  have dl1 : ∀ k, 0 < k → k ≤ i → dep k = dep (lk (lrs.set 0 (i + 1)) k) + 1 := by
    intro k h1 h2
    rw [hL, if_neg (by omega)]; exact hX.dl k h1 h2
  have z1 : lk (lrs.set 0 (i + 1)) 0 = i + 1 := by rw [hL, if_pos rfl]
  have hlen1 : (lrs.set 0 (i + 1)).length = text.length + 1 := by rw [List.length_set]; exact hlen
  have hlk1 : ∀ k, 0 < k → lk (lrs.set 0 (i + 1)) k = lk lrs k := fun k hk => by rw [hL, if_neg (by omega)]
  unfold letterC at hr
  rw [wr_eq _ _ _ (by omega)] at hr
  simp only [lift_some, ok_bind] at hr
  clear hL
  generalize lrs.set 0 (i + 1) = m1 at *
  have el : m1[i]? = some (lk m1 i) := some_getD _ _ _ (by omega)
  rw [el] at hr
  simp only [lift_some, ok_bind] at hr
  have hfst := chainLoopC_fst (findBase fuel) m1 i (lk m1 i) s a b
  cases hcl : chainLoopC (findBase fuel) m1 i s (lk m1 i) a b with
  | ub => rw [hcl] at hr; cases hr
  | stop => rw [hcl] at hr; cases hr
  | ok p =>
    obtain ⟨s2, k', a2, b2⟩ := p
    rw [hcl] at hr hfst
    simp only [ok_bind] at hr hfst
    -- the depths before and after the letter
    have hv : ∃ v, lift (if k' = i + 1 then some 0 else s2.transition k' (i + 1)) = .ok v ∧ s' = s2 ∧ lrs' = m1.set (i + 1) v ∧
        a' = (if k' = i + 1 then a2 else a2 + 1) ∧ b' = b2 := by
      cases hv : lift (if k' = i + 1 then some 0 else s2.transition k' (i + 1)) with
      | ub => rw [hv] at hr; cases hr
      | stop => rw [hv] at hr; cases hr
      | ok v =>
        rw [hv] at hr
        simp only [ok_bind] at hr
        rw [wr_eq _ _ _ (by omega)] at hr
        simp only [lift_some, ok_bind] at hr
        cases hr
        exact ⟨v, rfl, rfl, rfl, rfl, rfl⟩
    obtain ⟨v, hv, rfl, rfl, rfl, rfl⟩ := hv
    have hL2 : ∀ x, lk (m1.set (i + 1) v) x = if i + 1 = x then v else lk m1 x := fun x => getD_set _ _ _ _ _ (by omega)
    have agree : ∀ x, x ≤ i → dep' x = dep x := by
      intro x
      induction x using Nat.strongRecOn with
      | _ x ihx =>
        intro hx
        rcases Nat.eq_zero_or_pos x with h0 | h0
        · rw [h0, X'.d0, hX.d0]
        · have hlt := dec1 x h0 hx
          have e := X'.dl x h0 (by omega)
          rw [hL2, if_neg (by omega), ihx _ hlt (by omega)] at e
          rw [e, dl1 x h0 hx]
    have hvi : v ≤ i := by
      have := h1.dec (i + 1) (by omega) (Nat.le_refl _)
      rw [hL2, if_pos rfl] at this
      omega
    have hdep : dep' (i + 1) = dep v + 1 := by
      rw [X'.dl (i + 1) (by omega) (Nat.le_refl _), hL2, if_pos rfl, agree v hvi]
    rw [hdep]
    by_cases hi0 : i = 0
    · subst hi0
      have : chainLoopC (findBase fuel) m1 0 s (lk m1 0) a b = .ok (s, 1, a, b) := by
        unfold chainLoopC
        rw [z1, dif_neg (by omega)]
      rw [this] at hcl
      cases hcl
      have : v = 0 := by omega
      subst this
      rw [hX.d0]
      simp only [Nat.zero_add, if_true]
      exact ⟨by omega, by omega, fun _ => ⟨trivial, trivial⟩⟩
    · have hlt := dec1 i (by omega) (Nat.le_refl _)
      have hdi := dl1 i (by omega) (Nat.le_refl _)
      rcases chainLoopC_cnt (findBase fuel) m1 i dep dec1 dl1 z1 hX.d0 (lk m1 i) s a b (by omega) _ _ _ _ hcl with ⟨g1, g2, g3⟩ | ⟨g1, g2, g3⟩
      · rw [if_pos g1] at hv ⊢
        simp only [lift_some] at hv
        cases hv
        rw [hX.d0]
        exact ⟨by omega, by omega, fun h => absurd h hi0⟩
      · have hne : k' ≠ i + 1 := by omega
        rw [if_neg hne] at hv ⊢
        have hsp := chainLoop_spec fuel m1 i dec1 z1 (by omega) (lk m1 i) s h.inv (by rw [hck]; exact hnz) (by rw [hck]; omega) (by omega)
        rw [← hfst] at hsp
        rcases hsp with hsp | ⟨s3, k3, es, h', c', x', n', z'⟩
        · cases hsp
        · cases es
          have hdv : dep v ≤ dep k' + 1 := by
            rcases transition_spec s' h' k' (i + 1) (by rw [c', hck]; omega) (by rw [c', hck]; omega) with ⟨t2, e2, _, hd2⟩ | ⟨e2, _⟩
            · rw [e2] at hv
              cases hv
              have := X'.dt _ _ _ hd2 (by omega)
              rw [agree _ hvi, agree _ (by omega)] at this
              exact this
            · rw [e2] at hv
              cases hv
              rw [hX.d0]
              omega
          exact ⟨by omega, by omega, fun h => absurd h hi0⟩

theorem letterLoopC_cnt (fuel : Nat) (text : List Byte) (hnz : ∀ t, 0 < t → t ≤ text.length → ck text t ≠ 0) : ∀ (n i : Nat)
    (lrs : List Nat) (s : Builder) (dep : Nat → Nat) (E : List (Nat × Nat × Nat)) (a b : Nat), i + n ≤ text.length → LI text i lrs s → XC i lrs s dep E →
    b + dep i ≤ i → a ≤ b + 2 * (i - 1) →
    ∀ s' lrs' a' b', letterLoopC (findBase fuel) n i lrs s a b = .ok (s', lrs', a', b') →
      ∃ dep' E', LI text (i + n) lrs' s' ∧ XC (i + n) lrs' s' dep' E' ∧ b' + dep' (i + n) ≤ i + n ∧ a' ≤ b' + 2 * (i + n - 1) := by
  intro n
  induction n with
  | zero =>
    intro i lrs s dep E a b _ h hX h1 h2 s' lrs' a' b' hr
    cases hr
    exact ⟨dep, E, h, hX, h1, h2⟩
  | succ n ih =>
    intro i lrs s dep E a b hi h hX h1 h2 s' lrs' a' b' hr
    unfold letterLoopC at hr
    cases e : letterC (findBase fuel) i lrs s a b with
    | ub => rw [e] at hr; cases hr
    | stop => rw [e] at hr; cases hr
    | ok p =>
      obtain ⟨s1, l1, a1, b1⟩ := p
      rw [e] at hr
      simp only [ok_bind] at hr
      obtain ⟨d1, E1, g1, g2, g3, g4, g5⟩ := letterC_cnt fuel text hnz i (by omega) lrs s dep E h hX s1 l1 a b a1 b1 e
      have := ih (i + 1) l1 s1 d1 E1 a1 b1 (by omega) g1 g2 (by omega) (by
        rcases Nat.eq_zero_or_pos i with h0 | h0
        · obtain ⟨e1, e2⟩ := g5 h0
          omega
        · omega) s' lrs' a' b' hr
      rw [show i + (n + 1) = i + 1 + n by omega]
      exact this

/-- The state before the first letter. -/
theorem start_count (text : List Byte) (hne : text ≠ []) (s2 s3 : Builder) (e2 : expandLoop text.length text.length (initial text) = .ok s2)
    (e3 : s2.setNext 0 0 = some s3) : LI text 0 (List.replicate (text.length + 1) 0) s3 ∧ XC 0 (List.replicate (text.length + 1) 0) s3 (fun _ => 0) [] := by
  have hpos : 0 < text.length := List.length_pos_iff.2 hne
  have hkE : kEmpty = 4294967295 := rfl
  obtain ⟨n, hn⟩ : ∃ n, text.length = n + 1 := ⟨text.length - 1, by omega⟩
  have e1 : expandLoop text.length text.length (initial text) = ((initial text).expand >>= expandLoop text.length n) := by
    rw [show expandLoop text.length text.length (initial text) = expandLoop text.length (n + 1) (initial text) by rw [← hn]]
    rw [expandLoop, if_pos (show (initial text).next.length < text.length from hpos)]
  rw [e1] at e2
  obtain ⟨s1, es1, c1, b1, l1, u1, u2, i0, f0, r1⟩ := expandRaw_first (initial text) rfl rfl rfl rfl rfl
  have e4 : (initial text).expand = .ok s1 := by
    unfold Builder.expand
    rw [if_neg (by rw [hkE]; show ¬ (0 + 256 > _); omega), es1]; rfl
  rw [e4] at e2
  simp only [ok_bind] at e2
  rcases expandLoop_spec text.length n s1 r1 (by rw [l1]; exact ⟨1, rfl⟩) (by omega) (by omega) u1 u2 with es | ⟨s2', es, c2, b2, r2, d2, p2, le2, us2, ut2⟩
  · rw [es] at e2; cases e2
  · rw [es] at e2
    cases e2
    obtain ⟨s3', es3, c3, b3, uu3, l3, fu3, n3, _, r3⟩ := setNext_ring s2 r2 0 0 p2 (ut2 0) (Or.inr rfl)
    rw [es3] at e3
    cases e3
    have hbase : s3.base = List.replicate (text.length + 1) kEmpty := by rw [b3, b2, b1]; rfl
    have hcheck : s3.check = text := by rw [c3, c2, c1]; rfl
    have hbE : ∀ (st b : Nat), s3.base[st]? = some b → b = kEmpty := by
      intro st b h
      rw [hbase, List.getElem?_replicate] at h
      split at h
      · exact (Option.some.inj h).symm
      · cases h
    have hI : Inv s3 No := by
      refine ⟨r3, by rw [l3]; exact d2, by omega, by omega, by rw [hbase, hcheck, List.length_replicate], fun st b h1 h2 => absurd (hbE _ _ h1) h2,
        fun a b c h1 _ h3 => absurd (hbE _ _ h1) h3, fun x hx => ?_, by rw [fu3, if_pos rfl], n3⟩
      rw [fu3] at hx
      by_cases e : x = 0
      · exact Or.inl e
      · rw [if_neg e, ut2] at hx; cases hx
    refine ⟨⟨hI, hcheck, by rw [List.length_replicate], fun st c t he => ?_, fun k h1 h2 => by omega, fun k h1 h2 => by omega⟩,
      rfl, fun k h1 h2 => by omega, fun _ _ _ _ _ => by omega, fun st c t he => ?_, by simp⟩
    · obtain ⟨b, h1, h2, _⟩ := he
      exact absurd (hbE _ _ h1) h2
    · obtain ⟨b, h1, h2, _⟩ := he
      exact absurd (hbE _ _ h1) h2

end Verif.FO
