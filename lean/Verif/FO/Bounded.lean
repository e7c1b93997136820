/-
A construction of the factor oracle that ends needs few rounds in each search: without free elements a search never ends, with one it goes round once.
-/
import Verif.FO.Diverge
import Verif.FO.CostBuildLemmas

namespace Verif.FO
open Verif.PM (Byte)

/-- Element 0 is never a candidate. -/
theorem tryBase_zero (s : Builder) {O : Nat → Nat → Prop} (h : Inv s O) (ts : List Nat) (hne : ts ≠ []) (hts : ∀ t ∈ ts, t ≤ s.check.length) :
    tryBase s ts 0 = some none := by
  cases ts with
  | nil => exact absurd rfl hne
  | cons t ts =>
    have hp := h.pos
    have hx := xor_lt h.dvd hp (ck_lt s.check t)
    unfold tryBase
    rw [List.getElem?_cons_zero]
    simp only [Option.bind_eq_bind, Option.bind_some, checkAt_eq _ _ (hts t (by simp))]
    have e : s.usedState[0 ^^^ ck s.check t]? = some (us s (0 ^^^ ck s.check t)) := some_getD _ _ _ (h.ring.n1 ▸ hx)
    rw [e, Option.bind_some]
    cases us s (0 ^^^ ck s.check t) with
    | true => rfl
    | false =>
      have e0 : s.usedTrans[0]? = some true := by
        rw [some_getD s.usedTrans 0 false (by rw [h.ring.n2]; exact hp)]
        exact congrArg some h.zero.1
      have : allFree s (0 ^^^ ck s.check t) (t :: ts) = some false := by
        unfold allFree
        rw [checkAt_eq _ _ (hts t (by simp))]
        simp only [Option.bind_eq_bind, Option.bind_some]
        rw [Nat.xor_assoc, Nat.xor_self, Nat.xor_zero, e0]
        rfl
      simp only [this, Option.bind_some, Option.pure_def]
      rfl

/-- With `0` for the front (no free element) the search never ends. -/
theorem findBase_front0 (s : Builder) {O : Nat → Nat → Prop} (h : Inv s O) (hz : s.front = 0) (ts : List Nat) (hne : ts ≠ [])
    (hts : ∀ t ∈ ts, t ≤ s.check.length) : ∀ fuel, findBase fuel s ts s.front = .stop := by
  have hp := h.pos
  intro fuel
  cases fuel with
  | zero => rfl
  | succ n =>
    unfold findBase
    rw [hz, tryBase_zero s h ts hne hts]
    simp only [lift_some, ok_bind]
    have e0 : s.next[0]? = some 0 := by
      rw [some_getD s.next 0 0 hp]
      exact congrArg some h.zero.2
    rw [e0]
    simp only [lift_some, ok_bind]
    rw [if_true]
    rcases expand_spec s h with es | ⟨s1, es, g, h1, _⟩
    · rw [es]; rfl
    · rw [es]
      simp only [ok_bind]
      have hfront : s1.front ≠ 0 := by
        unfold Builder.expand at es
        split at es
        · cases es
        · obtain ⟨s2, e2, _, _, _, _, _, _, _, _, hcase⟩ := expandRaw_eq s _ rfl h.ring.n1 h.ring.n2 h.ring.n3 (by omega) (fun hc => by
            rcases hc with hc | hc
            · exact absurd hz hc
            · rw [h.zero.1] at hc; cases hc)
          rw [e2] at es
          cases es
          rcases hcase with ⟨hc, _⟩ | ⟨_, hc, _⟩
          · rcases hc with hc | hc
            · exact absurd hz hc
            · rw [h.zero.1] at hc; cases hc
          · omega
      have hp1 := h1.pos
      have e1 : s1.next[0]? = some 0 := by
        rw [some_getD s1.next 0 0 hp1]
        exact congrArg some h1.zero.2
      rw [e1]
      simp only [lift_some, ok_bind]
      refine findBase_stuck s1 ts 0 ?_ n
      unfold stuck
      rw [tryBase_zero s1 h1 ts hne (by rw [g.check]; exact hts), e1]
      simp only [decide_true, Bool.true_and, decide_eq_true_eq]
      exact fun e => hfront e.symm

/-- Without a free element the search never ends. -/
theorem findBase_never (s : Builder) {O : Nat → Nat → Prop} (h : Inv s O) (hf : fr s = 0) (ts : List Nat) (hne : ts ≠ [])
    (hts : ∀ t ∈ ts, t ≤ s.check.length) : ∀ fuel, findBase fuel s ts s.front = .stop := by
  have hnF : ¬ InL s s.front := by
    intro hF
    have : 0 < fr s := List.countP_pos_iff.2 ⟨s.front, List.mem_range.2 hF.1, (inl_iff s _ hF.1).2 hF⟩
    omega
  rcases h.ring.front with hF | hF
  · exact absurd hF hnF
  · exact findBase_front0 s h hF.1 ts hne hts

theorem insertTrans_bounded (B fuel : Nat) (s : Builder) (h : Inv s No) (hnz : ∀ t, 0 < t → t ≤ s.check.length → ck s.check t ≠ 0) (st ns : Nat)
    (hlt : st < ns) (hle : ns ≤ s.check.length) (hno : ∀ t, ¬ Ext s st (ck s.check ns) t) (hc : Conn s) (hr : s.next.length + 256 ≤ kEmpty)
    (hB : s.next.length + 2 ≤ B) (s' : Builder) (e : insertTrans (findBase fuel) s st ns = .ok s') :
    insertTrans (findBase B) s st ns = .ok s' ∧ Conn s' ∧ s'.next.length ≤ s.next.length + 256 := by
  by_cases hf : fr s = 0
  · -- no search
    have hbl := h.blen
    obtain ⟨b, hb⟩ : ∃ b, s.base[st]? = some b := ⟨_, List.getElem?_eq_getElem (by omega)⟩
    have key : b ≠ kEmpty ∧ ut s (b ^^^ ck s.check ns) = false := by
      unfold insertTrans at e
      rw [checkAt_eq _ _ hle, hb] at e
      simp only [lift_some, ok_bind] at e
      by_cases hbe : b = kEmpty
      · rw [if_pos hbe, findBase_never s h hf [ns] (by simp) (by simpa using hle)] at e
        cases e
      · refine ⟨hbe, ?_⟩
        rw [if_neg hbe] at e
        have hbN := (h.own _ _ hb hbe).1
        have hx := xor_lt h.dvd hbN (ck_lt s.check ns)
        have e1 : s.usedTrans[b ^^^ ck s.check ns]? = some (ut s (b ^^^ ck s.check ns)) := some_getD _ _ _ (h.ring.n2 ▸ hx)
        rw [e1] at e
        simp only [lift_some, ok_bind] at e
        cases hu : ut s (b ^^^ ck s.check ns) with
        | false => rfl
        | true =>
          rw [hu] at e
          simp only [if_true] at e
          obtain ⟨ts, et, hts, _⟩ := getTransesLoop_spec s h b hbN 255 1 [] (by omega)
          have et' : s.getTranses st = some ts := by
            unfold Builder.getTranses
            rw [hb]
            simp only [Option.bind_eq_bind, Option.bind_some]
            rw [if_neg hbe, et]; rfl
          rw [et'] at e
          simp only [lift_some, ok_bind] at e
          rw [findBase_never s h hf (ts ++ [ns]) (by simp) (by
            intro t ht
            rcases List.mem_append.1 ht with ht | ht
            · obtain ⟨d, _, _, h3, h4, h5, h6⟩ := (hts t).1 ht
              exact (h.ext_lt (st := st) (c := d) ⟨b, hb, hbe, h3, h4, h5, h6⟩).2
            · rw [List.mem_singleton.1 ht]; exact hle)] at e
          cases e
    have hbN := (h.own _ _ hb key.1).1
    have hx := xor_lt h.dvd hbN (ck_lt s.check ns)
    have e1 : s.usedTrans[b ^^^ ck s.check ns]? = some (ut s (b ^^^ ck s.check ns)) := some_getD _ _ _ (h.ring.n2 ▸ hx)
    have hins : ∀ f, insertTrans (findBase f) s st ns = lift (s.setNext (b ^^^ ck s.check ns) ns) := by
      intro f
      unfold insertTrans
      rw [checkAt_eq _ _ hle, hb]
      simp only [lift_some, ok_bind]
      rw [if_neg key.1, e1, key.2]
      rfl
    rw [hins] at e ⊢
    refine ⟨e, ?_⟩
    cases es : s.setNext (b ^^^ ck s.check ns) ns with
    | none => rw [es] at e; cases e
    | some s2 =>
      rw [es] at e
      cases e
      have := setNext_cost s h.ring _ ns hx key.2 s' es
      have h2 := this.size
      exact ⟨this.conn hc, by omega⟩
  · have hP : Plenty B s := ⟨hc, by omega, hr, hB⟩
    rcases insertTrans_spec B s h hnz st ns hlt hle hno with ⟨_, hn⟩ | ⟨s1, es, _, _, hL, _⟩
    · exact absurd hP hn
    · obtain ⟨L, _, _, hLc⟩ := hL hP
      have m1 := insertTrans_agree (bd := true) (fb := findBase (B + fuel)) (fb' := findBase B) (fun s ts i hs => findBase_mono B fuel s ts i hs) s st ns
        (by rw [es]; simp [bad])
      have m2 := insertTrans_agree (bd := true) (fb := findBase (fuel + B)) (fb' := findBase fuel) (fun s ts i hs => findBase_mono fuel B s ts i hs) s st ns
        (by rw [e]; simp [bad])
      rw [Nat.add_comm fuel B, m1, es, e] at m2
      cases m2
      have h2 := hLc.size
      exact ⟨es, hLc.conn hc, by omega⟩

theorem chainLoopC_mono (fb : Builder → List Nat → Nat → Res (Builder × Nat)) (lrs : List Nat) (i : Nat) : ∀ (k : Nat) (s : Builder) (a b : Nat),
    ∀ s' k' a' b', chainLoopC fb lrs i s k a b = .ok (s', k', a', b') → b ≤ b' := by
  intro k
  induction k using Nat.strongRecOn with
  | _ k ih =>
    intro s a b s' k' a' b' e
    unfold chainLoopC at e
    split at e
    · split at e
      · cases e
      · split at e
        · split at e
          · cases e
          · cases e
          · split at e
            · cases e
            · split at e
              · rename_i hlt
                exact Nat.le_trans (Nat.le_succ b) (ih _ hlt _ _ _ _ _ _ _ e)
              · split at e
                · cases e; exact Nat.le_succ b
                · cases e
        · cases e; exact Nat.le_refl b
    · cases e; exact Nat.le_refl b

theorem chainLoopC_bounded (B fuel N M : Nat) (hN : N + 256 * M ≤ kEmpty) (hB : N + 256 * M ≤ B + 254) (lrs : List Nat) (i : Nat) : ∀ (k : Nat) (s : Builder) (a b : Nat),
    Inv s No → (∀ t, 0 < t → t ≤ s.check.length → ck s.check t ≠ 0) → i + 1 ≤ s.check.length → k ≤ i → Conn s → s.next.length ≤ N + 256 * b →
    ∀ s' k' a' b', chainLoopC (findBase fuel) lrs i s k a b = .ok (s', k', a', b') → b' ≤ M →
      chainLoopC (findBase B) lrs i s k a b = .ok (s', k', a', b') ∧ Conn s' ∧ s'.next.length ≤ N + 256 * b' := by
  have hkE : kEmpty = 4294967295 := rfl
  intro k
  induction k using Nat.strongRecOn with
  | _ k ih =>
    intro s a b h hnz hi hk hc hl s' k' a' b' e hM
    unfold chainLoopC at e ⊢
    rw [dif_pos (by omega)] at e ⊢
    rcases transition_spec s h k (i + 1) (by omega) hi with ⟨t, et, ht, hd⟩ | ⟨et, hnd⟩
    · rw [et] at e ⊢
      simp only at e ⊢
      rw [if_neg (by omega)] at e ⊢
      cases e
      exact ⟨rfl, hc, hl⟩
    · rw [et] at e ⊢
      simp only [if_true] at e ⊢
      have hki : ck s.check (k + 1) ≠ ck s.check (i + 1) := fun ha => absurd (Or.inl ⟨ha, rfl⟩) (hnd (k + 1))
      have hno : ∀ t, ¬ Ext s k (ck s.check (i + 1)) t := fun t he => hnd t (Or.inr ⟨hki, he⟩)
      rcases insertTrans_spec fuel s h hnz k (i + 1) (by omega) hi hno with ⟨es, _⟩ | ⟨s1, es, c1, h1, _, x1⟩
      · rw [es] at e; cases e
      · have hbd := fun hb : b + 1 ≤ M => insertTrans_bounded B fuel s h hnz k (i + 1) (by omega) hi hno hc (by omega) (by omega) s1 es
        rw [es] at e
        simp only at e
        cases hlk : lrs[k]? with
        | none => rw [hlk] at e; cases e
        | some k2 =>
          rw [hlk] at e
          simp only at e
          by_cases hlt : k2 < k
          · rw [dif_pos hlt] at e
            have hbb := chainLoopC_mono _ _ _ _ _ _ _ _ _ _ _ e
            obtain ⟨q1, q2, q3⟩ := hbd (by omega)
            rw [q1]
            simp only
            rw [dif_pos hlt]
            exact ih k2 hlt s1 (a + 1) (b + 1) h1 (by rw [c1]; exact hnz) (by rw [c1]; exact hi) (by omega) q2 (Nat.le_trans q3 (by rw [Nat.mul_succ, ← Nat.add_assoc]; exact Nat.add_le_add_right hl _)) _ _ _ _ e hM
          · rw [dif_neg hlt] at e
            split at e
            · rename_i hk2
              cases e
              obtain ⟨q1, q2, q3⟩ := hbd hM
              rw [q1]
              simp only
              rw [dif_neg hlt, if_pos hk2]
              exact ⟨rfl, q2, Nat.le_trans q3 (by rw [Nat.mul_succ, ← Nat.add_assoc]; exact Nat.add_le_add_right hl _)⟩
            · cases e

theorem letterC_mono (fb : Builder → List Nat → Nat → Res (Builder × Nat)) (i : Nat) (lrs : List Nat) (s : Builder) (a b : Nat) (s' : Builder) (lrs' : List Nat)
    (a' b' : Nat) (h : letterC fb i lrs s a b = .ok (s', lrs', a', b')) : b ≤ b' := by
  unfold letterC at h
  cases h1 : lift (wr lrs 0 (i + 1)) with
  | ub => rw [h1] at h; cases h
  | stop => rw [h1] at h; cases h
  | ok l1 =>
    rw [h1] at h
    simp only [ok_bind] at h
    cases h2 : lift l1[i]? with
    | ub => rw [h2] at h; cases h
    | stop => rw [h2] at h; cases h
    | ok k =>
      rw [h2] at h
      simp only [ok_bind] at h
      cases h3 : chainLoopC fb l1 i s k a b with
      | ub => rw [h3] at h; cases h
      | stop => rw [h3] at h; cases h
      | ok r =>
        obtain ⟨s2, k2, a2, b2⟩ := r
        rw [h3] at h
        simp only [ok_bind] at h
        cases h4 : lift (if k2 = i + 1 then some 0 else s2.transition k2 (i + 1)) with
        | ub => rw [h4] at h; cases h
        | stop => rw [h4] at h; cases h
        | ok v =>
          rw [h4] at h
          simp only [ok_bind] at h
          cases h5 : lift (wr l1 (i + 1) v) with
          | ub => rw [h5] at h; cases h
          | stop => rw [h5] at h; cases h
          | ok l2 =>
            rw [h5] at h
            cases h
            exact chainLoopC_mono _ _ _ _ _ _ _ _ _ _ _ h3

theorem letterLoopC_mono (fb : Builder → List Nat → Nat → Res (Builder × Nat)) : ∀ (n i : Nat) (lrs : List Nat) (s : Builder) (a b : Nat) (s' : Builder)
    (lrs' : List Nat) (a' b' : Nat), letterLoopC fb n i lrs s a b = .ok (s', lrs', a', b') → b ≤ b' := by
  intro n
  induction n with
  | zero => intro i lrs s a b s' lrs' a' b' h; cases h; exact Nat.le_refl _
  | succ n ih =>
    intro i lrs s a b s' lrs' a' b' h
    unfold letterLoopC at h
    cases e : letterC fb i lrs s a b with
    | ub => rw [e] at h; cases h
    | stop => rw [e] at h; cases h
    | ok p =>
      obtain ⟨s1, l1, a1, b1⟩ := p
      rw [e] at h
      exact Nat.le_trans (letterC_mono _ _ _ _ _ _ _ _ _ _ e) (ih _ _ _ _ _ _ _ _ _ h)

theorem letterC_bounded (B fuel N M : Nat) (hN : N + 256 * M ≤ kEmpty) (hB : N + 256 * M ≤ B + 254) (text : List Byte)
    (hnz : ∀ t, 0 < t → t ≤ text.length → ck text t ≠ 0) (i : Nat) (hi : i + 1 ≤ text.length) (lrs : List Nat) (s : Builder) (h : LI text i lrs s) (hc : Conn s)
    (a b : Nat) (hl : s.next.length ≤ N + 256 * b) (s' : Builder) (lrs' : List Nat) (a' b' : Nat)
    (hr : letterC (findBase fuel) i lrs s a b = .ok (s', lrs', a', b')) (hM : b' ≤ M) :
    letterC (findBase B) i lrs s a b = .ok (s', lrs', a', b') ∧ Conn s' ∧ s'.next.length ≤ N + 256 * b' := by
  have hlen := h.len
  have hck := h.check
  have hL : ∀ x, lk (lrs.set 0 (i + 1)) x = if 0 = x then i + 1 else lk lrs x := fun x => getD_set _ _ _ _ _ (by omega)
  have dec1 : ∀ k, 0 < k → k ≤ i → lk (lrs.set 0 (i + 1)) k < k := by
    intro k h1 h2
    rw [hL, if_neg (by omega)]; exact h.dec k h1 h2
  have z1 : lk (lrs.set 0 (i + 1)) 0 = i + 1 := by rw [hL, if_pos rfl]
  have hlen1 : (lrs.set 0 (i + 1)).length = text.length + 1 := by rw [List.length_set]; exact hlen
  unfold letterC at hr ⊢
  rw [wr_eq _ _ _ (by omega)] at hr ⊢
  simp only [lift_some, ok_bind] at hr ⊢
  clear hL
  generalize lrs.set 0 (i + 1) = m1 at *
  have el : m1[i]? = some (lk m1 i) := some_getD _ _ _ (by omega)
  rw [el] at hr ⊢
  simp only [lift_some, ok_bind] at hr ⊢
  cases hcl : chainLoopC (findBase fuel) m1 i s (lk m1 i) a b with
  | ub => rw [hcl] at hr; cases hr
  | stop => rw [hcl] at hr; cases hr
  | ok p =>
    obtain ⟨s2, k', a2, b2⟩ := p
    rw [hcl] at hr
    simp only [ok_bind] at hr
    have hb2 : b2 = b' ∧ s2 = s' := by
      cases hv : lift (if k' = i + 1 then some 0 else s2.transition k' (i + 1)) with
      | ub => rw [hv] at hr; cases hr
      | stop => rw [hv] at hr; cases hr
      | ok v =>
        rw [hv] at hr
        simp only [ok_bind] at hr
        rw [wr_eq _ _ _ (by omega)] at hr
        cases hr
        exact ⟨rfl, rfl⟩
    obtain ⟨rfl, rfl⟩ := hb2
    have key : chainLoopC (findBase B) m1 i s (lk m1 i) a b = .ok (s2, k', a2, b2) ∧ Conn s2 ∧ s2.next.length ≤ N + 256 * b2 := by
      by_cases hi0 : i = 0
      · subst hi0
        have : ∀ fb, chainLoopC fb m1 0 s (lk m1 0) a b = .ok (s, 1, a, b) := by
          intro fb
          unfold chainLoopC
          rw [z1, dif_neg (by omega)]
        rw [this] at hcl ⊢
        cases hcl
        exact ⟨rfl, hc, hl⟩
      · have hlt := dec1 i (by omega) (Nat.le_refl _)
        exact chainLoopC_bounded B fuel N M hN hB m1 i (lk m1 i) s a b h.inv (by rw [hck]; exact hnz) (by rw [hck]; omega) (by omega) hc hl _ _ _ _ hcl hM
    rw [key.1]
    exact ⟨hr, key.2⟩

theorem letterLoopC_bounded (B fuel N M : Nat) (hN : N + 256 * M ≤ kEmpty) (hB : N + 256 * M ≤ B + 254) (text : List Byte)
    (hnz : ∀ t, 0 < t → t ≤ text.length → ck text t ≠ 0) : ∀ (n i : Nat) (lrs : List Nat) (s : Builder) (dep : Nat → Nat) (X : List (Nat × Nat × Nat)),
    i + n ≤ text.length → LI text i lrs s → XC i lrs s dep X → Conn s → ∀ (a b : Nat), s.next.length ≤ N + 256 * b →
    ∀ (s' : Builder) (lrs' : List Nat) (a' b' : Nat), letterLoopC (findBase fuel) n i lrs s a b = .ok (s', lrs', a', b') → b' ≤ M →
    letterLoopC (findBase B) n i lrs s a b = .ok (s', lrs', a', b') := by
  intro n
  induction n with
  | zero => intro i lrs s dep X _ _ _ _ a b _ s' lrs' a' b' h _; exact h
  | succ n ih =>
    intro i lrs s dep X hi h hX hc a b hl s' lrs' a' b' hr hM
    unfold letterLoopC at hr ⊢
    cases e : letterC (findBase fuel) i lrs s a b with
    | ub => rw [e] at hr; cases hr
    | stop => rw [e] at hr; cases hr
    | ok p =>
      obtain ⟨s1, l1, a1, b1⟩ := p
      rw [e] at hr
      simp only [ok_bind] at hr
      obtain ⟨d1, X1, g1, g2, _⟩ := letterC_cnt fuel text hnz i (by omega) lrs s dep X h hX s1 l1 a b a1 b1 e
      obtain ⟨f1, f2, f3⟩ := letterC_bounded B fuel N M hN hB text hnz i (by omega) lrs s h hc a b hl s1 l1 a1 b1 e
        (Nat.le_trans (letterLoopC_mono _ _ _ _ _ _ _ _ _ _ _ hr) hM)
      rw [f1]
      simp only [ok_bind]
      exact ih (i + 1) l1 s1 d1 X1 (by omega) g1 g2 f2 a1 b1 f3 s' lrs' a' b' hr hM

/-- The state before the first letter: everything but element 0 is free, in as few blocks as possible. -/
theorem expandLoop_tight (m : Nat) : ∀ (n : Nat) (s : Builder), Ring s → Conn s → 0 < s.next.length → s.next.length < m + 256 →
    ∀ s', expandLoop m n s = .ok s' → Conn s' ∧ s'.next.length < m + 256 := by
  intro n
  induction n with
  | zero => intro s h1 h2 h4 h7 s' e; cases e; exact ⟨h2, h7⟩
  | succ n ih =>
    intro s h1 h2 h4 h7 s' e
    unfold expandLoop at e
    split at e
    · rename_i hl
      unfold Builder.expand at e
      split at e
      · cases e
      · rename_i hb
        obtain ⟨s1, es, _, _, l, _, _, _, _, hr⟩ := expandRaw_ring s h1 (by omega) h4
        obtain ⟨hc, _, _, _, _⟩ := expandRaw_cost s h1 (by omega) h4 h2 s1 es
        rw [es] at e
        simp only [lift_some, ok_bind] at e
        exact ih s1 hr (hc.conn h2) (by omega) (by omega) s' e
    · cases e
      exact ⟨h2, h7⟩

theorem start_conn (text : List Byte) (hne : text ≠ []) (s2 s3 : Builder) (e2 : expandLoop text.length text.length (initial text) = .ok s2)
    (e3 : s2.setNext 0 0 = some s3) : Conn s3 ∧ s3.next.length < text.length + 256 := by
  have hpos : 0 < text.length := List.length_pos_iff.2 hne
  have hkE : kEmpty = 4294967295 := rfl
  obtain ⟨n, hn⟩ : ∃ n, text.length = n + 1 := ⟨text.length - 1, by omega⟩
  have e1 : expandLoop text.length text.length (initial text) = ((initial text).expand >>= expandLoop text.length n) := by
    rw [show expandLoop text.length text.length (initial text) = expandLoop text.length (n + 1) (initial text) by rw [← hn]]
    rw [expandLoop, if_pos (show (initial text).next.length < text.length from hpos)]
  rw [e1] at e2
  obtain ⟨s1, es1, c1, b1, l1, u1, u2, i0, f0, r1⟩ := expandRaw_first (initial text) rfl rfl rfl rfl rfl
  obtain ⟨k1, all1⟩ := expandRaw_first_conn (initial text) rfl rfl rfl rfl rfl s1 es1
  have e4 : (initial text).expand = .ok s1 := by
    unfold Builder.expand
    rw [if_neg (by rw [hkE]; show ¬ (0 + 256 > _); omega), es1]; rfl
  rw [e4] at e2
  simp only [ok_bind] at e2
  obtain ⟨k2, l2⟩ := expandLoop_tight text.length n s1 r1 k1 (by omega) (by omega) s2 e2
  rcases expandLoop_spec text.length n s1 r1 (by rw [l1]; exact ⟨1, rfl⟩) (by omega) (by omega) u1 u2 with es | ⟨s2', es, c2, b2, r2, d2, p2, le2, us2, ut2⟩
  · rw [es] at e2; cases e2
  · rw [es] at e2
    cases e2
    have := setNext_cost s2 r2 0 0 p2 (ut2 0) s3 e3
    have h2 := this.size
    exact ⟨this.conn k2, by omega⟩

end Verif.FO
