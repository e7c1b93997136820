/-
The construction of the factor oracle ends when the number of letters is small for the length of the text: there are fewer external transitions
than letters in the text, and each of them takes at most as many free elements as its state then has, fewer than there are letters in the alphabet.
-/
import Verif.FO.Search

namespace Verif.FO
open Verif.PM (Byte)

/-- The number of transitions of state `st` in a list. -/
def degE (E : List (Nat × Nat)) (st : Nat) : Nat := (E.filter (fun e => e.1 == st)).length

/-- The elements taken by the transitions of a list, added one after the other: each one takes as many as its state then has transitions. -/
def Psi : List (Nat × Nat) → Nat
  | [] => 0
  | e :: E => degE E e.1 + 1 + Psi E

theorem degE_cons (e : Nat × Nat) (E : List (Nat × Nat)) (st : Nat) : degE (e :: E) st = degE E st + (if e.1 = st then 1 else 0) := by
  unfold degE
  by_cases h : e.1 = st <;> simp [h]

theorem sum_deg_cons (x : Nat × Nat) (E : List (Nat × Nat)) : ∀ F : List (Nat × Nat),
    (F.map (fun e => degE (x :: E) e.1 + 1)).sum = (F.map (fun e => degE E e.1 + 1)).sum + degE F x.1 := by
  intro F
  induction F with
  | nil => rfl
  | cons y F ih =>
    rw [List.map_cons, List.sum_cons, ih, List.map_cons, List.sum_cons, degE_cons, degE_cons]
    by_cases h : x.1 = y.1
    · rw [if_pos h, if_pos h.symm]; omega
    · rw [if_neg h, if_neg (fun e => h e.symm)]; omega

theorem two_Psi : ∀ E : List (Nat × Nat), 2 * Psi E = (E.map (fun e => degE E e.1 + 1)).sum := by
  intro E
  induction E with
  | nil => rfl
  | cons x E ih =>
    rw [List.map_cons, List.sum_cons, sum_deg_cons, ← ih, degE_cons, if_pos rfl, Psi]
    omega

theorem sum_le_mul (a : Nat) (g : Nat × Nat → Nat) : ∀ F : List (Nat × Nat), (∀ e ∈ F, g e ≤ a) → (F.map g).sum ≤ a * F.length := by
  intro F
  induction F with
  | nil => intro _; simp
  | cons y F ih =>
    intro h
    have h1 := ih (fun e he => h e (List.mem_cons_of_mem _ he))
    have h2 := h y List.mem_cons_self
    simp only [List.map_cons, List.sum_cons, List.length_cons, Nat.mul_succ]
    omega

/-- After at most `u` insertions, from `N` free elements: `E` lists the external transitions. -/
def Bud (N u : Nat) (s : Builder) : Prop :=
  ∃ E : List (Nat × Nat), Conn s ∧ N ≤ 1 + fr s + Psi E ∧ s.next.length ≤ N + 256 * u ∧ E.Nodup ∧ E.length ≤ u ∧
    ∀ st c, (st, c) ∈ E ↔ ∃ t, Ext s st c t

theorem Bud.mono {N u u' : Nat} {s : Builder} (h : Bud N u s) (hu : u ≤ u') : Bud N u' s := by
  obtain ⟨E, h1, h2, h3, h4, h5, h6⟩ := h
  exact ⟨E, h1, h2, by omega, h4, by omega, h6⟩

theorem Bud.step {N u : Nat} {s s' : Builder} (h : Bud N u s) (st c t : Nat) (L : List Nat)
    (hLp : L.Pairwise (fun x y => ck s.check x ≠ ck s.check y)) (hLe : ∀ t ∈ L, Ext s st (ck s.check t) t) (hc : Cost (L.length + 1) 1 s s')
    (hno : ∀ t, ¬ Ext s st c t) (hx : ∀ st' c' t', Ext s' st' c' t' ↔ Ext s st' c' t' ∨ (st' = st ∧ c' = c ∧ t' = t)) : Bud N (u + 1) s' := by
  obtain ⟨E, h1, h2, h3, h4, h5, h6⟩ := h
  have hL : L.length ≤ degE E st := by
    have := nodup_subset (L.map (ck s.check)) ((E.filter (fun e => e.1 == st)).map Prod.snd) (List.pairwise_map.2 hLp) (fun x hx => by
      obtain ⟨t, ht, rfl⟩ := List.mem_map.1 hx
      exact List.mem_map.2 ⟨(st, ck s.check t), List.mem_filter.2 ⟨(h6 _ _).2 ⟨t, hLe t ht⟩, by simp⟩, rfl⟩)
    simpa [degE] using this
  have c1 := hc.cost
  have c2 := hc.size
  refine ⟨(st, c) :: E, hc.conn h1, ?_, ?_, List.nodup_cons.2 ⟨fun hm => ?_, h4⟩, by simp only [List.length_cons]; omega, fun st' c' => ?_⟩
  · simp only [Psi]
    omega
  · have h7 : 256 * (u + 1) = 256 * u + 256 * 1 := Nat.mul_add _ _ _
    rw [h7, ← Nat.add_assoc]
    exact Nat.le_trans c2 (Nat.add_le_add_right h3 _)
  · obtain ⟨t, ht⟩ := (h6 _ _).1 hm
    exact hno t ht
  · rw [List.mem_cons, h6]
    constructor
    · rintro (e | ⟨t', ht'⟩)
      · cases e
        exact ⟨t, (hx _ _ _).2 (Or.inr ⟨rfl, rfl, rfl⟩)⟩
      · exact ⟨t', (hx _ _ _).2 (Or.inl ht')⟩
    · rintro ⟨t', ht'⟩
      rcases (hx _ _ _).1 ht' with h | ⟨rfl, rfl, _⟩
      · exact Or.inr ⟨t', h⟩
      · exact Or.inl rfl

/-- Room for all insertions. -/
structure Room (fuel a N i : Nat) : Prop where
  free : a * (i - 1) + 4 ≤ 2 * N
  size : N + 256 * i ≤ kEmpty
  fuel : kEmpty + 2 ≤ fuel

/-- No external transition has the label of the next state. -/
def Hint (s : Builder) : Prop := ∀ st c t, Ext s st c t → ck s.check (st + 1) ≠ c

theorem Bud.plenty {fuel N u i : Nat} {A : List Nat} {s : Builder} (h : Bud N u s) (hI : Inv s No)
    (hA : ∀ t, 0 < t → t ≤ s.check.length → ck s.check t ∈ A) (hH : Hint s) (hR : Room fuel A.length N i) (hi : 0 < i) (hu : u ≤ i - 1) :
    Plenty fuel s := by
  obtain ⟨E, h1, h2, h3, h4, h5, h6⟩ := h
  have hdeg : ∀ e ∈ E, degE E e.1 + 1 ≤ A.length := by
    rintro ⟨st, c⟩ he
    obtain ⟨t, ht⟩ := (h6 _ _).1 he
    have hl := hI.ext_lt ht
    have hin : ∀ x ∈ (E.filter (fun e => e.1 == st)).map Prod.snd, ∃ t, Ext s st x t := by
      intro x hx
      obtain ⟨⟨st', c'⟩, hp, rfl⟩ := List.mem_map.1 hx
      have hp2 := List.mem_filter.1 hp
      have e1 : st' = st := by simpa using hp2.2
      subst e1
      exact (h6 _ _).1 hp2.1
    have hnd : ((E.filter (fun e => e.1 == st)).map Prod.snd).Nodup := by
      refine List.pairwise_map.2 ?_
      refine List.Pairwise.imp_of_mem ?_ (List.Pairwise.filter (fun e : Nat × Nat => e.1 == st) h4)
      intro x y hx hy hne e
      have e1 : x.1 = st := by simpa using (List.mem_filter.1 hx).2
      have e2 : y.1 = st := by simpa using (List.mem_filter.1 hy).2
      exact hne (Prod.ext (by rw [e1, e2]) e)
    have := nodup_subset (ck s.check (st + 1) :: (E.filter (fun e => e.1 == st)).map Prod.snd) A (List.nodup_cons.2 ⟨fun hm => by
        obtain ⟨t', ht'⟩ := hin _ hm
        exact hH _ _ _ ht' rfl, hnd⟩) (fun x hx => by
        rcases List.mem_cons.1 hx with rfl | hx
        · exact hA _ (by omega) (by omega)
        · obtain ⟨t', ht'⟩ := hin x hx
          have hl' := hI.ext_lt ht'
          obtain ⟨_, _, _, _, _, _, e⟩ := ht'
          rw [← e]
          exact hA _ (by omega) hl'.2)
    simpa [degE] using this
  have hP := two_Psi E
  have hS := sum_le_mul A.length (fun e => degE E e.1 + 1) E hdeg
  have hM : A.length * E.length ≤ A.length * (i - 1) := Nat.mul_le_mul_left _ (by omega)
  have r1 := hR.free
  have r2 := hR.size
  have r3 := hR.fuel
  exact ⟨h1, by omega, by omega, by omega⟩

theorem dep_le {lrs : List Nat} {dep : Nat → Nat} {i : Nat} (hS : ∀ x, 0 < x → x ≤ i → lk lrs x < x) (hd0 : dep 0 = 0)
    (hdep : ∀ x, 0 < x → x ≤ i → dep x = dep (lk lrs x) + 1) : ∀ x, x ≤ i → dep x ≤ x := by
  intro x
  induction x using Nat.strongRecOn with
  | _ x ih =>
    intro hx
    by_cases h0 : x = 0
    · rw [h0, hd0]; omega
    · have h1 := hS x (by omega) hx
      have := ih _ h1 (by omega)
      rw [hdep x (by omega) hx]
      omega

theorem chainLoop_total (fuel : Nat) (lrs : List Nat) (i : Nat) (hS : ∀ x, 0 < x → x ≤ i → lk lrs x < x) (h0 : lk lrs 0 = i + 1)
    (hl : i + 1 < lrs.length) (dep : Nat → Nat) (hd0 : dep 0 = 0) (hdep : ∀ x, 0 < x → x ≤ i → dep x = dep (lk lrs x) + 1)
    (A : List Nat) (N : Nat) (hR : Room fuel A.length N i) : ∀ (k : Nat) (s : Builder), Inv s No →
    (∀ t, 0 < t → t ≤ s.check.length → ck s.check t ≠ 0 ∧ ck s.check t ∈ A) → i + 1 ≤ s.check.length →
    k < i → Hint s → Bud N (i - 1 - dep k) s →
    ∃ s' k', chainLoop (findBase fuel) lrs i s k = .ok (s', k') ∧ Hint s' ∧
      ((k' = i + 1 ∧ Bud N i s') ∨ (k' ≤ k ∧ dep k' ≤ dep k ∧ Bud N (i - 1 - dep k') s' ∧
        ∀ st, Ch (lk lrs) k st → k' < st → dep k' < dep st)) := by
  intro k
  induction k using Nat.strongRecOn with
  | _ k ih =>
    intro s h hA hi hk hH hB
    have hdk := dep_le hS hd0 hdep k (by omega)
    unfold chainLoop
    rw [dif_pos (by omega)]
    rcases transition_spec s h k (i + 1) (by omega) hi with ⟨t, e, ht, hd⟩ | ⟨e, hnd⟩
    · rw [e]
      simp only
      rw [if_neg (by omega)]
      refine ⟨s, k, rfl, hH, Or.inr ⟨Nat.le_refl _, Nat.le_refl _, hB, fun st hc hor => ?_⟩⟩
      have := hc.le hS (by omega)
      omega
    · rw [e]
      simp only [if_true]
      have hki : ck s.check (k + 1) ≠ ck s.check (i + 1) := fun ha => absurd (Or.inl ⟨ha, rfl⟩) (hnd (k + 1))
      have hno : ∀ t, ¬ Ext s k (ck s.check (i + 1)) t := fun t he => hnd t (Or.inr ⟨hki, he⟩)
      have hP : Plenty fuel s := hB.plenty h (fun t h1 h2 => (hA t h1 h2).2) hH hR (by omega) (by omega)
      rcases insertTrans_spec fuel s h (fun t h1 h2 => (hA t h1 h2).1) k (i + 1) (by omega) hi hno with ⟨_, hn⟩ | ⟨s1, es, c1, h1, hL, x1⟩
      · exact absurd hP hn
      · obtain ⟨L, hLp, hLe, hLc⟩ := hL hP
        have hB1 : Bud N (i - 1 - dep k + 1) s1 := hB.step k (ck s.check (i + 1)) (i + 1) L hLp hLe hLc hno x1
        have hH1 : Hint s1 := by
          intro st c t he
          rw [c1]
          rcases (x1 st c t).1 he with he | ⟨rfl, rfl, rfl⟩
          · exact hH _ _ _ he
          · exact hki
        rw [es]
        simp only
        have el : lrs[k]? = some (lk lrs k) := some_getD _ _ _ (by omega)
        rw [el]
        simp only
        by_cases hk0 : k = 0
        · subst hk0
          rw [h0, dif_neg (by omega), if_pos rfl]
          rw [hd0] at hB1
          exact ⟨s1, i + 1, rfl, hH1, Or.inl ⟨rfl, hB1.mono (by omega)⟩⟩
        · have hlt := hS k (by omega) (by omega)
          have hdk2 := hdep k (by omega) (by omega)
          rw [dif_pos hlt]
          obtain ⟨s2, k2, es2, hH2, hz⟩ := ih _ hlt s1 h1 (by rw [c1]; exact hA) (by rw [c1]; exact hi) (by omega) hH1 (hB1.mono (by omega))
          refine ⟨s2, k2, es2, hH2, ?_⟩
          rcases hz with hz | ⟨z1, z2, z3, z4⟩
          · exact Or.inl hz
          · refine Or.inr ⟨by omega, by omega, z3, fun st hc hlt2 => ?_⟩
            cases hc with
            | refl => omega
            | step _ hc => exact z4 st hc hlt2

/-- What the loop over the letters keeps, in addition to `LI`: the depth of the chains of suffix links bounds the number of insertions. -/
structure XI (N i : Nat) (lrs : List Nat) (s : Builder) (dep : Nat → Nat) : Prop where
  d0 : dep 0 = 0
  dl : ∀ k, 0 < k → k ≤ i → dep k = dep (lk lrs k) + 1
  dt : ∀ k c t, D s k c t → t ≤ i → dep t ≤ dep k + 1
  hint : Hint s
  bud : Bud N (i - dep i) s

theorem letter_total (fuel : Nat) (text : List Byte) (A : List Nat) (N : Nat)
    (hA : ∀ t, 0 < t → t ≤ text.length → ck text t ≠ 0 ∧ ck text t ∈ A) (i : Nat) (hi : i + 1 ≤ text.length) (hR : Room fuel A.length N i) (lrs : List Nat)
    (s : Builder) (dep : Nat → Nat) (h : LI text i lrs s) (hX : XI N i lrs s dep) :
    ∃ s' lrs' dep', letterLoop (findBase fuel) 1 i lrs s = .ok (s', lrs') ∧ XI N (i + 1) lrs' s' dep' := by
  have hck := h.check
  have hlen := h.len
  have hL : ∀ x, lk (lrs.set 0 (i + 1)) x = if 0 = x then i + 1 else lk lrs x := fun x => getD_set _ _ _ _ _ (by omega)
  have hlen1 : (lrs.set 0 (i + 1)).length = text.length + 1 := by rw [List.length_set]; exact hlen
  have dec1 : ∀ k, 0 < k → k ≤ i → lk (lrs.set 0 (i + 1)) k < k := by
    intro k h1 h2
    rw [hL, if_neg (by omega)]; exact h.dec k h1 h2
  have dl1 : ∀ k, 0 < k → k ≤ i → dep k = dep (lk (lrs.set 0 (i + 1)) k) + 1 := by
    intro k h1 h2
    rw [hL, if_neg (by omega)]; exact hX.dl k h1 h2
  have z1 : lk (lrs.set 0 (i + 1)) 0 = i + 1 := by rw [hL, if_pos rfl]
  unfold letterLoop
  rw [wr_eq _ _ _ (by omega)]
  simp only [lift_some, ok_bind]
  clear hL
  generalize lrs.set 0 (i + 1) = l1 at *
  have el : l1[i]? = some (lk l1 i) := some_getD _ _ _ (by omega)
  rw [el]
  simp only [lift_some, ok_bind]
  have hdi := dep_le dec1 hX.d0 dl1 i (Nat.le_refl _)
  -- after the chain
  have fin : ∀ s' k' v, Inv s' No → s'.check = s.check → v ≤ i → Hint s' →
      (∀ st d t, Ext s' st d t ↔ Ext s st d t ∨ (d = ck s.check (i + 1) ∧ t = i + 1 ∧ (0 < i ∧ Ch (lk l1) (lk l1 i) st ∧ (k' = i + 1 ∨ k' < st)))) →
      ((v = 0 ∧ Bud N i s') ∨ (0 < i ∧ k' ≤ i ∧ dep v ≤ dep k' + 1 ∧ dep k' + 1 ≤ dep i ∧ Bud N (i - 1 - dep k') s' ∧
        ∀ st, Ch (lk l1) (lk l1 i) st → k' < st → dep k' < dep st)) →
      ∃ dep', XI N (i + 1) (l1.set (i + 1) v) s' dep' := by
    intro s' k' v hI hc' hv hH' hx hk'
    have hL : ∀ x, lk (l1.set (i + 1) v) x = if i + 1 = x then v else lk l1 x := fun x => getD_set _ _ _ _ _ (by omega)
    obtain ⟨f, f1, dE⟩ : ∃ f : Nat → Nat, f (i + 1) = dep v + 1 ∧ ∀ x, x ≤ i → f x = dep x :=
      ⟨fun x => if x = i + 1 then dep v + 1 else dep x, if_pos rfl, fun x hx => if_neg (by omega)⟩
    have hvb : dep v ≤ i := Nat.le_trans (dep_le dec1 hX.d0 dl1 v hv) hv
    refine ⟨f, by rw [dE _ (by omega)]; exact hX.d0, fun k h1 h2 => ?_, fun k c t hd ht => ?_, hH', ?_⟩
    · rw [hL]
      by_cases e : i + 1 = k
      · rw [if_pos e, ← e, f1, dE _ hv]
      · have := dec1 k h1 (by omega)
        rw [if_neg e, dE _ (by omega), dE _ (by omega)]
        exact dl1 k h1 (by omega)
    · have hkt := D_lt hI hd
      rw [dE k (by omega)]
      by_cases hti : t ≤ i
      · rw [dE t hti]
        refine hX.dt k c t ?_ hti
        unfold D at hd ⊢
        rw [hc', hx] at hd
        rcases hd with hd | ⟨d1, d2 | d2⟩
        · exact Or.inl hd
        · exact Or.inr ⟨d1, d2⟩
        · omega
      · rw [show t = i + 1 by omega, f1]
        rcases hk' with ⟨rfl, _⟩ | ⟨h0, g1, g2, g3, _, g5⟩
        · rw [hX.d0]; omega
        · rcases hd with ⟨_, d2⟩ | ⟨_, d2⟩
          · have : k = i := by omega
            rw [this]; omega
          · rcases (hx _ _ _).1 d2 with d2 | ⟨_, _, _, hc, hor⟩
            · have := h.le _ _ _ d2; omega
            · have := g5 k hc (by omega)
              omega
    · rw [f1]
      rcases hk' with ⟨rfl, hb⟩ | ⟨h0, g1, g2, g3, hb, _⟩
      · rw [hX.d0]; exact hb.mono (by omega)
      · exact hb.mono (by omega)
  by_cases hi0 : i = 0
  · subst hi0
    have hcl : chainLoop (findBase fuel) l1 0 s (lk l1 0) = .ok (s, 1) := by
      unfold chainLoop
      rw [z1, dif_neg (by omega)]
    rw [hcl]
    simp only [ok_bind, Nat.zero_add, if_true, lift_some]
    rw [wr_eq _ _ _ (by omega)]
    simp only [lift_some, ok_bind]
    obtain ⟨dep', hd'⟩ := fin s 1 0 h.inv rfl (by omega) hX.hint (fun st d t => by
      constructor
      · exact Or.inl
      · rintro (hz | ⟨_, _, h0, _⟩)
        · exact hz
        · omega) (Or.inl ⟨rfl, hX.bud.mono (by omega)⟩)
    exact ⟨s, _, dep', rfl, hd'⟩
  · have hlt := dec1 i (by omega) (by omega)
    have hdl := dl1 i (by omega) (by omega)
    obtain ⟨s', k', es, hH', hz⟩ := chainLoop_total fuel l1 i dec1 z1 (by omega) dep hX.d0 dl1 A N hR (lk l1 i) s h.inv (by rw [hck]; exact hA)
      (by rw [hck]; omega) (by omega) hX.hint (hX.bud.mono (by omega))
    rcases chainLoop_spec fuel l1 i dec1 z1 (by omega) (lk l1 i) s h.inv (by rw [hck]; exact fun t h1 h2 => (hA t h1 h2).1) (by rw [hck]; omega) (by omega) with
      es2 | ⟨s2, k2, es2, h', c', x', n', z'⟩
    · rw [es] at es2; cases es2
    · rw [es] at es2
      cases es2
      rw [es]
      simp only [ok_bind]
      have hx' : ∀ st d t, Ext s' st d t ↔ Ext s st d t ∨ (d = ck s.check (i + 1) ∧ t = i + 1 ∧
          (0 < i ∧ Ch (lk l1) (lk l1 i) st ∧ (k' = i + 1 ∨ k' < st))) := by
        intro st d t
        rw [x']
        have : 0 < i := by omega
        simp only [this, true_and]
      by_cases hk' : k' = i + 1
      · rw [if_pos hk']
        simp only [lift_some, ok_bind]
        rw [wr_eq _ _ _ (by omega)]
        simp only [lift_some, ok_bind]
        obtain ⟨dep', hd'⟩ := fin s' k' 0 h' c' (by omega) hH' hx' (by
          rcases hz with ⟨_, hb⟩ | ⟨hz, _⟩
          · exact Or.inl ⟨rfl, hb⟩
          · omega)
        exact ⟨s', _, dep', rfl, hd'⟩
      · rw [if_neg hk']
        rcases z' with z' | ⟨zc, t, zt⟩
        · exact absurd z' hk'
        · have hk'le := zc.le dec1 (by omega)
          have hti : t ≤ i := by
            rcases zt with ⟨_, zt⟩ | ⟨_, zt⟩
            · omega
            · exact h.le _ _ _ zt
          have htD : D s' k' (ck s.check (i + 1)) t := by
            rcases zt with zt | ⟨z1, z2⟩
            · exact Or.inl (by rw [c']; exact zt)
            · exact Or.inr ⟨by rw [c']; exact z1, (x' _ _ _).2 (Or.inl z2)⟩
          rcases transition_spec s' h' k' (i + 1) (by rw [c', hck]; omega) (by rw [c', hck]; omega) with ⟨t2, e2, _, hd2⟩ | ⟨_, hnd⟩
          · rw [e2]
            rw [c'] at hd2
            have := D_fun htD hd2
            subst this
            simp only [lift_some, ok_bind]
            rw [wr_eq _ _ _ (by omega)]
            simp only [lift_some, ok_bind]
            obtain ⟨dep', hd'⟩ := fin s' k' t h' c' hti hH' hx' (by
              rcases hz with ⟨hz, _⟩ | ⟨g1, g2, g3, g4⟩
              · exact absurd hz hk'
              · exact Or.inr ⟨by omega, by omega, hX.dt _ _ _ zt hti, by omega, g3, g4⟩)
            exact ⟨s', _, dep', rfl, hd'⟩
          · rw [c'] at hnd
            exact absurd htD (hnd t)

theorem letterLoop_one (fb : Builder → List Nat → Nat → Res (Builder × Nat)) (n i : Nat) (lrs : List Nat) (s : Builder) :
    letterLoop fb (n + 1) i lrs s = (letterLoop fb 1 i lrs s >>= fun p => letterLoop fb n (i + 1) p.2 p.1) := by
  conv => lhs; unfold letterLoop
  conv => rhs; arg 1; unfold letterLoop
  cases lift (wr lrs 0 (i + 1)) with
  | ub => rfl
  | stop => rfl
  | ok l =>
    simp only [ok_bind]
    cases lift l[i]? with
    | ub => rfl
    | stop => rfl
    | ok k =>
      simp only [ok_bind]
      cases chainLoop fb l i s k with
      | ub => rfl
      | stop => rfl
      | ok p =>
        simp only [ok_bind]
        cases lift (if p.2 = i + 1 then some 0 else p.1.transition p.2 (i + 1)) with
        | ub => rfl
        | stop => rfl
        | ok v =>
          simp only [ok_bind]
          cases lift (wr l (i + 1) v) with
          | ub => rfl
          | stop => rfl
          | ok l2 => rfl

theorem Room.mono {fuel a N i j : Nat} (h : Room fuel a N i) (hj : j ≤ i) : Room fuel a N j := by
  have h1 : a * (j - 1) ≤ a * (i - 1) := Nat.mul_le_mul_left _ (by omega)
  have := h.free
  have := h.size
  exact ⟨by omega, by omega, h.fuel⟩

theorem letterLoop_total (fuel : Nat) (text : List Byte) (A : List Nat) (N : Nat)
    (hA : ∀ t, 0 < t → t ≤ text.length → ck text t ≠ 0 ∧ ck text t ∈ A) (hR : Room fuel A.length N (text.length - 1)) : ∀ (n i : Nat) (lrs : List Nat)
    (s : Builder) (dep : Nat → Nat), i + n ≤ text.length → LI text i lrs s → XI N i lrs s dep →
    ∃ s' lrs', letterLoop (findBase fuel) n i lrs s = .ok (s', lrs') := by
  intro n
  induction n with
  | zero => intro i lrs s dep _ _ _; exact ⟨s, lrs, rfl⟩
  | succ n ih =>
    intro i lrs s dep hi h hX
    obtain ⟨s', lrs', dep', e, hX'⟩ := letter_total fuel text A N hA i (by omega) (hR.mono (by omega)) lrs s dep h hX
    rcases letterLoop_spec fuel text (fun t h1 h2 => (hA t h1 h2).1) 1 i lrs s (by omega) h with e2 | ⟨s2, lrs2, e2, h2⟩
    · rw [e] at e2; cases e2
    · rw [e] at e2
      cases e2
      rw [letterLoop_one, e, ok_bind]
      exact ih (i + 1) lrs' s' dep' (by omega) h2 hX'

theorem expandLoop_total (m : Nat) : ∀ (n : Nat) (s : Builder), Ring s → Conn s → 256 ∣ s.next.length → 0 < s.next.length →
    (∀ y, y < s.next.length → InL s y) → m + 256 + 256 * n ≤ kEmpty → s.next.length ≤ m + 256 → m ≤ s.next.length + 256 * n →
    ∃ s', expandLoop m n s = .ok s' ∧ Conn s' ∧ m ≤ s'.next.length ∧ (∀ y, y < s'.next.length → InL s' y) ∧ s'.next.length ≤ m + 256 := by
  intro n
  induction n with
  | zero => intro s h1 h2 h3 h4 h5 h6 h7 h8; exact ⟨s, rfl, h2, by omega, h5, h7⟩
  | succ n ih =>
    intro s h1 h2 h3 h4 h5 h6 h7 h8
    unfold expandLoop
    by_cases hl : s.next.length < m
    · rw [if_pos hl]
      unfold Builder.expand
      have hb1 : s.next.length + 256 ≤ m + 256 + 256 * (n + 1) :=
        Nat.le_trans (Nat.add_le_add_right (Nat.le_of_lt hl) 256) (Nat.le_add_right _ _)
      have hb := Nat.le_trans hb1 h6
      rw [if_neg (by omega)]
      obtain ⟨s1, e, _, _, l, _, _, _, _, hr⟩ := expandRaw_ring s h1 hb h4
      obtain ⟨hc, _, _, _, hall⟩ := expandRaw_cost s h1 hb h4 h2 s1 e
      rw [e]
      simp only [lift_some, ok_bind]
      exact ih s1 hr (hc.conn h2) (by omega) (by omega) (hall h5) (by omega) (by omega) (by omega)
    · rw [if_neg hl]
      exact ⟨s, rfl, h2, by omega, h5, h7⟩

/-- The construction ends if there is room: with `a` letters and `m` characters, `(m - 2) a / 2 + 2` elements suffice. -/
theorem build_total (fuel : Nat) (text A : List Byte) (hne : text ≠ []) (hnz : ∀ c ∈ text, c ≠ 0#8) (hA : ∀ c ∈ text, c ∈ A)
    (hroom : A.length * (text.length - 2) + 4 ≤ 2 * (256 * ((text.length + 255) / 256))) (hm : text.length ≤ 2 ^ 23) (hfuel : kEmpty + 2 ≤ fuel) :
    ∃ o, build fuel text = .ok o := by
  have hpos : 0 < text.length := List.length_pos_iff.2 hne
  have hkE : kEmpty = 4294967295 := rfl
  unfold build buildWith
  obtain ⟨n, hn⟩ : ∃ n, text.length = n + 1 := ⟨text.length - 1, by omega⟩
  have e1 : expandLoop text.length text.length (initial text) = ((initial text).expand >>= expandLoop text.length n) := by
    rw [show expandLoop text.length text.length (initial text) = expandLoop text.length (n + 1) (initial text) by rw [← hn]]
    rw [expandLoop, if_pos (show (initial text).next.length < text.length from hpos)]
  rw [e1]
  obtain ⟨s1, es1, c1, b1, l1, u1, u2, i0, f0, r1⟩ := expandRaw_first (initial text) rfl rfl rfl rfl rfl
  obtain ⟨k1, all1⟩ := expandRaw_first_conn (initial text) rfl rfl rfl rfl rfl s1 es1
  have e2 : (initial text).expand = .ok s1 := by
    unfold Builder.expand
    rw [if_neg (by rw [hkE]; show ¬ (0 + 256 > _); omega), es1]; rfl
  rw [e2]
  simp only [ok_bind]
  obtain ⟨s2, es, k2, ml2, all2, le2⟩ := expandLoop_total text.length n s1 r1 k1 (by rw [l1]; exact ⟨1, rfl⟩) (by omega) (by rw [l1]; exact all1)
    (by omega) (by omega) (by omega)
  rcases expandLoop_spec text.length n s1 r1 (by rw [l1]; exact ⟨1, rfl⟩) (by omega) (by omega) u1 u2 with es' | ⟨s2', es', c2, b2, r2, d2, p2, _, us2, ut2⟩
  · rw [es] at es'; cases es'
  rw [es] at es'
  cases es'
  rw [es]
  simp only [ok_bind]
  obtain ⟨s3, es3, c3, b3, uu3, l3, fu3, n3, _, r3⟩ := setNext_ring s2 r2 0 0 p2 (ut2 0) (Or.inr rfl)
  have k3 := setNext_cost s2 r2 0 0 p2 (ut2 0) s3 es3
  rw [es3]
  simp only [lift_some, ok_bind]
  have hbase : s3.base = List.replicate (text.length + 1) kEmpty := by rw [b3, b2, b1]; rfl
  have hcheck : s3.check = text := by rw [c3, c2, c1]; rfl
  have hbE : ∀ (st b : Nat), s3.base[st]? = some b → b = kEmpty := by
    intro st b h
    rw [hbase, List.getElem?_replicate] at h
    split at h
    · exact (Option.some.inj h).symm
    · cases h
  have hnoE : ∀ st c t, ¬ Ext s3 st c t := by
    rintro st c t ⟨b, h1, h2, _⟩
    exact h2 (hbE _ _ h1)
  have hI : Inv s3 No := by
    refine ⟨r3, by rw [l3]; exact d2, by omega, by omega, by rw [hbase, hcheck, List.length_replicate], fun st b h1 h2 => absurd (hbE _ _ h1) h2,
      fun a b c h1 _ h3 => absurd (hbE _ _ h1) h3, fun x hx => ?_, by rw [fu3, if_pos rfl], n3⟩
    rw [fu3] at hx
    by_cases e : x = 0
    · exact Or.inl e
    · rw [if_neg e, ut2] at hx; cases hx
  have hLI : LI text 0 (List.replicate (text.length + 1) 0) s3 :=
    ⟨hI, hcheck, by rw [List.length_replicate], fun st c t he => absurd he (hnoE _ _ _), fun k h1 h2 => by omega, fun k h1 h2 => by omega⟩
  have hfr2 := fr_all all2
  have hk3 := k3.cost
  have hXI : XI s2.next.length 0 (List.replicate (text.length + 1) 0) s3 (fun _ => 0) := by
    refine ⟨rfl, fun k h1 h2 => by omega, fun k c t _ _ => by omega, fun st c t he => absurd he (hnoE _ _ _), [], k3.conn k2, by
      simp only [Psi]; omega, by omega, List.nodup_nil, by simp, fun st c => ?_⟩
    simp only [List.not_mem_nil, false_iff]
    rintro ⟨t, ht⟩
    exact hnoE _ _ _ ht
  have hAck : ∀ t, 0 < t → t ≤ text.length → ck text t ≠ 0 ∧ ck text t ∈ A.map BitVec.toNat := by
    intro t h1 h2
    refine ⟨ck_nz text hnz t h1 h2, ?_⟩
    unfold ck checkAt
    rw [if_neg (by omega), List.getElem?_eq_getElem (by omega)]
    exact List.mem_map.2 ⟨_, hA _ (List.getElem_mem _), rfl⟩
  have hR : Room fuel (A.map BitVec.toNat).length s2.next.length (text.length - 1) := by
    rw [List.length_map]
    refine ⟨?_, by omega, hfuel⟩
    rw [show text.length - 1 - 1 = text.length - 2 by omega]
    omega
  obtain ⟨s4, lrs, es4⟩ := letterLoop_total fuel text _ _ hAck hR text.length 0 _ s3 _ (by omega) hLI hXI
  rw [es4]
  exact ⟨_, rfl⟩

end Verif.FO
