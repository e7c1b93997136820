/-
The factor oracle: the number of transitions.
-/
import Verif.FO.Total
import Verif.FO.Search

namespace Verif.FO
open Verif.PM (Byte)

section
variable {S dep : Nat → Nat} {n : Nat} (hS : ∀ x, 0 < x → x ≤ n → S x < x) (hd : ∀ x, 0 < x → x ≤ n → dep x = dep (S x) + 1)
include hS hd

theorem Ch.dep_le {a b : Nat} (h : Ch S a b) (ha : a ≤ n) : dep b ≤ dep a ∧ (b < a → dep b < dep a) := by
  induction h with
  | refl => exact ⟨Nat.le_refl _, fun h => absurd h (Nat.lt_irrefl _)⟩
  | step h0 _ ih =>
    have h1 := hS _ h0 ha
    have h2 := hd _ h0 ha
    have h3 := (ih (by omega)).1
    exact ⟨by omega, fun _ => by omega⟩

theorem Ch.dep_lt {a b k : Nat} (h : Ch S a b) (h' : Ch S a k) (ha : a ≤ n) (hk : k < b) : dep k < dep b := by
  induction h with
  | refl => exact (h'.dep_le hS hd ha).2 hk
  | step h0 hc ih =>
    have h1 := hS _ h0 ha
    cases h' with
    | refl =>
      have := hc.le hS (by omega)
      omega
    | step _ h' => exact ih h' (by omega) hk

/-- The states of a chain above `k`. -/
theorem Ch.list {a k : Nat} (h : Ch S a k) (ha : a ≤ n) : ∃ C : List Nat, (∀ st, Ch S a st → k < st → st ∈ C) ∧ C.length + dep k = dep a := by
  induction h with
  | refl =>
    refine ⟨[], fun st hc hlt => ?_, by simp⟩
    have := hc.le hS ha
    omega
  | @step j k h0 hc ih =>
    have h1 := hS _ h0 ha
    obtain ⟨C, hC, hl⟩ := ih (by omega)
    refine ⟨j :: C, fun st hst hlt => ?_, ?_⟩
    · cases hst with
      | refl => exact List.mem_cons_self
      | step _ hst => exact List.mem_cons_of_mem _ (hC st hst hlt)
    · have := hd _ h0 ha
      simp only [List.length_cons]
      omega

/-- All states of a chain. -/
theorem Ch.list_all (d0 : dep 0 = 0) {a : Nat} (ha : a ≤ n) : ∃ C : List Nat, (∀ st, Ch S a st → st ∈ C) ∧ C.length = dep a + 1 := by
  obtain ⟨C, hC, hl⟩ := (Ch.zero hS a ha).list hS hd ha
  refine ⟨0 :: C, fun st hst => ?_, by simp only [List.length_cons]; omega⟩
  rcases Nat.eq_zero_or_pos st with h | h
  · subst h; exact List.mem_cons_self
  · exact List.mem_cons_of_mem _ (hC st hst h)

end

/-- The external transitions after `i` letters are in the list `E`, at most `i` less the depth of the chain of state `i`. -/
structure XC (i : Nat) (lrs : List Nat) (s : Builder) (dep : Nat → Nat) (E : List (Nat × Nat × Nat)) : Prop where
  d0 : dep 0 = 0
  dl : ∀ k, 0 < k → k ≤ i → dep k = dep (lk lrs k) + 1
  dt : ∀ k c t, D s k c t → t ≤ i → dep t ≤ dep k + 1
  all : ∀ st c t, Ext s st c t → (st, c, t) ∈ E
  cnt : E.length + dep i ≤ i

theorem letter_count (fuel : Nat) (text : List Byte) (hnz : ∀ t, 0 < t → t ≤ text.length → ck text t ≠ 0) (i : Nat) (hi : i + 1 ≤ text.length)
    (lrs : List Nat) (s : Builder) (dep : Nat → Nat) (E : List (Nat × Nat × Nat)) (h : LI text i lrs s) (hX : XC i lrs s dep E) (s' : Builder)
    (lrs' : List Nat) (hr : letterLoop (findBase fuel) 1 i lrs s = .ok (s', lrs')) : ∃ dep' E', XC (i + 1) lrs' s' dep' E' := by
  have hck := h.check
  have hlen := h.len
  have hL : ∀ x, lk (lrs.set 0 (i + 1)) x = if 0 = x then i + 1 else lk lrs x := fun x => getD_set _ _ _ _ _ (by omega)
  have hlen1 : (lrs.set 0 (i + 1)).length = text.length + 1 := by rw [List.length_set]; exact hlen
  have dec1 : ∀ k, 0 < k → k ≤ i → lk (lrs.set 0 (i + 1)) k < k := by
    intro k h1 h2
    rw [hL, if_neg (by omega)]; exact h.dec k h1 h2
  have dl1 : ∀ k, 0 < k → k ≤ i → dep k = dep (lk (lrs.set 0 (i + 1)) k) + 1 := by
    intro k h1 h2
    rw [hL, if_neg (by omega)]; exact hX.dl k h1 h2
  have z1 : lk (lrs.set 0 (i + 1)) 0 = i + 1 := by rw [hL, if_pos rfl]
  unfold letterLoop at hr
  rw [wr_eq _ _ _ (by omega)] at hr
  simp only [lift_some, ok_bind] at hr
  clear hL
  generalize lrs.set 0 (i + 1) = l1 at *
  have el : l1[i]? = some (lk l1 i) := some_getD _ _ _ (by omega)
  rw [el] at hr
  simp only [lift_some, ok_bind] at hr
  -- after the chain
  have fin : ∀ s' k' v, Inv s' No → s'.check = s.check → v ≤ i →
      (∀ st d t, Ext s' st d t ↔ Ext s st d t ∨ (d = ck s.check (i + 1) ∧ t = i + 1 ∧ (0 < i ∧ Ch (lk l1) (lk l1 i) st ∧ (k' = i + 1 ∨ k' < st)))) →
      ((k' = i + 1 ∧ v = 0) ∨ (0 < i ∧ Ch (lk l1) (lk l1 i) k' ∧ dep v ≤ dep k' + 1)) →
      ∃ dep' E', XC (i + 1) (l1.set (i + 1) v) s' dep' E' := by
    intro s' k' v hI hc' hv hx hk'
    have hL : ∀ x, lk (l1.set (i + 1) v) x = if i + 1 = x then v else lk l1 x := fun x => getD_set _ _ _ _ _ (by omega)
    obtain ⟨f, f1, dE⟩ : ∃ f : Nat → Nat, f (i + 1) = dep v + 1 ∧ ∀ x, x ≤ i → f x = dep x :=
      ⟨fun x => if x = i + 1 then dep v + 1 else dep x, if_pos rfl, fun x hx => if_neg (by omega)⟩
    -- the new transitions
    obtain ⟨C, hC, hCl⟩ : ∃ C : List Nat, (∀ st, (0 < i ∧ Ch (lk l1) (lk l1 i) st ∧ (k' = i + 1 ∨ k' < st)) → st ∈ C) ∧ C.length + E.length + dep v ≤ i := by
      have hcnt := hX.cnt
      by_cases h0 : i = 0
      · subst h0
        refine ⟨[], fun st hst => by omega, ?_⟩
        have : v = 0 := by omega
        subst this
        simp only [List.length_nil]
        omega
      · have hlt := dec1 i (by omega) (Nat.le_refl _)
        have hdl := dl1 i (by omega) (Nat.le_refl _)
        rcases hk' with ⟨_, rfl⟩ | ⟨_, hk', hv'⟩
        · obtain ⟨C, hC, hl⟩ := Ch.list_all dec1 dl1 hX.d0 (a := lk l1 i) (by omega)
          have hd0 := hX.d0
          exact ⟨C, fun st hst => hC st hst.2.1, by omega⟩
        · obtain ⟨C, hC, hl⟩ := hk'.list dec1 dl1 (by omega)
          have := hk'.le dec1 (by omega)
          exact ⟨C, fun st hst => hC st hst.2.1 (by omega), by omega⟩
    refine ⟨f, C.map (fun st => (st, ck s.check (i + 1), i + 1)) ++ E, by rw [dE _ (by omega)]; exact hX.d0, fun k h1 h2 => ?_, fun k c t hd ht => ?_,
      fun st c t he => ?_, ?_⟩
    · rw [hL]
      by_cases e : i + 1 = k
      · rw [if_pos e, ← e, f1, dE _ hv]
      · have := dec1 k h1 (by omega)
        rw [if_neg e, dE _ (by omega), dE _ (by omega)]
        exact dl1 k h1 (by omega)
    · have hkt := D_lt hI hd
      rw [dE k (by omega)]
      by_cases hti : t ≤ i
      · rw [dE t hti]
        refine hX.dt k c t ?_ hti
        unfold D at hd ⊢
        rw [hc', hx] at hd
        rcases hd with hd | ⟨d1, d2 | d2⟩
        · exact Or.inl hd
        · exact Or.inr ⟨d1, d2⟩
        · omega
      · rw [show t = i + 1 by omega, f1]
        rcases hk' with ⟨_, rfl⟩ | ⟨h0, g1, g2⟩
        · rw [hX.d0]; omega
        · have hlt := dec1 i h0 (Nat.le_refl _)
          have hdl := dl1 i h0 (Nat.le_refl _)
          have g3 := (g1.dep_le dec1 dl1 (by omega)).1
          rcases hd with ⟨_, d2⟩ | ⟨_, d2⟩
          · have : k = i := by omega
            rw [this]; omega
          · rcases (hx _ _ _).1 d2 with d2 | ⟨_, _, _, hc, hor⟩
            · have := h.le _ _ _ d2; omega
            · have := g1.le dec1 (by omega)
              have := hc.dep_lt dec1 dl1 g1 (by omega) (by omega)
              omega
    · rcases (hx _ _ _).1 he with hp | ⟨rfl, rfl, hp⟩
      · exact List.mem_append_right _ (hX.all _ _ _ hp)
      · exact List.mem_append_left _ (List.mem_map.2 ⟨st, hC st hp, rfl⟩)
    · rw [f1]
      simp only [List.length_append, List.length_map]
      omega
  by_cases hi0 : i = 0
  · subst hi0
    have hcl : chainLoop (findBase fuel) l1 0 s (lk l1 0) = .ok (s, 1) := by
      unfold chainLoop
      rw [z1, dif_neg (by omega)]
    rw [hcl] at hr
    simp only [ok_bind, Nat.zero_add, if_true, lift_some] at hr
    rw [wr_eq _ _ _ (by omega)] at hr
    simp only [lift_some, ok_bind] at hr
    cases hr
    exact fin s 1 0 h.inv rfl (by omega) (fun st d t => by
      constructor
      · exact Or.inl
      · rintro (hz | ⟨_, _, h0, _⟩)
        · exact hz
        · omega) (Or.inl ⟨rfl, rfl⟩)
  · have hlt := dec1 i (by omega) (by omega)
    rcases chainLoop_spec fuel l1 i dec1 z1 (by omega) (lk l1 i) s h.inv (by rw [hck]; exact hnz) (by rw [hck]; omega) (by omega) with
      es | ⟨s2, k', es, h', c', x', n', z'⟩
    · rw [es] at hr; cases hr
    · rw [es] at hr
      simp only [ok_bind] at hr
      have hx' : ∀ st d t, Ext s2 st d t ↔ Ext s st d t ∨ (d = ck s.check (i + 1) ∧ t = i + 1 ∧
          (0 < i ∧ Ch (lk l1) (lk l1 i) st ∧ (k' = i + 1 ∨ k' < st))) := by
        intro st d t
        rw [x']
        have : 0 < i := by omega
        simp only [this, true_and]
      by_cases hk' : k' = i + 1
      · rw [if_pos hk'] at hr
        simp only [lift_some, ok_bind] at hr
        rw [wr_eq _ _ _ (by omega)] at hr
        simp only [lift_some, ok_bind] at hr
        cases hr
        exact fin _ k' 0 h' c' (by omega) hx' (Or.inl ⟨hk', rfl⟩)
      · rw [if_neg hk'] at hr
        rcases z' with z' | ⟨zc, t, zt⟩
        · exact absurd z' hk'
        · have hk'le := zc.le dec1 (by omega)
          have hti : t ≤ i := by
            rcases zt with ⟨_, zt⟩ | ⟨_, zt⟩
            · omega
            · exact h.le _ _ _ zt
          have htD : D s2 k' (ck s.check (i + 1)) t := by
            rcases zt with zt | ⟨z1, z2⟩
            · exact Or.inl (by rw [c']; exact zt)
            · exact Or.inr ⟨by rw [c']; exact z1, (x' _ _ _).2 (Or.inl z2)⟩
          rcases transition_spec s2 h' k' (i + 1) (by rw [c', hck]; omega) (by rw [c', hck]; omega) with ⟨t2, e2, _, hd2⟩ | ⟨_, hnd⟩
          · rw [e2] at hr
            rw [c'] at hd2
            have := D_fun htD hd2
            subst this
            simp only [lift_some, ok_bind] at hr
            rw [wr_eq _ _ _ (by omega)] at hr
            simp only [lift_some, ok_bind] at hr
            cases hr
            exact fin _ k' t h' c' hti hx' (Or.inr ⟨by omega, zc, hX.dt _ _ _ zt hti⟩)
          · rw [c'] at hnd
            exact absurd htD (hnd t)

theorem letterLoop_count (fuel : Nat) (text : List Byte) (hnz : ∀ t, 0 < t → t ≤ text.length → ck text t ≠ 0) : ∀ (n i : Nat)
    (lrs : List Nat) (s : Builder) (dep : Nat → Nat) (E : List (Nat × Nat × Nat)), i + n ≤ text.length → LI text i lrs s → XC i lrs s dep E →
    ∀ s' lrs', letterLoop (findBase fuel) n i lrs s = .ok (s', lrs') → ∃ dep' E', XC (i + n) lrs' s' dep' E' := by
  intro n
  induction n with
  | zero => intro i lrs s dep E _ _ hX s' lrs' hr; cases hr; exact ⟨dep, E, hX⟩
  | succ n ih =>
    intro i lrs s dep E hi h hX s' lrs' hr
    rw [letterLoop_one] at hr
    rcases letterLoop_spec fuel text hnz 1 i lrs s (by omega) h with e | ⟨s1, l1, e, h1⟩
    · rw [e] at hr; cases hr
    · rw [e] at hr
      obtain ⟨d1, E1, X1⟩ := letter_count fuel text hnz i (by omega) lrs s dep E h hX s1 l1 e
      have := ih (i + 1) l1 s1 d1 E1 (by omega) h1 X1 s' lrs' hr
      rw [show i + (n + 1) = i + 1 + n by omega]
      exact this

/-- A finished oracle, with its transitions counted. -/
theorem build_count (fuel : Nat) (text : List Byte) (hne : text ≠ []) (hnz : ∀ c ∈ text, c ≠ 0#8) :
    build fuel text = .stop ∨ ∃ s lrs dep E, build fuel text = .ok (fin s) ∧ LI text text.length lrs s ∧ XC text.length lrs s dep E := by
  have hpos : 0 < text.length := List.length_pos_iff.2 hne
  have hkE : kEmpty = 4294967295 := rfl
  unfold build buildWith
  obtain ⟨n, hn⟩ : ∃ n, text.length = n + 1 := ⟨text.length - 1, by omega⟩
  have e1 : expandLoop text.length text.length (initial text) = ((initial text).expand >>= expandLoop text.length n) := by
    rw [show expandLoop text.length text.length (initial text) = expandLoop text.length (n + 1) (initial text) by rw [← hn]]
    rw [expandLoop, if_pos (show (initial text).next.length < text.length from hpos)]
  rw [e1]
  obtain ⟨s1, es1, c1, b1, l1, u1, u2, i0, f0, r1⟩ := expandRaw_first (initial text) rfl rfl rfl rfl rfl
  have e2 : (initial text).expand = .ok s1 := by
    unfold Builder.expand
    rw [if_neg (by rw [hkE]; show ¬ (0 + 256 > _); omega), es1]; rfl
  rw [e2]
  simp only [ok_bind]
  rcases expandLoop_spec text.length n s1 r1 (by rw [l1]; exact ⟨1, rfl⟩) (by omega) (by omega) u1 u2 with es | ⟨s2, es, c2, b2, r2, d2, p2, le2, us2, ut2⟩
  · rw [es]; exact Or.inl rfl
  · rw [es]
    simp only [ok_bind]
    obtain ⟨s3, es3, c3, b3, uu3, l3, fu3, n3, _, r3⟩ := setNext_ring s2 r2 0 0 p2 (ut2 0) (Or.inr rfl)
    rw [es3]
    simp only [lift_some, ok_bind]
    have hbase : s3.base = List.replicate (text.length + 1) kEmpty := by rw [b3, b2, b1]; rfl
    have hcheck : s3.check = text := by rw [c3, c2, c1]; rfl
    have hbE : ∀ (st b : Nat), s3.base[st]? = some b → b = kEmpty := by
      intro st b h
      rw [hbase, List.getElem?_replicate] at h
      split at h
      · exact (Option.some.inj h).symm
      · cases h
    have hI : Inv s3 No := by
      refine ⟨r3, by rw [l3]; exact d2, by omega, by omega, by rw [hbase, hcheck, List.length_replicate], fun st b h1 h2 => absurd (hbE _ _ h1) h2,
        fun a b c h1 _ h3 => absurd (hbE _ _ h1) h3, fun x hx => ?_, by rw [fu3, if_pos rfl], n3⟩
      rw [fu3] at hx
      by_cases e : x = 0
      · exact Or.inl e
      · rw [if_neg e, ut2] at hx; cases hx
    have hLI : LI text 0 (List.replicate (text.length + 1) 0) s3 := by
      refine ⟨hI, hcheck, by rw [List.length_replicate], fun st c t he => ?_, fun k h1 h2 => by omega, fun k h1 h2 => by omega⟩
      obtain ⟨b, h1, h2, _⟩ := he
      exact absurd (hbE _ _ h1) h2
    rcases letterLoop_spec fuel text (ck_nz text hnz) text.length 0 _ s3 (by omega) hLI with es4 | ⟨s4, lrs, es4, h4⟩
    · rw [es4]; exact Or.inl rfl
    · rw [es4]
      rw [Nat.zero_add] at h4
      obtain ⟨dep, E, hX⟩ := letterLoop_count fuel text (ck_nz text hnz) text.length 0 _ s3 (fun _ => 0) [] (by omega) hLI
        ⟨rfl, fun k h1 h2 => by omega, fun _ _ _ _ _ => by omega, fun st c t he => by
          obtain ⟨b, h1, h2, _⟩ := he
          exact absurd (hbE _ _ h1) h2, by simp⟩ s4 lrs es4
      rw [Nat.zero_add] at hX
      exact Or.inr ⟨s4, lrs, dep, E, rfl, h4, hX⟩

end Verif.FO
