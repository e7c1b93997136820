/-
The list of free elements of the factor oracle builder: `expand` and `setNext` keep it a ring.
-/
import Verif.FO.Model

namespace Verif.FO

theorem getD_set {α : Type} (l : List α) (i x : Nat) (v d : α) (h : i < l.length) :
    (l.set i v)[x]?.getD d = if i = x then v else l[x]?.getD d := by
  rw [List.getElem?_set]
  by_cases hx : i = x
  · rw [if_pos hx, if_pos hx, if_pos (by omega)]; rfl
  · rw [if_neg hx, if_neg hx]

theorem some_getD {α : Type} (l : List α) (x : Nat) (d : α) (h : x < l.length) : l[x]? = some (l[x]?.getD d) := by
  rw [List.getElem?_eq_getElem h]; rfl

theorem lt_of_getD_true (l : List Bool) (x : Nat) (h : l[x]?.getD false = true) : x < l.length := by
  by_cases hx : x < l.length
  · exact hx
  · rw [List.getElem?_eq_none (by omega)] at h; cases h

def nx (s : Builder) (x : Nat) : Nat := s.next[x]?.getD 0
def pv (s : Builder) (x : Nat) : Nat := s.prev[x]?.getD 0
def ut (s : Builder) (x : Nat) : Bool := s.usedTrans[x]?.getD false
def us (s : Builder) (x : Nat) : Bool := s.usedState[x]?.getD false

/-- Element `x` is in the list of free elements. -/
def InL (s : Builder) (x : Nat) : Prop := x < s.next.length ∧ ut s x = false ∧ nx s x ≠ kEmpty

structure Ring (s : Builder) : Prop where
  n1 : s.usedState.length = s.next.length
  n2 : s.usedTrans.length = s.next.length
  n3 : s.prev.length = s.next.length
  ring : ∀ x, InL s x → InL s (nx s x) ∧ pv s (nx s x) = x ∧ InL s (pv s x) ∧ nx s (pv s x) = x
  front : InL s s.front ∨ (s.front = 0 ∧ ut s 0 = true)

theorem linkLoop_spec : ∀ (n i : Nat) (next prev : List Nat), i + n ≤ next.length → i + n ≤ prev.length →
    ∃ next' prev', linkLoop n i next prev = some (next', prev') ∧ next'.length = next.length ∧ prev'.length = prev.length ∧
      (∀ x, next'[x]?.getD 0 = if i ≤ x ∧ x < i + n then x + 1 else next[x]?.getD 0) ∧
      (∀ x, prev'[x]?.getD 0 = if i ≤ x ∧ x < i + n then x - 1 else prev[x]?.getD 0) := by
  intro n
  induction n with
  | zero =>
    intro i next prev _ _
    refine ⟨next, prev, rfl, rfl, rfl, fun x => ?_, fun x => ?_⟩ <;> rw [if_neg (by omega)]
  | succ n ih =>
    intro i next prev h1 h2
    unfold linkLoop
    rw [wr_eq _ _ _ (by omega)]
    simp only [Option.bind_eq_bind, Option.bind_some]
    rw [wr_eq _ _ _ (by omega)]
    simp only [Option.bind_some]
    obtain ⟨next', prev', e, l1, l2, f1, f2⟩ := ih (i + 1) (next.set i (i + 1)) (prev.set i (i - 1))
      (by rw [List.length_set]; omega) (by rw [List.length_set]; omega)
    refine ⟨next', prev', e, by rw [l1, List.length_set], by rw [l2, List.length_set], fun x => ?_, fun x => ?_⟩
    · rw [f1 x, getD_set _ _ _ _ _ (by omega)]
      by_cases hx : i = x
      · subst hx; rw [if_neg (by omega), if_pos rfl, if_pos (by omega)]
      · rw [if_neg hx]
        by_cases hy : i ≤ x ∧ x < i + (n + 1)
        · rw [if_pos hy, if_pos (by omega)]
        · rw [if_neg hy, if_neg (by omega)]
    · rw [f2 x, getD_set _ _ _ _ _ (by omega)]
      by_cases hx : i = x
      · subst hx; rw [if_neg (by omega), if_pos rfl, if_pos (by omega)]
      · rw [if_neg hx]
        by_cases hy : i ≤ x ∧ x < i + (n + 1)
        · rw [if_pos hy, if_pos (by omega)]
        · rw [if_neg hy, if_neg (by omega)]

theorem getD_vresize {α : Type} (l : List α) (n x : Nat) (d : α) (h : l.length ≤ n) : (vresize l n d)[x]?.getD d = l[x]?.getD d := by
  rw [vresize_getElem?]
  by_cases h1 : x < n
  · rw [if_pos h1]
    by_cases h2 : x < l.length
    · simp [h2]
    · simp [h2]
  · rw [if_neg h1, List.getElem?_eq_none (by omega)]

theorem ite1 (N x f o v : Nat) : (if N + 256 - 1 = x then f else if N + 1 ≤ x ∧ x < N + 1 + 254 then x + 1 else if N = x then N + 1 else
    if o = x then N else v) = if x = N + 255 then f else if N ≤ x ∧ x < N + 255 then x + 1 else if x = o then N else v := by
  repeat' split
  all_goals omega

theorem ite2 (N x f o v : Nat) : (if N + 256 - 1 = x then N + 256 - 2 else if N + 1 ≤ x ∧ x < N + 1 + 254 then x - 1 else
    if f = x then N + 256 - 1 else if N = x then o else v) =
    if x = N + 255 then N + 254 else if N < x ∧ x < N + 255 then x - 1 else if x = f then N + 255 else if x = N then o else v := by
  repeat' split
  all_goals omega

theorem ite3 (N x v : Nat) : (if N + 256 - 1 = x then N else if N + 1 ≤ x ∧ x < N + 1 + 254 then x + 1 else if N = x then N + 1 else v) =
    if x = N + 255 then N else if N ≤ x ∧ x < N + 255 then x + 1 else v := by
  repeat' split
  all_goals omega

theorem ite4 (N x v : Nat) : (if N + 256 - 1 = x then N + 256 - 2 else if N + 1 ≤ x ∧ x < N + 1 + 254 then x - 1 else
    if N = x then N + 256 - 1 else v) =
    if x = N + 255 then N + 254 else if N < x ∧ x < N + 255 then x - 1 else if x = N then N + 255 else v := by
  repeat' split
  all_goals omega

/-- What `expandRaw` writes. -/
theorem expandRaw_eq (s : Builder) (N : Nat) (hN : s.next.length = N) (n1 : s.usedState.length = N) (n2 : s.usedTrans.length = N)
    (n3 : s.prev.length = N) (hf : s.front < N + 256)
    (ho : (s.front ≠ 0 ∨ ut s 0 = false) → pv s s.front < N + 256) :
    ∃ s', s.expandRaw = some s' ∧ s'.check = s.check ∧ s'.base = s.base ∧ s'.next.length = N + 256 ∧ s'.usedState.length = N + 256 ∧
      s'.usedTrans.length = N + 256 ∧ s'.prev.length = N + 256 ∧ (∀ x, us s' x = us s x) ∧ (∀ x, ut s' x = ut s x) ∧
      ((s.front ≠ 0 ∨ ut s 0 = false) ∧ s'.front = s.front ∧
        (∀ x, nx s' x = if x = N + 255 then s.front else if N ≤ x ∧ x < N + 255 then x + 1 else if x = pv s s.front then N else nx s x) ∧
        (∀ x, pv s' x = if x = N + 255 then N + 254 else if N < x ∧ x < N + 255 then x - 1 else if x = s.front then N + 255
          else if x = N then pv s s.front else pv s x) ∨
       ¬ (s.front ≠ 0 ∨ ut s 0 = false) ∧ s'.front = N ∧
        (∀ x, nx s' x = if x = N + 255 then N else if N ≤ x ∧ x < N + 255 then x + 1 else nx s x) ∧
        (∀ x, pv s' x = if x = N + 255 then N + 254 else if N < x ∧ x < N + 255 then x - 1 else if x = N then N + 255 else pv s x)) := by
  unfold Builder.expandRaw
  simp only [hN]
  have gn : ∀ x, (vresize s.next (N + 256) 0)[x]?.getD 0 = nx s x := fun x => getD_vresize _ _ _ _ (by omega)
  have gp : ∀ x, (vresize s.prev (N + 256) 0)[x]?.getD 0 = pv s x := fun x => getD_vresize _ _ _ _ (by omega)
  have gu : ∀ x, (vresize s.usedTrans (N + 256) false)[x]?.getD false = ut s x := fun x => getD_vresize _ _ _ _ (by omega)
  have gs : ∀ x, (vresize s.usedState (N + 256) false)[x]?.getD false = us s x := fun x => getD_vresize _ _ _ _ (by omega)
  have ln : (vresize s.next (N + 256) 0).length = N + 256 := vresize_length _ _ _
  have lp : (vresize s.prev (N + 256) 0).length = N + 256 := vresize_length _ _ _
  have lu : (vresize s.usedTrans (N + 256) false).length = N + 256 := vresize_length _ _ _
  have ls : (vresize s.usedState (N + 256) false).length = N + 256 := vresize_length _ _ _
  unfold Builder.resize
  generalize vresize s.next (N + 256) 0 = A at *
  generalize vresize s.prev (N + 256) 0 = P at *
  generalize vresize s.usedTrans (N + 256) false = U at *
  generalize vresize s.usedState (N + 256) false = S at *
  simp only
  rw [some_getD U 0 false (by omega), gu]
  simp only [Option.bind_eq_bind, Option.bind_some]
  unfold splice
  by_cases hc : s.front ≠ 0 ∨ ut s 0 = false
  · have hc' : s.front ≠ 0 ∨ ¬ ut s 0 = true := by simpa using hc
    have ho := ho hc
    rw [if_pos hc', some_getD P s.front 0 (by omega), gp]
    simp only [Option.bind_eq_bind, Option.bind_some, Option.pure_def]
    rw [wr_eq P _ _ (by omega), Option.bind_some, wr_eq A _ _ (by omega), Option.bind_some]
    rw [wr_eq (P.set _ _) _ _ (by rw [List.length_set]; omega), Option.bind_some, Option.bind_some]
    simp only []
    rw [wr_eq (A.set _ _) _ _ (by rw [List.length_set]; omega), Option.bind_some]
    obtain ⟨next', prev', e, l1, l2, f1, f2⟩ := linkLoop_spec 254 (N + 1) ((A.set (pv s s.front) N).set N (N + 1))
      ((P.set N (pv s s.front)).set s.front (N + 256 - 1)) (by simp only [List.length_set]; omega) (by simp only [List.length_set]; omega)
    rw [e]
    simp only [Option.bind_some]
    simp only [List.length_set] at l1 l2
    rw [wr_eq next' _ _ (by omega), Option.bind_some, wr_eq prev' _ _ (by omega), Option.bind_some]
    refine ⟨_, rfl, rfl, rfl, by simp only [List.length_set]; omega, ls, lu, by simp only [List.length_set]; omega, gs, gu,
      Or.inl ⟨hc, rfl, fun x => ?_, fun x => ?_⟩⟩
    · change (next'.set _ _)[x]?.getD 0 = _
      rw [getD_set _ _ _ _ _ (by omega), f1 x, getD_set _ _ _ _ _ (by rw [List.length_set]; omega), getD_set _ _ _ _ _ (by omega), gn]
      exact ite1 _ _ _ _ _
    · change (prev'.set _ _)[x]?.getD 0 = _
      rw [getD_set _ _ _ _ _ (by omega), f2 x, getD_set _ _ _ _ _ (by rw [List.length_set]; omega), getD_set _ _ _ _ _ (by omega), gp]
      exact ite2 _ _ _ _ _
  · have hc' : ¬ (s.front ≠ 0 ∨ ¬ ut s 0 = true) := by simpa using hc
    rw [if_neg hc']
    rw [wr_eq P _ _ (by omega)]
    simp only [Option.bind_eq_bind, Option.bind_some, Option.pure_def]
    rw [wr_eq A _ _ (by omega), Option.bind_some]
    obtain ⟨next', prev', e, l1, l2, f1, f2⟩ := linkLoop_spec 254 (N + 1) (A.set N (N + 1)) (P.set N (N + 256 - 1))
      (by simp only [List.length_set]; omega) (by simp only [List.length_set]; omega)
    rw [e]
    simp only [Option.bind_some]
    simp only [List.length_set] at l1 l2
    rw [wr_eq next' _ _ (by omega), Option.bind_some, wr_eq prev' _ _ (by omega), Option.bind_some]
    refine ⟨_, rfl, rfl, rfl, by simp only [List.length_set]; omega, ls, lu, by simp only [List.length_set]; omega, gs, gu,
      Or.inr ⟨hc, rfl, fun x => ?_, fun x => ?_⟩⟩
    · change (next'.set _ _)[x]?.getD 0 = _
      rw [getD_set _ _ _ _ _ (by omega), f1 x, getD_set _ _ _ _ _ (by omega), gn]
      exact ite3 _ _ _
    · change (prev'.set _ _)[x]?.getD 0 = _
      rw [getD_set _ _ _ _ _ (by omega), f2 x, getD_set _ _ _ _ _ (by omega), gp]
      exact ite4 _ _ _

/-- `expandRaw` on a builder with a ring of free elements. -/
theorem expandRaw_ring (s : Builder) (h : Ring s) (hb : s.next.length + 256 ≤ kEmpty) (hp : 0 < s.next.length) :
    ∃ s', s.expandRaw = some s' ∧ s'.check = s.check ∧ s'.base = s.base ∧ s'.next.length = s.next.length + 256 ∧ (∀ x, us s' x = us s x) ∧
      (∀ x, ut s' x = ut s x) ∧ (∀ x, x < s.next.length → ¬ InL s x → nx s' x = nx s x) ∧ (∀ x, InL s x → InL s' x) ∧ Ring s' := by
  have hkE : kEmpty = 4294967295 := rfl
  have hfN : s.front < s.next.length := by
    rcases h.front with hf | hf
    · exact hf.1
    · omega
  have hfr : (s.front ≠ 0 ∨ ut s 0 = false) → InL s s.front := by
    intro hc
    rcases h.front with hf | ⟨h1, h2⟩
    · exact hf
    · rcases hc with hc | hc
      · exact absurd h1 hc
      · rw [h2] at hc; cases hc
  obtain ⟨s', e, c1, c2, l1, l2, l3, l4, u1, u2, hcase⟩ := expandRaw_eq s _ rfl h.n1 h.n2 h.n3 (by omega)
    (fun hc => by have := (h.ring _ (hfr hc)).2.2.1.1; omega)
  generalize hN : s.next.length = N at *
  have hnew : ∀ x, N ≤ x → ut s' x = false := by
    intro x hx
    rw [u2]
    unfold ut
    rw [List.getElem?_eq_none (by rw [h.n2]; omega)]; rfl
  rcases hcase with ⟨hc, hf', hn, hpv⟩ | ⟨hc, hf', hn, hpv⟩
  · have hF := hfr hc
    have hR := h.ring _ hF
    -- the list after the operation
    have old : ∀ x, InL s x → InL s' x := by
      intro x hx
      have hxN : x < N := by have := hx.1; omega
      refine ⟨by omega, by rw [u2]; exact hx.2.1, ?_⟩
      rw [hn x, if_neg (by omega), if_neg (by omega)]
      split
      · omega
      · exact hx.2.2
    have new : ∀ x, N ≤ x → x < N + 256 → InL s' x := by
      intro x h1 h2
      refine ⟨by omega, hnew x h1, ?_⟩
      rw [hn x]
      split
      · omega
      · rw [if_pos (by omega)]; omega
    have inv : ∀ x, InL s' x → x < N → InL s x := by
      intro x hx hxN
      refine ⟨by omega, by rw [← u2]; exact hx.2.1, ?_⟩
      by_cases hxo : x = pv s s.front
      · rw [hxo]; exact hR.2.2.1.2.2
      · have := hx.2.2
        rw [hn x, if_neg (by omega), if_neg (by omega), if_neg hxo] at this
        exact this
    refine ⟨s', e, c1, c2, l1, u1, u2, fun x hx hxL => ?_, old, ⟨by omega, by omega, by omega, ?_, ?_⟩⟩
    · rw [hn x, if_neg (by omega), if_neg (by omega), if_neg ?_]
      intro hxo
      exact hxL (hxo ▸ hR.2.2.1)
    · intro x hx
      have hx256 : x < N + 256 := by have := hx.1; omega
      have hoN : pv s s.front < N := by have := hR.2.2.1.1; omega
      -- next
      have hnext : InL s' (nx s' x) ∧ pv s' (nx s' x) = x := by
        rw [hn x]
        by_cases h1 : x = N + 255
        · rw [if_pos h1]
          refine ⟨old _ hF, ?_⟩
          rw [hpv, if_neg (by omega), if_neg (by omega), if_pos rfl, h1]
        · rw [if_neg h1]
          by_cases h2 : N ≤ x
          · rw [if_pos (by omega)]
            refine ⟨new _ (by omega) (by omega), ?_⟩
            rw [hpv]
            by_cases h3 : x + 1 = N + 255
            · rw [if_pos h3]; omega
            · rw [if_neg h3, if_pos (by omega)]; omega
          · rw [if_neg (by omega)]
            by_cases h3 : x = pv s s.front
            · rw [if_pos h3]
              refine ⟨new _ (by omega) (by omega), ?_⟩
              rw [hpv, if_neg (by omega), if_neg (by omega), if_neg (by omega), if_pos rfl, h3]
            · rw [if_neg h3]
              have hxo := inv x hx (by omega)
              have hr := h.ring _ hxo
              refine ⟨old _ hr.1, ?_⟩
              have := hr.1.1
              rw [hpv, if_neg (by omega), if_neg (by omega), if_neg ?_, if_neg (by omega), hr.2.1]
              intro hnf
              rw [← hnf, hr.2.1] at h3
              exact h3 rfl
      have hprev : InL s' (pv s' x) ∧ nx s' (pv s' x) = x := by
        rw [hpv x]
        by_cases h1 : x = N + 255
        · rw [if_pos h1]
          refine ⟨new _ (by omega) (by omega), ?_⟩
          rw [hn, if_neg (by omega), if_pos (by omega), h1]
        · rw [if_neg h1]
          by_cases h2 : N < x
          · rw [if_pos (by omega)]
            refine ⟨new _ (by omega) (by omega), ?_⟩
            rw [hn, if_neg (by omega), if_pos (by omega)]; omega
          · rw [if_neg (by omega)]
            by_cases h3 : x = s.front
            · rw [if_pos h3]
              refine ⟨new _ (by omega) (by omega), ?_⟩
              rw [hn, if_pos rfl, h3]
            · rw [if_neg h3]
              by_cases h4 : x = N
              · rw [if_pos h4]
                refine ⟨old _ hR.2.2.1, ?_⟩
                rw [hn, if_neg (by omega), if_neg (by omega), if_pos rfl, h4]
              · rw [if_neg h4]
                have hxo := inv x hx (by omega)
                have hr := h.ring _ hxo
                refine ⟨old _ hr.2.2.1, ?_⟩
                have := hr.2.2.1.1
                rw [hn, if_neg (by omega), if_neg (by omega), if_neg ?_, hr.2.2.2]
                intro hpf
                have e1 := hr.2.2.2
                rw [hpf, hR.2.2.2] at e1
                exact h3 e1.symm
      exact ⟨hnext.1, hnext.2, hprev.1, hprev.2⟩
    · rw [hf']; exact Or.inl (old _ hF)
  · have old : ∀ x, x < N → nx s' x = nx s x ∧ pv s' x = pv s x := by
      intro x hx
      rw [hn, if_neg (by omega), if_neg (by omega), hpv, if_neg (by omega), if_neg (by omega), if_neg (by omega)]
      exact ⟨rfl, rfl⟩
    have new : ∀ x, N ≤ x → x < N + 256 → InL s' x := by
      intro x h1 h2
      refine ⟨by omega, hnew x h1, ?_⟩
      rw [hn x]
      split
      · omega
      · rw [if_pos (by omega)]; omega
    have oldL : ∀ x, x < N → (InL s x ↔ InL s' x) := by
      intro x hx
      unfold InL
      rw [u2, (old x hx).1, l1, hN]
      constructor
      · rintro ⟨a, b⟩; exact ⟨by omega, b⟩
      · rintro ⟨a, b⟩; exact ⟨hx, b⟩
    refine ⟨s', e, c1, c2, l1, u1, u2, fun x hx _ => (old x hx).1, fun x hx => (oldL x (by have := hx.1; omega)).1 hx,
      ⟨by omega, by omega, by omega, ?_, ?_⟩⟩
    · intro x hx
      have hx256 : x < N + 256 := by have := hx.1; omega
      by_cases hxN : x < N
      · have hr := h.ring _ ((oldL x hxN).2 hx)
        have b1 := hr.1.1
        have b2 := hr.2.2.1.1
        rw [(old x hxN).1, (old x hxN).2, (old _ (by omega : nx s x < N)).2, (old _ (by omega : pv s x < N)).1]
        exact ⟨(oldL _ (by omega)).1 hr.1, hr.2.1, (oldL _ (by omega)).1 hr.2.2.1, hr.2.2.2⟩
      · have hnext : InL s' (nx s' x) ∧ pv s' (nx s' x) = x := by
          rw [hn x]
          by_cases h1 : x = N + 255
          · rw [if_pos h1]
            refine ⟨new _ (by omega) (by omega), ?_⟩
            rw [hpv, if_neg (by omega), if_neg (by omega), if_pos rfl, h1]
          · rw [if_neg h1, if_pos (by omega)]
            refine ⟨new _ (by omega) (by omega), ?_⟩
            rw [hpv]
            by_cases h3 : x + 1 = N + 255
            · rw [if_pos h3]; omega
            · rw [if_neg h3, if_pos (by omega)]; omega
        have hprev : InL s' (pv s' x) ∧ nx s' (pv s' x) = x := by
          rw [hpv x]
          by_cases h1 : x = N + 255
          · rw [if_pos h1]
            refine ⟨new _ (by omega) (by omega), ?_⟩
            rw [hn, if_neg (by omega), if_pos (by omega), h1]
          · rw [if_neg h1]
            by_cases h2 : N < x
            · rw [if_pos (by omega)]
              refine ⟨new _ (by omega) (by omega), ?_⟩
              rw [hn, if_neg (by omega), if_pos (by omega)]; omega
            · rw [if_neg (by omega), if_pos (by omega)]
              refine ⟨new _ (by omega) (by omega), ?_⟩
              rw [hn, if_pos rfl]; omega
        exact ⟨hnext.1, hnext.2, hprev.1, hprev.2⟩
    · rw [hf']; exact Or.inl (new _ (by omega) (by omega))

/-- The first block. -/
theorem expandRaw_first (s : Builder) (h0 : s.next = []) (h1 : s.usedState = []) (h2 : s.usedTrans = []) (h3 : s.prev = []) (hf : s.front = 0) :
    ∃ s', s.expandRaw = some s' ∧ s'.check = s.check ∧ s'.base = s.base ∧ s'.next.length = 256 ∧ (∀ x, us s' x = false) ∧
      (∀ x, ut s' x = false) ∧ InL s' 0 ∧ s'.front = 0 ∧ Ring s' := by
  have hkE : kEmpty = 4294967295 := rfl
  have hp0 : ∀ x, pv s x = 0 := by intro x; unfold pv; rw [h3]; rfl
  have hu0 : ∀ x, ut s x = false := by intro x; unfold ut; rw [h2]; rfl
  have hs0 : ∀ x, us s x = false := by intro x; unfold us; rw [h1]; rfl
  obtain ⟨s', e, c1, c2, l1, l2, l3, l4, u1, u2, hcase⟩ := expandRaw_eq s 0 (by rw [h0]; rfl) (by rw [h1]; rfl) (by rw [h2]; rfl) (by rw [h3]; rfl)
    (by omega) (fun _ => by rw [hp0]; omega)
  rcases hcase with ⟨hc, hf', hn, hpv⟩ | ⟨hc, _⟩
  · have new : ∀ x, x < 256 → InL s' x := by
      intro x h2
      refine ⟨by omega, by rw [u2, hu0], ?_⟩
      rw [hn x]
      split
      · omega
      · rw [if_pos (by omega)]; omega
    refine ⟨s', e, c1, c2, by omega, fun x => by rw [u1, hs0], fun x => by rw [u2, hu0], new 0 (by omega), by omega,
      ⟨by omega, by omega, by omega, ?_, Or.inl (by rw [hf', hf]; exact new 0 (by omega))⟩⟩
    intro x hx
    have hx256 : x < 256 := by have := hx.1; omega
    have hnx : nx s' x = if x = 255 then 0 else x + 1 := by
      rw [hn x, hf]
      repeat' split
      all_goals omega
    have hpx : ∀ x, x < 256 → pv s' x = if x = 0 then 255 else x - 1 := by
      intro x hx
      rw [hpv x, hf, hp0]
      repeat' split
      all_goals omega
    have hnx : ∀ x, x < 256 → nx s' x = if x = 255 then 0 else x + 1 := by
      intro x hx
      rw [hn x, hf]
      repeat' split
      all_goals omega
    rw [hnx x hx256, hpx x hx256]
    by_cases ha : x = 255
    · rw [if_pos ha, if_neg (by omega)]
      refine ⟨new _ (by omega), by rw [hpx 0 (by omega)]; simp [ha], new _ (by omega), ?_⟩
      rw [hnx _ (by omega), if_neg (by omega)]; omega
    · rw [if_neg ha]
      refine ⟨new _ (by omega), by rw [hpx _ (by omega), if_neg (by omega)]; omega, ?_⟩
      by_cases hb : x = 0
      · rw [if_pos hb]
        exact ⟨new _ (by omega), by rw [hnx _ (by omega), if_pos rfl, hb]⟩
      · rw [if_neg hb]
        exact ⟨new _ (by omega), by rw [hnx _ (by omega), if_neg (by omega)]; omega⟩
  · exact absurd (Or.inr (hu0 0)) hc

theorem setNext_eq (s : Builder) (i x : Nat) (hi : i < s.next.length) (n2 : i < s.usedTrans.length) (n3 : s.prev.length = s.next.length)
    (hL : nx s i ≠ kEmpty) (hpN : pv s i < s.next.length) (hnN : nx s i < s.next.length) :
    ∃ s', s.setNext i x = some s' ∧ s'.check = s.check ∧ s'.base = s.base ∧ s'.usedState = s.usedState ∧ s'.next.length = s.next.length ∧
      s'.usedTrans.length = s.usedTrans.length ∧ s'.prev.length = s.prev.length ∧ (∀ y, ut s' y = if i = y then true else ut s y) ∧
      (∀ y, nx s' y = if i = y then x else if pv s i = y then nx s i else nx s y) ∧ (∀ y, pv s' y = if nx s i = y then pv s i else pv s y) ∧
      s'.front = if s.front = i then (if nx s i = s.front then 0 else nx s i) else s.front := by
  unfold Builder.setNext
  have e1 : s.next[i]? = some (nx s i) := some_getD s.next i 0 hi
  have e2 : s.prev[i]? = some (pv s i) := some_getD s.prev i 0 (by omega)
  have e3 : (s.next.set (pv s i) (nx s i))[i]? = some (nx s i) := by
    rw [some_getD _ i 0 (by rw [List.length_set]; exact hi), getD_set _ _ _ _ _ hpN]
    split
    · rfl
    · rfl
  simp only [e1, hL, e2, Option.bind_eq_bind, Option.bind_some, Option.pure_def, ne_eq, not_false_iff, if_true, wr_eq s.next _ _ hpN, e3,
    wr_eq s.prev _ _ (n3 ▸ hnN), wr_eq s.usedTrans _ _ n2, wr_eq _ _ _ (show i < (s.next.set (pv s i) (nx s i)).length by rw [List.length_set]; exact hi)]
  refine ⟨_, rfl, rfl, rfl, rfl, by simp only [List.length_set], by simp only [List.length_set], by simp only [List.length_set], fun y => ?_, fun y => ?_, fun y => ?_, rfl⟩
  · exact getD_set _ _ _ _ _ n2
  · unfold nx
    simp only []
    rw [getD_set _ _ _ _ _ (by rw [List.length_set]; exact hi), getD_set _ _ _ _ _ hpN]
  · exact getD_set _ _ _ _ _ (by omega)

/-- `setNext` on a free element. -/
theorem setNext_ring (s : Builder) (h : Ring s) (i x : Nat) (hi : i < s.next.length) (hu : ut s i = false) (h0 : ut s 0 = true ∨ i = 0) :
    ∃ s', s.setNext i x = some s' ∧ s'.check = s.check ∧ s'.base = s.base ∧ s'.usedState = s.usedState ∧ s'.next.length = s.next.length ∧
      (∀ y, ut s' y = if y = i then true else ut s y) ∧ nx s' i = x ∧ (∀ y, ut s y = true → nx s' y = nx s y) ∧ Ring s' := by
  have n2 := h.n2
  have n3 := h.n3
  by_cases hL : nx s i ≠ kEmpty
  · have hIL : InL s i := ⟨hi, hu, hL⟩
    have hr := h.ring _ hIL
    have hnN := hr.1.1
    have hpN := hr.2.2.1.1
    obtain ⟨s', e, c1, c2, c3, l1, l2, l3, fu, fn, fp, ff⟩ := setNext_eq s i x hi (h.n2 ▸ hi) h.n3 hL hpN hnN
    refine ⟨s', e, c1, c2, c3, l1, fun y => ?_, ?_, fun y hy => ?_, ⟨by rw [c3, l1]; exact h.n1, by omega, by omega, ?_, ?_⟩⟩
    · rw [fu]; simp only [eq_comm]
    · rw [fn, if_pos rfl]
    · rw [fn]
      have a1 : i ≠ y := by rintro rfl; rw [hu] at hy; cases hy
      have a2 : pv s i ≠ y := by
        rintro rfl
        have := hr.2.2.1.2.1
        rw [hy] at this; cases this
      rw [if_neg a1, if_neg a2]
    · have toL : ∀ y, y ≠ i → InL s y → InL s' y := by
        intro y hy hyL
        refine ⟨by rw [l1]; exact hyL.1, by rw [fu, if_neg (Ne.symm hy)]; exact hyL.2.1, ?_⟩
        rw [fn, if_neg (Ne.symm hy)]
        split
        · exact hL
        · exact hyL.2.2
      have ofL : ∀ y, InL s' y → y ≠ i ∧ InL s y := by
        intro y hy
        have hyi : y ≠ i := by
          rintro rfl
          have := hy.2.1
          rw [fu, if_pos rfl] at this; cases this
        refine ⟨hyi, by rw [← l1]; exact hy.1, ?_, ?_⟩
        · have := hy.2.1
          rw [fu, if_neg (Ne.symm hyi)] at this; exact this
        · by_cases hyp : pv s i = y
          · rw [← hyp]; exact hr.2.2.1.2.2
          · have := hy.2.2
            rw [fn, if_neg (Ne.symm hyi), if_neg hyp] at this; exact this
      intro y hy
      obtain ⟨hyi, hyL⟩ := ofL y hy
      have hyr := h.ring _ hyL
      rw [fn y, fp y, if_neg (Ne.symm hyi)]
      have A : InL s' (if pv s i = y then nx s i else nx s y) ∧ pv s' (if pv s i = y then nx s i else nx s y) = y := by
        by_cases hyp : pv s i = y
        · rw [if_pos hyp]
          have hni : nx s i ≠ i := by
            intro e
            have := hr.2.1
            rw [e, hyp] at this
            exact hyi this
          exact ⟨toL _ hni hr.1, by rw [fp, if_pos rfl, hyp]⟩
        · rw [if_neg hyp]
          have hni : nx s y ≠ i := by
            intro e
            have := hyr.2.1
            rw [e] at this
            exact hyp this
          refine ⟨toL _ hni hyr.1, ?_⟩
          rw [fp, if_neg ?_, hyr.2.1]
          intro e
          have := hyr.2.1
          rw [← e, hr.2.1] at this
          exact hyi this.symm
      have B : InL s' (if nx s i = y then pv s i else pv s y) ∧ nx s' (if nx s i = y then pv s i else pv s y) = y := by
        by_cases hyn : nx s i = y
        · rw [if_pos hyn]
          have hpi : pv s i ≠ i := by
            intro e
            have := hr.2.2.2
            rw [e, hyn] at this
            exact hyi this
          exact ⟨toL _ hpi hr.2.2.1, by rw [fn, if_neg (Ne.symm hpi), if_pos rfl, hyn]⟩
        · rw [if_neg hyn]
          have hpi : pv s y ≠ i := by
            intro e
            have := hyr.2.2.2
            rw [e] at this
            exact hyn this
          refine ⟨toL _ hpi hyr.2.2.1, ?_⟩
          rw [fn, if_neg (Ne.symm hpi), if_neg ?_, hyr.2.2.2]
          intro e
          have := hyr.2.2.2
          rw [← e, hr.2.2.2] at this
          exact hyi this.symm
      exact ⟨A.1, A.2, B.1, B.2⟩
    · have toL : ∀ y, y ≠ i → InL s y → InL s' y := by
        intro y hy hyL
        refine ⟨by rw [l1]; exact hyL.1, by rw [fu, if_neg (Ne.symm hy)]; exact hyL.2.1, ?_⟩
        rw [fn, if_neg (Ne.symm hy)]
        split
        · exact hL
        · exact hyL.2.2
      have hz : ut s' 0 = true := by
        rw [fu]
        split
        · rfl
        · rcases h0 with h0 | h0
          · exact h0
          · exact absurd h0 (by assumption)
      rw [ff]
      by_cases hfi : s.front = i
      · rw [if_pos hfi]
        by_cases hnf : nx s i = s.front
        · rw [if_pos hnf]; exact Or.inr ⟨rfl, hz⟩
        · rw [if_neg hnf]
          exact Or.inl (toL _ (fun e => hnf (e.trans hfi.symm)) hr.1)
      · rw [if_neg hfi]
        rcases h.front with hf | hf
        · exact Or.inl (toL _ hfi hf)
        · exact Or.inr ⟨hf.1, hz⟩
  · have hE : nx s i = kEmpty := by
      by_cases e : nx s i = kEmpty
      · exact e
      · exact absurd e hL
    unfold Builder.setNext
    have e1 : s.next[i]? = some (nx s i) := some_getD s.next i 0 hi
    simp only [e1, hE, ne_eq, not_true, if_false, Option.bind_eq_bind, Option.bind_some, Option.pure_def]
    rw [wr_eq s.usedTrans _ _ (by omega), Option.bind_some, wr_eq _ _ _ hi, Option.bind_some]
    have fn : ∀ y, nx { s with usedTrans := s.usedTrans.set i true, next := s.next.set i x } y = if i = y then x else nx s y := by
      intro y
      unfold nx
      simp only []
      rw [getD_set _ _ _ _ _ hi]
    have fu : ∀ y, ut { s with usedTrans := s.usedTrans.set i true, next := s.next.set i x } y = if i = y then true else ut s y := by
      intro y
      unfold ut
      simp only []
      rw [getD_set _ _ _ _ _ (by omega)]
    have hLL : ∀ y, InL { s with usedTrans := s.usedTrans.set i true, next := s.next.set i x } y ↔ InL s y := by
      intro y
      unfold InL
      rw [fn, fu]
      simp only [List.length_set]
      by_cases hiy : i = y
      · subst hiy
        simp [hE]
      · rw [if_neg hiy, if_neg hiy]
    refine ⟨_, rfl, rfl, rfl, rfl, by simp only [List.length_set], fun y => ?_, ?_, fun y hy => ?_, ?_⟩
    · rw [fu]; simp only [eq_comm]
    · rw [fn, if_pos rfl]
    · rw [fn, if_neg ?_]
      rintro rfl
      rw [hu] at hy; cases hy
    · refine ⟨by simp only []; simp only [List.length_set]; exact h.n1, by simp only [List.length_set]; exact h.n2, by simp only [List.length_set]; exact h.n3, ?_, ?_⟩
      · intro y hy
        have hyL := (hLL y).1 hy
        have hyr := h.ring _ hyL
        have hiy : i ≠ y := by
          rintro rfl
          exact hyL.2.2 hE
        have hip : i ≠ pv s y := by
          intro e
          exact hyr.2.2.1.2.2 (e ▸ hE)
        rw [fn, if_neg hiy]
        refine ⟨(hLL _).2 hyr.1, hyr.2.1, (hLL _).2 hyr.2.2.1, ?_⟩
        rw [fn]
        change (if i = pv s y then _ else nx s (pv s y)) = _
        rw [if_neg hip, hyr.2.2.2]
      · rcases h.front with hf | hf
        · exact Or.inl ((hLL _).2 hf)
        · refine Or.inr ⟨hf.1, ?_⟩
          rw [fu, hf.2]; split <;> rfl

/-- Giving an element back: `next_[i] = kEmptyValue; used_trans_[i] = false`. -/
theorem release_ring (s : Builder) (h : Ring s) (i : Nat) (hi : i < s.next.length) (hu : ut s i = true) (h0 : i ≠ 0) :
    Ring { s with next := s.next.set i kEmpty, usedTrans := s.usedTrans.set i false } ∧
    (∀ y, nx { s with next := s.next.set i kEmpty, usedTrans := s.usedTrans.set i false } y = if i = y then kEmpty else nx s y) ∧
    (∀ y, ut { s with next := s.next.set i kEmpty, usedTrans := s.usedTrans.set i false } y = if i = y then false else ut s y) := by
  have n2 := h.n2
  have fn : ∀ y, nx { s with next := s.next.set i kEmpty, usedTrans := s.usedTrans.set i false } y = if i = y then kEmpty else nx s y := by
    intro y
    unfold nx
    simp only []
    rw [getD_set _ _ _ _ _ hi]
  have fu : ∀ y, ut { s with next := s.next.set i kEmpty, usedTrans := s.usedTrans.set i false } y = if i = y then false else ut s y := by
    intro y
    unfold ut
    simp only []
    rw [getD_set _ _ _ _ _ (by omega)]
  have hLL : ∀ y, InL { s with next := s.next.set i kEmpty, usedTrans := s.usedTrans.set i false } y ↔ InL s y := by
    intro y
    unfold InL
    rw [fn, fu]
    simp only [List.length_set]
    by_cases hiy : i = y
    · subst hiy
      simp [hu]
    · rw [if_neg hiy, if_neg hiy]
  refine ⟨⟨by simp only [List.length_set]; exact h.n1, by simp only [List.length_set]; exact h.n2, by simp only [List.length_set]; exact h.n3, ?_, ?_⟩, fn, fu⟩
  · intro y hy
    have hyL := (hLL y).1 hy
    have hyr := h.ring _ hyL
    have hiy : i ≠ y := by
      rintro rfl
      have := hyL.2.1
      rw [hu] at this; cases this
    have hip : i ≠ pv s y := by
      intro e
      have := hyr.2.2.1.2.1
      rw [← e, hu] at this; cases this
    rw [fn, if_neg hiy]
    refine ⟨(hLL _).2 hyr.1, hyr.2.1, (hLL _).2 hyr.2.2.1, ?_⟩
    rw [fn]
    change (if i = pv s y then _ else nx s (pv s y)) = _
    rw [if_neg hip, hyr.2.2.2]
  · rcases h.front with hf | hf
    · exact Or.inl ((hLL _).2 hf)
    · refine Or.inr ⟨hf.1, ?_⟩
      rw [fu, if_neg h0, hf.2]

end Verif.FO
