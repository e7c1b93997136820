/-
The list of free elements of the factor oracle builder is one ring that holds all of them, and each write takes at most one element out of it.
-/
import Verif.FO.Ring
import Verif.Pigeon
import Mathlib.Logic.Function.Iterate
import Mathlib.Data.List.Nodup
import Mathlib.Tactic.ByContra

namespace Verif.FO

/-- `b` is reached from `a` along the ring. -/
inductive Reach (s : Builder) : Nat → Nat → Prop
  | refl (a : Nat) : Reach s a a
  | step {a b : Nat} : Reach s (nx s a) b → Reach s a b

theorem Reach.trans {s : Builder} {a b c : Nat} (h : Reach s a b) (h' : Reach s b c) : Reach s a c := by
  induction h with
  | refl => exact h'
  | step _ ih => exact .step (ih h')

theorem Reach.fix {s : Builder} {a b : Nat} (h : Reach s a b) : nx s a = a → b = a := by
  induction h with
  | refl => intro _; rfl
  | step _ ih =>
    intro e
    rw [e] at ih
    exact ih e

/-- All free elements are on the ring of the front. -/
def Conn (s : Builder) : Prop := ∀ y, InL s y → InL s s.front ∧ Reach s s.front y

def inl (s : Builder) (x : Nat) : Bool := !ut s x && nx s x != kEmpty

theorem inl_iff (s : Builder) (x : Nat) (h : x < s.next.length) : inl s x = true ↔ InL s x := by
  unfold inl InL
  cases ut s x <;> simp [h]

/-- The number of free elements. -/
def fr (s : Builder) : Nat := (List.range s.next.length).countP (inl s)

theorem countP_but_one {p q : Nat → Bool} (i : Nat) : ∀ (l : List Nat), l.Nodup → (∀ y ∈ l, y ≠ i → p y = true → q y = true) →
    l.countP p ≤ l.countP q + 1 := by
  intro l
  induction l with
  | nil => intro _ _; simp
  | cons a l ih =>
    intro hn h
    rw [List.nodup_cons] at hn
    rw [List.countP_cons, List.countP_cons]
    by_cases ha : a = i
    · have : l.countP p ≤ l.countP q := List.countP_mono_left (fun y hy => h y (by simp [hy]) (by rintro rfl; exact hn.1 (ha ▸ hy)))
      repeat' split
      all_goals omega
    · have h1 := ih hn.2 (fun y hy => h y (by simp [hy]))
      have h2 := h a (by simp) ha
      by_cases hp : p a = true
      · rw [if_pos hp, if_pos (h2 hp)]; omega
      · rw [if_neg hp]; omega

theorem fr_but_one {s s' : Builder} (i : Nat) (hl : s'.next.length = s.next.length) (h : ∀ y, y ≠ i → InL s y → InL s' y) : fr s ≤ fr s' + 1 := by
  unfold fr
  rw [hl]
  refine countP_but_one i _ List.nodup_range (fun y hy hyi hp => ?_)
  have hyl := List.mem_range.1 hy
  exact (inl_iff s' y (by omega)).2 (h y hyi ((inl_iff s y hyl).1 hp))

theorem fr_mono {s s' : Builder} (hl : s.next.length ≤ s'.next.length) (h : ∀ y, InL s y → InL s' y) : fr s ≤ fr s' := by
  unfold fr
  obtain ⟨d, hd⟩ := Nat.exists_eq_add_of_le hl
  rw [hd, List.range_add, List.countP_append]
  refine Nat.le_trans (List.countP_mono_left (fun y hy hp => ?_)) (Nat.le_add_right _ _)
  have hyl := List.mem_range.1 hy
  exact (inl_iff s' y (by omega)).2 (h y ((inl_iff s y hyl).1 hp))

theorem fr_pos {s : Builder} (h : 0 < fr s) : ∃ y, InL s y := by
  obtain ⟨y, hy, hp⟩ := List.countP_pos_iff.1 h
  exact ⟨y, (inl_iff s y (List.mem_range.1 hy)).1 hp⟩

theorem fr_all {s : Builder} (h : ∀ y, y < s.next.length → InL s y) : fr s = s.next.length := by
  unfold fr
  have := (List.countP_eq_length (p := inl s) (l := List.range s.next.length)).2
    (fun y hy => (inl_iff s y (List.mem_range.1 hy)).2 (h y (List.mem_range.1 hy)))
  rw [this, List.length_range]

theorem Reach.congr {s s' : Builder} (h : Ring s) (hn : ∀ y, InL s y → nx s' y = nx s y) {a b : Nat} (ha : InL s a) (hr : Reach s a b) : Reach s' a b := by
  induction hr with
  | refl => exact .refl _
  | step _ ih => exact .step (by rw [hn _ ha]; exact ih (h.ring _ ha).1)

theorem Conn.congr {s s' : Builder} (h : Ring s) (hc : Conn s) (hL : ∀ y, InL s' y ↔ InL s y) (hn : ∀ y, InL s y → nx s' y = nx s y)
    (hf : s'.front = s.front) : Conn s' := by
  intro y hy
  obtain ⟨h1, h2⟩ := hc y ((hL y).1 hy)
  rw [hf]
  exact ⟨(hL _).2 h1, h2.congr h hn h1⟩

/-- What the operations cost: `s'` has at most `k` fewer free elements and at most `e` more blocks. -/
structure Cost (k e : Nat) (s s' : Builder) : Prop where
  conn : Conn s → Conn s'
  cost : fr s ≤ fr s' + k
  size : s'.next.length ≤ s.next.length + 256 * e

theorem Cost.refl (s : Builder) : Cost 0 0 s s := ⟨id, by omega, by omega⟩

theorem Cost.trans {k e k' e' : Nat} {a b c : Builder} (h : Cost k e a b) (h' : Cost k' e' b c) : Cost (k + k') (e + e') a c :=
  ⟨fun x => h'.conn (h.conn x), by have := h.cost; have := h'.cost; omega, by have := h.size; have := h'.size; omega⟩

theorem Cost.mono {k e k' e' : Nat} {a b : Builder} (h : Cost k e a b) (hk : k ≤ k') (he : e ≤ e') : Cost k' e' a b :=
  ⟨h.conn, by have := h.cost; omega, by have := h.size; omega⟩

/-- A change that does not touch the ring. -/
theorem Cost.same {s s' : Builder} (h : Ring s) (hL : ∀ y, InL s' y ↔ InL s y) (hn : ∀ y, InL s y → nx s' y = nx s y)
    (hf : s'.front = s.front) (hl : s'.next.length = s.next.length) : Cost 0 0 s s' :=
  ⟨fun hc => hc.congr h hL hn hf, fr_mono (by omega) (fun y hy => (hL y).2 hy), by omega⟩

theorem setNext_cost (s : Builder) (h : Ring s) (i x : Nat) (hi : i < s.next.length) (hu : ut s i = false) (s' : Builder)
    (hs : s.setNext i x = some s') : Cost 1 0 s s' := by
  have n2 := h.n2
  have n3 := h.n3
  by_cases hL : nx s i ≠ kEmpty
  · have hIL : InL s i := ⟨hi, hu, hL⟩
    have hr := h.ring _ hIL
    have hnN := hr.1.1
    have hpN := hr.2.2.1.1
    obtain ⟨s2, e, c1, c2, c3, l1, l2, l3, fu, fn, fp, ff⟩ := setNext_eq s i x hi (h.n2 ▸ hi) h.n3 hL hpN hnN
    rw [hs] at e
    cases e
    have toL : ∀ y, y ≠ i → InL s y → InL s' y := by
      intro y hy hyL
      refine ⟨by rw [l1]; exact hyL.1, by rw [fu, if_neg (Ne.symm hy)]; exact hyL.2.1, ?_⟩
      rw [fn, if_neg (Ne.symm hy)]
      split
      · exact hL
      · exact hyL.2.2
    have ofL : ∀ y, InL s' y → y ≠ i ∧ InL s y := by
      intro y hy
      have hyi : y ≠ i := by
        rintro rfl
        have := hy.2.1
        rw [fu, if_pos rfl] at this; cases this
      refine ⟨hyi, by rw [← l1]; exact hy.1, ?_, ?_⟩
      · have := hy.2.1
        rw [fu, if_neg (Ne.symm hyi)] at this; exact this
      · by_cases hyp : pv s i = y
        · rw [← hyp]; exact hr.2.2.1.2.2
        · have := hy.2.2
          rw [fn, if_neg (Ne.symm hyi), if_neg hyp] at this; exact this
    have key : ∀ y, y ≠ i → ∀ a, InL s a → Reach s a y → (a ≠ i → Reach s' a y) ∧ (a = i → Reach s' (nx s i) y) := by
      intro y hy a ha hra
      induction hra with
      | refl a => exact ⟨fun _ => .refl _, fun e => absurd e hy⟩
      | @step a b _ ih =>
        have har := h.ring _ ha
        have ih := ih hy har.1
        constructor
        · intro hai
          refine .step ?_
          rw [fn, if_neg (Ne.symm hai)]
          by_cases hni : nx s a = i
          · have : pv s i = a := by rw [← hni]; exact har.2.1
            rw [if_pos this]; exact ih.2 hni
          · rw [if_neg ?_]
            · exact ih.1 hni
            · rintro rfl
              exact hni hr.2.2.2
        · intro hai
          subst hai
          by_cases hni : nx s a = a
          · exact ih.2 hni
          · exact ih.1 hni
    refine ⟨fun hc y hy => ?_, fr_but_one i l1 toL, by omega⟩
    obtain ⟨hyi, hyL⟩ := ofL y hy
    obtain ⟨hf, hry⟩ := hc y hyL
    have hk := key y hyi _ hf hry
    rw [ff]
    by_cases hfi : s.front = i
    · rw [if_pos hfi]
      have hk2 := hk.2 hfi
      by_cases hnf : nx s i = s.front
      · -- a ring of one element
        exfalso
        exact hyi ((hry.fix (by rw [hfi, hnf, hfi])).trans hfi)
      · rw [if_neg hnf]
        exact ⟨toL _ (fun e => hnf (e.trans hfi.symm)) hr.1, hk2⟩
    · rw [if_neg hfi]
      exact ⟨toL _ hfi hf, hk.1 hfi⟩
  · have hE : nx s i = kEmpty := by
      by_cases e : nx s i = kEmpty
      · exact e
      · exact absurd e hL
    unfold Builder.setNext at hs
    have e1 : s.next[i]? = some (nx s i) := some_getD s.next i 0 hi
    simp only [e1, hE, ne_eq, not_true, if_false, Option.bind_eq_bind, Option.bind_some, Option.pure_def] at hs
    rw [wr_eq s.usedTrans _ _ (by omega), Option.bind_some, wr_eq _ _ _ hi, Option.bind_some] at hs
    have hs := (Option.some.inj hs).symm
    have fn : ∀ y, nx s' y = if i = y then x else nx s y := by
      intro y
      rw [hs]
      unfold nx
      simp only []
      rw [getD_set _ _ _ _ _ hi]
    have fu : ∀ y, ut s' y = if i = y then true else ut s y := by
      intro y
      rw [hs]
      unfold ut
      simp only []
      rw [getD_set _ _ _ _ _ (by omega)]
    have ln : s'.next.length = s.next.length := by rw [hs]; simp only [List.length_set]
    refine (Cost.same h (fun y => ?_) (fun y hy => ?_) (by rw [hs]) ln).mono (by omega) (by omega)
    · unfold InL
      rw [fn, fu, ln]
      by_cases hiy : i = y
      · subst hiy
        simp [hE]
      · rw [if_neg hiy, if_neg hiy]
    · rw [fn, if_neg]
      rintro rfl
      exact hy.2.2 hE

theorem release_cost (s : Builder) (h : Ring s) (i : Nat) (hi : i < s.next.length) (hu : ut s i = true) :
    Cost 0 0 s { s with next := s.next.set i kEmpty, usedTrans := s.usedTrans.set i false } := by
  have n2 := h.n2
  have fn : ∀ y, nx { s with next := s.next.set i kEmpty, usedTrans := s.usedTrans.set i false } y = if i = y then kEmpty else nx s y := by
    intro y
    unfold nx
    simp only []
    rw [getD_set _ _ _ _ _ hi]
  have fu : ∀ y, ut { s with next := s.next.set i kEmpty, usedTrans := s.usedTrans.set i false } y = if i = y then false else ut s y := by
    intro y
    unfold ut
    simp only []
    rw [getD_set _ _ _ _ _ (by omega)]
  refine Cost.same h (fun y => ?_) (fun y hy => ?_) rfl (by simp only [List.length_set])
  · unfold InL
    rw [fn, fu]
    simp only [List.length_set]
    by_cases hiy : i = y
    · subst hiy
      simp [hu]
    · rw [if_neg hiy, if_neg hiy]
  · rw [fn, if_neg]
    rintro rfl
    have := hy.2.1
    rw [hu] at this; cases this

theorem expandRaw_cost (s : Builder) (h : Ring s) (hb : s.next.length + 256 ≤ kEmpty) (hp : 0 < s.next.length) (hc : Conn s) (s' : Builder)
    (hs : s.expandRaw = some s') : Cost 0 1 s s' ∧ s'.next.length = s.next.length + 256 ∧ (∀ x, s.next.length ≤ x → ut s' x = false ∧ us s' x = false) ∧
      (InL s s.front → nx s' (pv s s.front) = s.next.length) ∧ ((∀ y, y < s.next.length → InL s y) → ∀ y, y < s'.next.length → InL s' y) := by
  have hkE : kEmpty = 4294967295 := rfl
  obtain ⟨s2, e2, _, _, l2, _, _, _, hold, _⟩ := expandRaw_ring s h hb hp
  rw [hs] at e2
  cases e2
  have hfN : s.front < s.next.length := by
    rcases h.front with hf | hf
    · exact hf.1
    · omega
  have hfr : (s.front ≠ 0 ∨ ut s 0 = false) → InL s s.front := by
    intro hc
    rcases h.front with hf | ⟨h1, h2⟩
    · exact hf
    · rcases hc with hc | hc
      · exact absurd h1 hc
      · rw [h2] at hc; cases hc
  obtain ⟨s2, e, c1, c2, l1, _, l3, l4, u1, u2, hcase⟩ := expandRaw_eq s _ rfl h.n1 h.n2 h.n3 (by omega)
    (fun hc => by have := (h.ring _ (hfr hc)).2.2.1.1; omega)
  rw [hs] at e
  cases e
  generalize hN : s.next.length = N at *
  have hnewt : ∀ x, N ≤ x → ut s' x = false := by
    intro x hx
    rw [u2]
    unfold ut
    rw [List.getElem?_eq_none (by rw [h.n2]; omega)]; rfl
  have hnews : ∀ x, N ≤ x → us s' x = false := by
    intro x hx
    rw [u1]
    unfold us
    rw [List.getElem?_eq_none (by rw [h.n1]; omega)]; rfl
  have hcost : fr s ≤ fr s' + 0 := fr_mono (by omega) hold
  -- along the new block
  have along : (∀ x, N ≤ x → x < N + 255 → nx s' x = x + 1) → ∀ d k, k + d = 255 → Reach s' (N + k) (N + 255) := by
    intro hn d
    induction d with
    | zero =>
      intro k hk
      have : k = 255 := by omega
      subst this
      exact .refl _
    | succ d ih =>
      intro k hk
      refine .step ?_
      rw [hn _ (by omega) (by omega)]
      exact ih (k + 1) (by omega)
  have upto : (∀ x, N ≤ x → x < N + 255 → nx s' x = x + 1) → ∀ k, k ≤ 255 → Reach s' N (N + k) := by
    intro hn k
    induction k with
    | zero => intro _; exact .refl _
    | succ k ih =>
      intro hk
      refine (ih (by omega)).trans (.step ?_)
      rw [hn _ (by omega) (by omega)]
      exact .refl _
  rcases hcase with ⟨hcc, hf', hn, hpv⟩ | ⟨hcc, hf', hn, hpv⟩
  · have hF := hfr hcc
    have hR := h.ring _ hF
    have hoN : pv s s.front < N := by have := hR.2.2.1.1; omega
    have hnew : ∀ x, N ≤ x → x < N + 255 → nx s' x = x + 1 := by
      intro x h1 h2
      rw [hn, if_neg (by omega), if_pos ⟨h1, h2⟩]
    have hlast : nx s' (N + 255) = s.front := by rw [hn, if_pos rfl]
    have hpf : nx s' (pv s s.front) = N := by rw [hn, if_neg (by omega), if_neg (by omega), if_pos rfl]
    have around : Reach s' (pv s s.front) s.front := by
      refine .step ?_
      rw [hpf]
      refine (along hnew 255 0 (by omega)).trans (.step ?_)
      rw [hlast]
      exact .refl _
    have lift : ∀ a y, InL s a → Reach s a y → Reach s' a y := by
      intro a y ha hr
      induction hr with
      | refl => exact .refl _
      | @step a b _ ih =>
        have har := h.ring _ ha
        have ih := ih har.1
        by_cases hap : a = pv s s.front
        · rw [hap, hR.2.2.2] at ih
          rw [hap]
          exact around.trans ih
        · refine .step ?_
          have := ha.1
          rw [hn, if_neg (by omega), if_neg (by omega), if_neg hap]
          exact ih
    have hnewL : ∀ y, N ≤ y → y < N + 256 → InL s' y := by
      intro y h1 h2
      refine ⟨by omega, hnewt y h1, ?_⟩
      rw [hn]
      split
      · omega
      · rw [if_pos (by omega)]; omega
    refine ⟨⟨fun _ y hy => ?_, hcost, by omega⟩, l1, fun x hx => ⟨hnewt x hx, hnews x hx⟩, fun _ => hpf, fun hall y hy => ?_⟩
    · rw [hf']
      refine ⟨hold _ hF, ?_⟩
      by_cases hyN : y < N
      · have hys : InL s y := by
          refine ⟨by omega, by rw [← u2]; exact hy.2.1, ?_⟩
          by_cases hyo : y = pv s s.front
          · rw [hyo]; exact hR.2.2.1.2.2
          · have := hy.2.2
            rw [hn, if_neg (by omega), if_neg (by omega), if_neg hyo] at this
            exact this
        exact lift _ _ hF (hc y hys).2
      · have hy2 := hy.1
        have h1 := lift _ _ hF (hc _ hR.2.2.1).2
        refine h1.trans (.step ?_)
        rw [hpf]
        have := upto hnew (y - N) (by omega)
        rw [show N + (y - N) = y by omega] at this
        exact this
    · by_cases hyN : y < N
      · exact hold _ (hall y hyN)
      · exact hnewL y (by omega) (by omega)
  · have hnF : ¬ InL s s.front := by
      intro hF
      apply hcc
      by_cases hz : s.front = 0
      · right
        have := hF.2.1
        rw [hz] at this; exact this
      · exact Or.inl hz
    have hnone : ∀ y, ¬ InL s y := fun y hy => hnF (hc y hy).1
    have hnew : ∀ x, N ≤ x → x < N + 255 → nx s' x = x + 1 := by
      intro x h1 h2
      rw [hn, if_neg (by omega), if_pos ⟨h1, h2⟩]
    refine ⟨⟨fun _ y hy => ?_, hcost, by omega⟩, l1, fun x hx => ⟨hnewt x hx, hnews x hx⟩, fun hF => absurd hF hnF,
      fun hall => absurd (hall 0 hp) (hnone 0)⟩
    rw [hf']
    have hy2 := hy.1
    by_cases hyN : y < N
    · exfalso
      apply hnone y
      refine ⟨by omega, by rw [← u2]; exact hy.2.1, ?_⟩
      have := hy.2.2
      rw [hn, if_neg (by omega), if_neg (by omega)] at this
      exact this
    · have := upto hnew (y - N) (by omega)
      rw [show N + (y - N) = y by omega] at this
      refine ⟨⟨by omega, hnewt N (by omega), ?_⟩, this⟩
      rw [hnew N (by omega) (by omega)]
      omega

/-- The first block is one ring. -/
theorem expandRaw_first_conn (s : Builder) (h0 : s.next = []) (h1 : s.usedState = []) (h2 : s.usedTrans = []) (h3 : s.prev = []) (hf : s.front = 0)
    (s' : Builder) (hs : s.expandRaw = some s') : Conn s' ∧ ∀ y, y < 256 → InL s' y := by
  have hkE : kEmpty = 4294967295 := rfl
  have hp0 : ∀ x, pv s x = 0 := by intro x; unfold pv; rw [h3]; rfl
  have hu0 : ∀ x, ut s x = false := by intro x; unfold ut; rw [h2]; rfl
  obtain ⟨s2, e, c1, c2, l1, l2, l3, l4, u1, u2, hcase⟩ := expandRaw_eq s 0 (by rw [h0]; rfl) (by rw [h1]; rfl) (by rw [h2]; rfl) (by rw [h3]; rfl)
    (by omega) (fun _ => by rw [hp0]; omega)
  rw [hs] at e
  cases e
  rcases hcase with ⟨hc, hf', hn, hpv⟩ | ⟨hc, _⟩
  · have new : ∀ x, x < 256 → InL s' x := by
      intro x h2
      refine ⟨by omega, by rw [u2, hu0], ?_⟩
      rw [hn x]
      split
      · omega
      · rw [if_pos (by omega)]; omega
    have upto : ∀ k, k ≤ 255 → Reach s' 0 k := by
      intro k
      induction k with
      | zero => intro _; exact .refl _
      | succ k ih =>
        intro hk
        refine (ih (by omega)).trans (.step ?_)
        rw [hn, if_neg (by omega), if_pos (by omega)]
        exact .refl _
    refine ⟨fun y hy => ?_, new⟩
    rw [hf', hf]
    have := hy.1
    exact ⟨new 0 (by omega), upto y (by omega)⟩
  · exact absurd (Or.inr (hu0 0)) hc

/-- Going round the ring from a free element leads back to it, in at most as many steps as there are elements. -/
theorem Ring.cycle {s : Builder} (h : Ring s) {f : Nat} (hf : InL s f) : ∃ m, m < s.next.length ∧ (nx s)^[m + 1] f = f := by
  have hin : ∀ k, InL s ((nx s)^[k] f) := by
    intro k
    induction k with
    | zero => exact hf
    | succ k ih =>
      rw [Function.iterate_succ_apply']
      exact (h.ring _ ih).1
  have back : ∀ i d, (nx s)^[i] f = (nx s)^[i + d] f → f = (nx s)^[d] f := by
    intro i
    induction i with
    | zero => intro d e; simpa using e
    | succ i ih =>
      intro d e
      rw [show i + 1 + d = (i + d) + 1 by omega, Function.iterate_succ_apply', Function.iterate_succ_apply'] at e
      have := congrArg (pv s) e
      rw [(h.ring _ (hin i)).2.1, (h.ring _ (hin (i + d))).2.1] at this
      exact ih d this
  by_contra hno
  have hnd : ((List.range (s.next.length + 1)).map (fun k => (nx s)^[k] f)).Nodup := by
    rw [List.nodup_map_iff_inj_on List.nodup_range]
    intro a ha b hb e
    have ha := List.mem_range.1 ha
    have hb := List.mem_range.1 hb
    have key : ∀ a b, a < b → b < s.next.length + 1 → (nx s)^[a] f ≠ (nx s)^[b] f := by
      intro a b hab hb e
      have := back a (b - a) (by rw [show a + (b - a) = b by omega]; exact e)
      exact hno ⟨b - a - 1, by omega, by rw [show b - a - 1 + 1 = b - a by omega]; exact this.symm⟩
    rcases Nat.lt_trichotomy a b with hl | hl | hl
    · exact absurd e (key a b hl hb)
    · exact hl
    · exact absurd e.symm (key b a hl ha)
  have := nodup_bound s.next.length _ hnd (by
    intro x hx
    obtain ⟨k, _, rfl⟩ := List.mem_map.1 hx
    exact (hin k).1)
  rw [List.length_map, List.length_range] at this
  omega

end Verif.FO
