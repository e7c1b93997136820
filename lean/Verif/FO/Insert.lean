/-
The transitions stored by the factor oracle builder: `insertTrans` adds one external transition and keeps all others.
-/
import Verif.FO.Free

namespace Verif.FO
open Verif.PM (Byte)

/-- The label of state `t`. -/
def ck (check : List Byte) (t : Nat) : Nat := (checkAt check t).getD 0

theorem checkAt_eq (check : List Byte) (t : Nat) (h : t ≤ check.length) : checkAt check t = some (ck check t) := by
  unfold ck checkAt
  by_cases h0 : t = 0
  · rw [if_pos h0]; rfl
  · rw [if_neg h0, List.getElem?_eq_getElem (by omega)]; rfl

theorem ck_lt (check : List Byte) (t : Nat) : ck check t < 256 := by
  unfold ck checkAt
  by_cases h0 : t = 0
  · rw [if_pos h0]; decide
  · rw [if_neg h0]
    cases check[t - 1]? with
    | none => decide
    | some c => exact c.isLt

theorem xor_lt {N i c : Nat} (hN : 256 ∣ N) (hi : i < N) (hc : c < 256) : i ^^^ c < N := by
  obtain ⟨q, rfl⟩ := hN
  have h1 : (i ^^^ c) >>> 8 = i >>> 8 := by
    rw [Nat.shiftRight_xor_distrib]
    have : c >>> 8 = 0 := by rw [Nat.shiftRight_eq_div_pow]; omega
    rw [this, Nat.xor_zero]
  rw [Nat.shiftRight_eq_div_pow, Nat.shiftRight_eq_div_pow] at h1
  omega

theorem xor_cancel {a b c : Nat} (h : a ^^^ c = b ^^^ c) : a = b := by
  have := congrArg (· ^^^ c) h
  simpa [Nat.xor_assoc] using this

theorem xor_cancel' {a b c : Nat} (h : c ^^^ a = c ^^^ b) : a = b := xor_cancel (c := c) (by rw [Nat.xor_comm a c, Nat.xor_comm b c]; exact h)

@[simp] theorem ok_bind {α β : Type} (a : α) (f : α → Res β) : ((Res.ok a : Res α) >>= f) = f a := rfl
@[simp] theorem ub_bind {α β : Type} (f : α → Res β) : ((Res.ub : Res α) >>= f) = .ub := rfl
@[simp] theorem stop_bind {α β : Type} (f : α → Res β) : ((Res.stop : Res α) >>= f) = .stop := rfl
@[simp] theorem lift_some {α : Type} (a : α) : lift (some a) = .ok a := rfl
@[simp] theorem lift_none {α : Type} : lift (none : Option α) = .ub := rfl

/-- The used states play no part in `setNext`. -/
theorem setNext_us (s : Builder) (u : List Bool) (i x : Nat) :
    Builder.setNext { s with usedState := u } i x = (s.setNext i x).map (fun s' => { s' with usedState := u }) := by
  unfold Builder.setNext
  simp only [Option.bind_eq_bind, Option.pure_def]
  cases s.next[i]? with
  | none => rfl
  | some n =>
    simp only [Option.bind_some]
    by_cases hn : n ≠ kEmpty
    · rw [if_pos hn, if_pos hn]
      cases s.prev[i]? with
      | none => rfl
      | some p =>
        simp only [Option.bind_some]
        cases wr s.next p n with
        | none => rfl
        | some next =>
          simp only [Option.bind_some]
          cases next[i]? with
          | none => rfl
          | some n2 =>
            simp only [Option.bind_some]
            cases wr s.prev n2 p with
            | none => rfl
            | some prev =>
              simp only [Option.bind_some]
              cases wr s.usedTrans i true with
              | none => rfl
              | some ut =>
                simp only [Option.bind_some]
                cases wr next i x with
                | none => rfl
                | some nn => rfl
    · rw [if_neg hn, if_neg hn]
      cases wr s.usedTrans i true with
      | none => rfl
      | some ut =>
        simp only [Option.bind_some]
        cases wr s.next i x with
        | none => rfl
        | some nn => rfl

structure Inv (s : Builder) (O : Nat → Nat → Prop) : Prop where
  ring : Ring s
  dvd : 256 ∣ s.next.length
  pos : 0 < s.next.length
  le : s.next.length ≤ kEmpty
  blen : s.base.length = s.check.length + 1
  own : ∀ (st b : Nat), s.base[st]? = some b → b ≠ kEmpty → b < s.next.length ∧ us s b = true
  inj : ∀ (s1 s2 b : Nat), s.base[s1]? = some b → s.base[s2]? = some b → b ≠ kEmpty → s1 = s2
  used : ∀ x, ut s x = true → x = 0 ∨ O x (nx s x) ∨ (∃ st b : Nat, s.base[st]? = some b ∧ b ≠ kEmpty ∧ st < nx s x ∧ nx s x ≤ s.check.length ∧
    b ^^^ ck s.check (nx s x) = x)
  zero : ut s 0 = true ∧ nx s 0 = 0

/-- No orphans. -/
def No : Nat → Nat → Prop := fun _ _ => False

theorem Inv.ut_lt {s : Builder} {O : Nat → Nat → Prop} (h : Inv s O) {x : Nat} (hx : ut s x = true) : x < s.next.length :=
  h.ring.n2 ▸ lt_of_getD_true _ _ hx

/-- State `st` has the external transition to `t` labelled `c`. -/
def Ext (s : Builder) (st c t : Nat) : Prop :=
  ∃ b : Nat, s.base[st]? = some b ∧ b ≠ kEmpty ∧ ut s (b ^^^ c) = true ∧ nx s (b ^^^ c) = t ∧ 0 < t ∧ ck s.check t = c

theorem Inv.ext_lt {s : Builder} (h : Inv s No) {st c t : Nat} (he : Ext s st c t) : st < t ∧ t ≤ s.check.length := by
  obtain ⟨b, hb, hbe, hu, hn, ht, hc⟩ := he
  rcases h.used _ hu with hx | hx | ⟨st', b', hb', hbe', h1, h2, h3⟩
  · rw [hx, h.zero.2] at hn; omega
  · exact hx.elim
  · rw [hn] at h1 h2 h3
    rw [hc] at h3
    have := xor_cancel h3
    subst this
    have := h.inj _ _ _ hb' hb hbe
    subst this
    exact ⟨h1, h2⟩

/-- A used slot with a given label relative to `b` belongs to a state whose base is `b`. -/
theorem Inv.owner {s : Builder} {O : Nat → Nat → Prop} (h : Inv s O) {b d t : Nat} (hu : ut s (b ^^^ d) = true) (hn : nx s (b ^^^ d) = t) (ht : 0 < t)
    (hc : ck s.check t = d) : O (b ^^^ d) t ∨ (∃ st : Nat, s.base[st]? = some b ∧ b ≠ kEmpty ∧ st < t ∧ t ≤ s.check.length) := by
  rcases h.used _ hu with hx | hx | ⟨st', b', hb', hbe', h1, h2, h3⟩
  · rw [hx, h.zero.2] at hn; omega
  · rw [hn] at hx; exact Or.inl hx
  · rw [hn] at h1 h2 h3
    rw [hc] at h3
    have := xor_cancel h3
    subst this
    exact Or.inr ⟨st', hb', hbe', h1, h2⟩

/-- `s'` differs from `s` by new blocks only. -/
structure Grown (s s' : Builder) : Prop where
  check : s'.check = s.check
  base : s'.base = s.base
  gus : ∀ x, us s' x = us s x
  gut : ∀ x, ut s' x = ut s x
  gnx : ∀ x, ut s x = true → nx s' x = nx s x
  len : s.next.length ≤ s'.next.length

theorem Grown.refl (s : Builder) : Grown s s := ⟨rfl, rfl, fun _ => rfl, fun _ => rfl, fun _ _ => rfl, Nat.le_refl _⟩

theorem Grown.trans {a b c : Builder} (h1 : Grown a b) (h2 : Grown b c) : Grown a c :=
  ⟨h2.check.trans h1.check, h2.base.trans h1.base, fun x => (h2.gus x).trans (h1.gus x), fun x => (h2.gut x).trans (h1.gut x),
    fun x hx => (h2.gnx x (by rw [h1.gut]; exact hx)).trans (h1.gnx x hx), Nat.le_trans h1.len h2.len⟩

theorem Grown.ext {s s' : Builder} (h : Grown s s') (st c t : Nat) : Ext s' st c t ↔ Ext s st c t := by
  unfold Ext
  rw [h.check, h.base]
  constructor
  · rintro ⟨b, h1, h2, h3, h4, h5⟩
    rw [h.gut] at h3
    rw [h.gnx _ h3] at h4
    exact ⟨b, h1, h2, h3, h4, h5⟩
  · rintro ⟨b, h1, h2, h3, h4, h5⟩
    exact ⟨b, h1, h2, by rw [h.gut]; exact h3, by rw [h.gnx _ h3]; exact h4, h5⟩

theorem Grown.inv {s s' : Builder} {O : Nat → Nat → Prop} (g : Grown s s') (h : Inv s O) (hr : Ring s') (hd : 256 ∣ s'.next.length)
    (hl : s'.next.length ≤ kEmpty) : Inv s' O := by
  have hp := h.pos
  have hg := g.len
  refine ⟨hr, hd, by omega, hl, by rw [g.base, g.check]; exact h.blen, fun st b h1 h2 => ?_, fun s1 s2 b => by rw [g.base]; exact h.inj s1 s2 b,
    fun x hx => ?_, by rw [g.gut]; exact h.zero.1, by rw [g.gnx _ h.zero.1]; exact h.zero.2⟩
  · rw [g.base] at h1
    have := h.own st b h1 h2
    exact ⟨by omega, by rw [g.gus]; exact this.2⟩
  · rw [g.gut] at hx
    rw [g.gnx _ hx, g.base, g.check]
    exact h.used x hx

theorem expand_spec (s : Builder) {O : Nat → Nat → Prop} (h : Inv s O) : s.expand = .stop ∨
    ∃ s', s.expand = .ok s' ∧ Grown s s' ∧ Inv s' O ∧ (∀ x, InL s x → InL s' x) := by
  unfold Builder.expand
  by_cases hk : s.next.length + 256 > kEmpty
  · rw [if_pos hk]; exact Or.inl rfl
  · rw [if_neg hk]
    obtain ⟨s', e, c1, c2, l, u1, u2, hn, hL, hr⟩ := expandRaw_ring s h.ring (by omega) h.pos
    have g : Grown s s' := ⟨c1, c2, u1, u2, fun x hx => hn x (h.ut_lt hx) (fun hl => by rw [hl.2.1] at hx; cases hx), by omega⟩
    have hd := h.dvd
    exact Or.inr ⟨s', by rw [e]; rfl, g, g.inv h hr (by omega) (by omega), hL⟩

theorem allFree_spec (s : Builder) {O : Nat → Nat → Prop} (h : Inv s O) (b : Nat) (hb : b < s.next.length) : ∀ (ts : List Nat),
    (∀ t ∈ ts, t ≤ s.check.length) →
    ∃ r, allFree s b ts = some r ∧ (r = true → ∀ t ∈ ts, ut s (b ^^^ ck s.check t) = false) := by
  intro ts
  induction ts with
  | nil => intro _; exact ⟨true, rfl, by simp⟩
  | cons t ts ih =>
    intro ht
    unfold allFree
    rw [checkAt_eq _ _ (ht t (by simp))]
    simp only [Option.bind_eq_bind, Option.bind_some]
    have e : s.usedTrans[b ^^^ ck s.check t]? = some (ut s (b ^^^ ck s.check t)) :=
      some_getD _ _ _ (h.ring.n2 ▸ xor_lt h.dvd hb (ck_lt _ _))
    rw [e, Option.bind_some]
    cases hu : ut s (b ^^^ ck s.check t) with
    | true => exact ⟨false, rfl, by simp⟩
    | false =>
      obtain ⟨r, e2, hr⟩ := ih (fun t' h' => ht t' (by simp [h']))
      refine ⟨r, by simpa using e2, fun h1 t' h' => ?_⟩
      rcases List.mem_cons.1 h' with rfl | h'
      · exact hu
      · exact hr h1 t' h'

theorem tryBase_spec (s : Builder) {O : Nat → Nat → Prop} (h : Inv s O) (ts : List Nat) (hne : ts ≠ []) (hts : ∀ t ∈ ts, t ≤ s.check.length)
    (i : Nat) (hi : i < s.next.length) : ∃ r, tryBase s ts i = some r ∧
      ∀ b, r = some b → b < s.next.length ∧ us s b = false ∧ ∀ t ∈ ts, ut s (b ^^^ ck s.check t) = false := by
  cases ts with
  | nil => exact absurd rfl hne
  | cons t ts =>
    have hx := xor_lt h.dvd hi (ck_lt s.check t)
    unfold tryBase
    rw [List.getElem?_cons_zero]
    simp only [Option.bind_eq_bind, Option.bind_some, checkAt_eq _ _ (hts t (by simp))]
    have e : s.usedState[i ^^^ ck s.check t]? = some (us s (i ^^^ ck s.check t)) := some_getD _ _ _ (h.ring.n1 ▸ hx)
    rw [e, Option.bind_some]
    cases hu : us s (i ^^^ ck s.check t) with
    | true => exact ⟨none, rfl, by simp⟩
    | false =>
      obtain ⟨r, e2, hr⟩ := allFree_spec s h _ hx (t :: ts) hts
      simp only [e2, Option.bind_some, Option.pure_def]
      refine ⟨_, rfl, fun b hb => ?_⟩
      cases r with
      | false => simp at hb
      | true =>
        have : i ^^^ ck s.check t = b := by simpa using hb
        rw [← this]
        exact ⟨hx, hu, hr rfl⟩

theorem findBase_spec (ts : List Nat) (hne : ts ≠ []) : ∀ (fuel : Nat) (s : Builder) {O : Nat → Nat → Prop} (_ : Inv s O)
    (_ : ∀ t ∈ ts, t ≤ s.check.length) (i : Nat) (_ : i = 0 ∨ InL s i),
    findBase fuel s ts i = .stop ∨ ∃ s' b, findBase fuel s ts i = .ok (s', b) ∧ Grown s s' ∧ Inv s' O ∧ b < s'.next.length ∧ us s' b = false ∧
      ∀ t ∈ ts, ut s' (b ^^^ ck s.check t) = false := by
  intro fuel
  induction fuel with
  | zero => intro s O h _ i _; exact Or.inl rfl
  | succ fuel ih =>
    intro s O h hts i hi
    have hp := h.pos
    have hiN : i < s.next.length := by
      rcases hi with hi | hi
      · omega
      · exact hi.1
    unfold findBase
    obtain ⟨r, e, hr⟩ := tryBase_spec s h ts hne hts i hiN
    rw [e]
    change (match r with | some b => _ | none => _) = _ ∨ _
    cases r with
    | some b =>
      have := hr b rfl
      exact Or.inr ⟨s, b, rfl, Grown.refl s, h, this.1, this.2.1, this.2.2⟩
    | none =>
      have e1 : s.next[i]? = some (nx s i) := some_getD _ _ _ hiN
      have key : ∀ s', Grown s s' → Inv s' O → (∀ x, InL s x → InL s' x) →
          (do let n ← lift s'.next[i]?; findBase fuel s' ts n) = .stop ∨
          ∃ s'' b, (do let n ← lift s'.next[i]?; findBase fuel s' ts n) = .ok (s'', b) ∧ Grown s s'' ∧ Inv s'' O ∧ b < s''.next.length ∧
            us s'' b = false ∧ ∀ t ∈ ts, ut s'' (b ^^^ ck s.check t) = false := by
        intro s' g h' hL
        have hgl := g.len
        have e2 : s'.next[i]? = some (nx s' i) := some_getD _ _ _ (by omega)
        rw [e2]
        simp only [lift_some, ok_bind]
        have hn : nx s' i = 0 ∨ InL s' (nx s' i) := by
          rcases hi with hi | hi
          · rw [hi, h'.zero.2]; exact Or.inl rfl
          · exact Or.inr (h'.ring.ring _ (hL _ hi)).1
        rcases ih s' h' (by rw [g.check]; exact hts) (nx s' i) hn with hs | ⟨s'', b, e3, g3, h3⟩
        · exact Or.inl hs
        · rw [g.check] at h3
          exact Or.inr ⟨s'', b, e3, g.trans g3, h3⟩
      rw [e1]
      simp only [lift_some, ok_bind]
      by_cases hf : nx s i = s.front
      · rw [if_pos hf]
        rcases expand_spec s h with es | ⟨s', es, g, h', hL⟩
        · rw [es]; exact Or.inl rfl
        · rw [es]; exact key s' g h' hL
      · rw [if_neg hf]
        exact key s (Grown.refl s) h (fun _ h => h)

/-- The conditions under which a search for a base ends: one free element at least, room for a further block, and enough steps. -/
structure Plenty (fuel : Nat) (s : Builder) : Prop where
  conn : Conn s
  free : 0 < fr s
  room : s.next.length + 256 ≤ kEmpty
  fuel : s.next.length + 2 ≤ fuel

/-- In a new block everything is free. -/
theorem tryBase_new (s : Builder) {O : Nat → Nat → Prop} (h : Inv s O) (ts : List Nat) (hne : ts ≠ []) (hts : ∀ t ∈ ts, t ≤ s.check.length)
    (N : Nat) (hN : s.next.length = N + 256) (hd : 256 ∣ N) (hnew : ∀ x, N ≤ x → ut s x = false ∧ us s x = false) :
    ∃ b, tryBase s ts N = some (some b) := by
  have hge : ∀ x c, N ≤ x → c < 256 → N ≤ x ^^^ c := by
    intro x c hx hc
    by_cases hlt : x ^^^ c < N
    · have := xor_lt hd hlt hc
      rw [Nat.xor_assoc, Nat.xor_self, Nat.xor_zero] at this
      omega
    · omega
  have hall : ∀ (b : Nat), N ≤ b → b < s.next.length → ∀ us : List Nat, (∀ t ∈ us, t ≤ s.check.length) → allFree s b us = some true := by
    intro b hb hbl us
    induction us with
    | nil => intro _; rfl
    | cons t us ih =>
      intro ht
      unfold allFree
      rw [checkAt_eq _ _ (ht t (by simp))]
      simp only [Option.bind_eq_bind, Option.bind_some]
      have e : s.usedTrans[b ^^^ ck s.check t]? = some (ut s (b ^^^ ck s.check t)) :=
        some_getD _ _ _ (h.ring.n2 ▸ xor_lt h.dvd hbl (ck_lt _ _))
      rw [e, (hnew _ (hge _ _ hb (ck_lt _ _))).1, Option.bind_some]
      exact ih (fun t' h' => ht t' (by simp [h']))
  cases ts with
  | nil => exact absurd rfl hne
  | cons t ts =>
    have hx := xor_lt h.dvd (show N < s.next.length by omega) (ck_lt s.check t)
    have hx2 := hge N _ (Nat.le_refl _) (ck_lt s.check t)
    unfold tryBase
    rw [List.getElem?_cons_zero]
    simp only [Option.bind_eq_bind, Option.bind_some, checkAt_eq _ _ (hts t (by simp))]
    have e : s.usedState[N ^^^ ck s.check t]? = some (us s (N ^^^ ck s.check t)) := some_getD _ _ _ (h.ring.n1 ▸ hx)
    rw [e, (hnew _ hx2).2, Option.bind_some]
    simp only [Bool.false_eq_true, if_false]
    rw [hall _ hx2 hx _ hts]
    exact ⟨_, rfl⟩

/-- The search for a base ends. -/
theorem findBase_total (fuel : Nat) (s : Builder) {O : Nat → Nat → Prop} (h : Inv s O) (ts : List Nat) (hne : ts ≠ [])
    (hts : ∀ t ∈ ts, t ≤ s.check.length) (hP : Plenty fuel s) :
    ∃ s' b, findBase fuel s ts s.front = .ok (s', b) ∧ Cost 0 1 s s' := by
  obtain ⟨y, hy⟩ := fr_pos hP.free
  have hF := (hP.conn y hy).1
  obtain ⟨m, hm, hcyc⟩ := h.ring.cycle hF
  have hin : ∀ k, InL s ((nx s)^[k] s.front) := by
    intro k
    induction k with
    | zero => exact hF
    | succ k ih =>
      rw [Function.iterate_succ_apply']
      exact (h.ring.ring _ ih).1
  have one : ∀ x fuel, InL s x → (nx s x ≠ s.front → ∃ s' b, findBase (fuel + 1) s ts (nx s x) = .ok (s', b) ∧ Cost 0 1 s s') →
      ∃ s' b, findBase (fuel + 2) s ts x = .ok (s', b) ∧ Cost 0 1 s s' := by
    intro x fuel hxL hrec
    unfold findBase
    obtain ⟨r1, e, _⟩ := tryBase_spec s h ts hne hts x hxL.1
    rw [e]
    simp only [lift_some, ok_bind]
    cases r1 with
    | some b => exact ⟨s, b, rfl, (Cost.refl s).mono (by omega) (by omega)⟩
    | none =>
      have e1 : s.next[x]? = some (nx s x) := some_getD _ _ _ hxL.1
      rw [e1]
      simp only [lift_some, ok_bind]
      by_cases hfr : nx s x = s.front
      · rw [if_pos hfr]
        have hroom := hP.room
        rcases expand_spec s h with es | ⟨s1, es, g, h1, _⟩
        · unfold Builder.expand at es
          rw [if_neg (by omega)] at es
          cases hr : s.expandRaw with
          | none => rw [hr] at es; cases es
          | some s1 => rw [hr] at es; cases es
        · have er : s.expandRaw = some s1 := by
            unfold Builder.expand at es
            rw [if_neg (by omega)] at es
            cases hr : s.expandRaw with
            | none => rw [hr] at es; cases es
            | some s2 => rw [hr] at es; cases es; rfl
          obtain ⟨hc, hl, hnew, hpf, _⟩ := expandRaw_cost s h.ring hroom h.pos hP.conn s1 er
          have hxp : x = pv s s.front := by rw [← hfr]; exact (h.ring.ring _ hxL).2.1.symm
          have hpf := hpf hF
          rw [← hxp] at hpf
          have hx1 := hxL.1
          have e2 : s1.next[x]? = some (nx s1 x) := some_getD _ _ _ (by omega)
          obtain ⟨b, hb⟩ := tryBase_new s1 h1 ts hne (by rw [g.check]; exact hts) s.next.length hl h.dvd hnew
          refine ⟨s1, b, ?_, hc⟩
          rw [es]
          simp only [ok_bind, e2, lift_some, hpf]
          unfold findBase
          rw [hb]; rfl
      · rw [if_neg hfr]
        exact hrec hfr
  have walk : ∀ r j fuel, j + r = m → r + 2 ≤ fuel → ∃ s' b, findBase fuel s ts ((nx s)^[j] s.front) = .ok (s', b) ∧ Cost 0 1 s s' := by
    intro r
    induction r with
    | zero =>
      intro j fuel hj hf
      obtain ⟨fuel, rfl⟩ : ∃ n, fuel = n + 2 := ⟨fuel - 2, by omega⟩
      refine one _ _ (hin j) (fun hne => absurd ?_ hne)
      rw [← Function.iterate_succ_apply' (nx s), show j.succ = m + 1 by omega, hcyc]
    | succ r ih =>
      intro j fuel hj hf
      obtain ⟨fuel, rfl⟩ : ∃ n, fuel = n + 2 := ⟨fuel - 2, by omega⟩
      refine one _ _ (hin j) (fun _ => ?_)
      rw [← Function.iterate_succ_apply' (nx s)]
      exact ih (j + 1) (fuel + 1) (by omega) (by omega)
  have := hP.fuel
  exact walk m 0 fuel (by omega) (by omega)

theorem getTransesLoop_spec (s : Builder) (h : Inv s No) (b : Nat) (hb : b < s.next.length) : ∀ (n c : Nat) (acc : List Nat), c + n ≤ 256 →
    ∃ l, getTransesLoop s b n c acc = some (acc ++ l) ∧
      (∀ t, t ∈ l ↔ ∃ d, c ≤ d ∧ d < c + n ∧ ut s (b ^^^ d) = true ∧ nx s (b ^^^ d) = t ∧ 0 < t ∧ ck s.check t = d) ∧
      l.Pairwise (fun x y => ck s.check x ≠ ck s.check y) := by
  intro n
  induction n with
  | zero =>
    intro c acc _
    refine ⟨[], by simp [getTransesLoop], fun t => ⟨fun ht => by simp at ht, ?_⟩, .nil⟩
    rintro ⟨d, h1, h2, _⟩
    omega
  | succ n ih =>
    intro c acc hc
    have hx := xor_lt h.dvd hb (show c < 256 by omega)
    unfold getTransesLoop
    have e1 : s.next[b ^^^ c]? = some (nx s (b ^^^ c)) := some_getD _ _ _ hx
    have e2 : s.usedTrans[b ^^^ c]? = some (ut s (b ^^^ c)) := some_getD _ _ _ (h.ring.n2 ▸ hx)
    simp only [e1, e2, Option.bind_eq_bind, Option.bind_some]
    by_cases hu : ut s (b ^^^ c) = true ∧ nx s (b ^^^ c) > 0
    · have hle : nx s (b ^^^ c) ≤ s.check.length := by
        rcases h.used _ hu.1 with hz | hz | ⟨st, b', _, _, _, h2, _⟩
        · have := hu.2
          rw [hz, h.zero.2] at this; omega
        · exact hz.elim
        · exact h2
      rw [if_pos hu, checkAt_eq _ _ hle]
      simp only [Option.map_some, Option.bind_some]
      by_cases hd : ck s.check (nx s (b ^^^ c)) = c
      · simp only [hd, decide_true, if_true]
        obtain ⟨l, e, hl, hp⟩ := ih (c + 1) (acc ++ [nx s (b ^^^ c)]) (by omega)
        refine ⟨nx s (b ^^^ c) :: l, by rw [e]; simp, fun t => ?_, ?_⟩
        · rw [List.mem_cons, hl]
          constructor
          · rintro (rfl | ⟨d, h1, h2, h3⟩)
            · exact ⟨c, by omega, by omega, hu.1, rfl, hu.2, hd⟩
            · exact ⟨d, by omega, by omega, h3⟩
          · rintro ⟨d, h1, h2, h3⟩
            by_cases hdc : d = c
            · subst hdc
              exact Or.inl h3.2.1.symm
            · exact Or.inr ⟨d, by omega, by omega, h3⟩
        · rw [List.pairwise_cons]
          refine ⟨fun t ht => ?_, hp⟩
          obtain ⟨d, h1, h2, _, _, _, h3⟩ := (hl t).1 ht
          omega
      · simp only [hd, decide_false]
        obtain ⟨l, e, hl, hp⟩ := ih (c + 1) acc (by omega)
        refine ⟨l, by simpa using e, fun t => ?_, hp⟩
        rw [hl]
        constructor
        · rintro ⟨d, h1, h2, h3⟩; exact ⟨d, by omega, by omega, h3⟩
        · rintro ⟨d, h1, h2, h3⟩
          by_cases hdc : d = c
          · subst hdc
            rw [← h3.2.1] at h3
            exact absurd h3.2.2.2 hd
          · exact ⟨d, by omega, by omega, h3⟩
    · rw [if_neg hu]
      obtain ⟨l, e, hl, hp⟩ := ih (c + 1) acc (by omega)
      refine ⟨l, by simpa using e, fun t => ?_, hp⟩
      rw [hl]
      constructor
      · rintro ⟨d, h1, h2, h3⟩; exact ⟨d, by omega, by omega, h3⟩
      · rintro ⟨d, h1, h2, h3⟩
        by_cases hdc : d = c
        · subst hdc
          exact absurd ⟨h3.1, by rw [h3.2.1]; exact h3.2.2.1⟩ hu
        · exact ⟨d, by omega, by omega, h3⟩

/-- Setting a free slot of state `st0` with base `b0` to a new target. -/
theorem setSlot_spec (s : Builder) {O O' : Nat → Nat → Prop} (h : Inv s O) (st0 b0 t0 : Nat) (hb : s.base[st0]? = some b0) (hbe : b0 ≠ kEmpty)
    (ht0 : 0 < t0) (hlt : st0 < t0) (ht1 : t0 ≤ s.check.length) (hfree : ut s (b0 ^^^ ck s.check t0) = false)
    (hO : ∀ x t, O x t → O' x t) :
    ∃ s', s.setNext (b0 ^^^ ck s.check t0) t0 = some s' ∧ s'.check = s.check ∧ s'.base = s.base ∧ s'.usedState = s.usedState ∧
      (∀ y, ut s' y = if y = b0 ^^^ ck s.check t0 then true else ut s y) ∧ (∀ y, ut s y = true → nx s' y = nx s y) ∧
      nx s' (b0 ^^^ ck s.check t0) = t0 ∧ Inv s' O' ∧ Cost 1 0 s s' ∧
      ∀ st c t, Ext s' st c t ↔ Ext s st c t ∨ (st = st0 ∧ c = ck s.check t0 ∧ t = t0) := by
  have hx := xor_lt h.dvd (h.own _ _ hb hbe).1 (ck_lt s.check t0)
  obtain ⟨s', e, c1, c2, c3, l, fu, hn, hn2, hr⟩ := setNext_ring s h.ring _ t0 hx hfree (Or.inl h.zero.1)
  have hx0 : (0 : Nat) ≠ b0 ^^^ ck s.check t0 := by
    intro e0
    rw [← e0, h.zero.1] at hfree; cases hfree
  refine ⟨s', e, c1, c2, c3, fu, hn2, hn, ⟨hr, by rw [l]; exact h.dvd, by rw [l]; exact h.pos, by rw [l]; exact h.le, by rw [c1, c2]; exact h.blen,
    fun st b h1 h2 => ?_, fun s1 s2 b => by rw [c2]; exact h.inj s1 s2 b, fun y hy => ?_, ?_⟩, setNext_cost s h.ring _ _ hx hfree s' e, fun st c t => ?_⟩
  · rw [c2] at h1
    have := h.own st b h1 h2
    rw [l]
    unfold us
    rw [c3]
    exact this
  · rw [fu] at hy
    rw [c1, c2]
    by_cases hyx : y = b0 ^^^ ck s.check t0
    · subst hyx
      rw [hn]
      exact Or.inr (Or.inr ⟨st0, b0, hb, hbe, hlt, ht1, rfl⟩)
    · rw [if_neg hyx] at hy
      rw [hn2 y hy]
      rcases h.used y hy with hz | hz | hz
      · exact Or.inl hz
      · exact Or.inr (Or.inl (hO _ _ hz))
      · exact Or.inr (Or.inr hz)
  · rw [fu, if_neg hx0, hn2 _ h.zero.1]
    exact h.zero
  · unfold Ext
    rw [c1, c2]
    constructor
    · rintro ⟨b, h1, h2, h3, h4, h5, h6⟩
      by_cases hyx : b ^^^ c = b0 ^^^ ck s.check t0
      · rw [hyx, hn] at h4
        subst h4
        rw [h6] at hyx
        have := xor_cancel hyx
        subst this
        exact Or.inr ⟨h.inj _ _ _ h1 hb h2, h6.symm, rfl⟩
      · rw [fu, if_neg hyx] at h3
        rw [hn2 _ h3] at h4
        exact Or.inl ⟨b, h1, h2, h3, h4, h5, h6⟩
    · rintro (⟨b, h1, h2, h3, h4, h5⟩ | ⟨rfl, rfl, rfl⟩)
      · refine ⟨b, h1, h2, ?_, by rw [hn2 _ h3]; exact h4, h5⟩
        rw [fu]; split
        · rfl
        · exact h3
      · exact ⟨b0, hb, hbe, by rw [fu, if_pos rfl], hn, ht0, rfl⟩

/-- The moves. -/
theorem moveLoop_spec (oldB newB st0 : Nat) (hne : newB ≠ kEmpty) : ∀ (ts : List Nat) (s : Builder),
    Inv s (fun x t => t ∈ ts ∧ x = oldB ^^^ ck s.check t) → s.base[st0]? = some newB → (∀ st : Nat, s.base[st]? ≠ some oldB) →
    ts.Pairwise (fun x y => ck s.check x ≠ ck s.check y) →
    (∀ t ∈ ts, 0 < t ∧ st0 < t ∧ t ≤ s.check.length ∧ ut s (oldB ^^^ ck s.check t) = true ∧ nx s (oldB ^^^ ck s.check t) = t ∧
      ut s (newB ^^^ ck s.check t) = false) →
    ∃ s', moveLoop oldB newB ts s = some s' ∧ s'.check = s.check ∧ s'.base = s.base ∧ Inv s' No ∧ Cost ts.length 0 s s' ∧
      (∀ x, ut s x = false → (∀ t ∈ ts, x ≠ newB ^^^ ck s.check t) → ut s' x = false) ∧
      ∀ st c t, Ext s' st c t ↔ Ext s st c t ∨ (st = st0 ∧ t ∈ ts ∧ c = ck s.check t) := by
  intro ts
  induction ts with
  | nil =>
    intro s h hb hob _ _
    refine ⟨s, rfl, rfl, rfl, ⟨h.ring, h.dvd, h.pos, h.le, h.blen, h.own, h.inj, fun x hx => ?_, h.zero⟩, Cost.refl s, fun x hx _ => hx, fun st c t => by simp⟩
    rcases h.used x hx with hz | hz | hz
    · exact Or.inl hz
    · exact absurd hz.1 (by simp)
    · exact Or.inr (Or.inr hz)
  | cons t ts ih =>
    intro s h hb hob hp hts
    obtain ⟨ht0, htlt, htle, htu, htn, htf⟩ := hts t (by simp)
    have hx := h.ut_lt htu
    have hx0 : oldB ^^^ ck s.check t ≠ 0 := by
      intro e
      rw [e, h.zero.2] at htn; omega
    obtain ⟨hr, fn, fu⟩ := release_ring s h.ring _ hx htu hx0
    have krel := release_cost s h.ring _ hx htu
    unfold moveLoop
    rw [checkAt_eq _ _ htle]
    simp only [Option.bind_eq_bind, Option.bind_some]
    rw [wr_eq _ _ _ hx, Option.bind_some, wr_eq _ _ _ (by rw [h.ring.n2]; exact hx), Option.bind_some]
    rw [List.pairwise_cons] at hp
    -- the builder after the release
    have h1 : Inv { s with next := s.next.set (oldB ^^^ ck s.check t) kEmpty, usedTrans := s.usedTrans.set (oldB ^^^ ck s.check t) false }
        (fun x t => t ∈ ts ∧ x = oldB ^^^ ck s.check t) := by
      refine ⟨hr, by simp only [List.length_set]; exact h.dvd, by simp only [List.length_set]; exact h.pos,
        by simp only [List.length_set]; exact h.le, h.blen, by simp only [List.length_set]; exact h.own, h.inj, fun y hy => ?_, ?_⟩
      · rw [fu] at hy
        by_cases hyx : oldB ^^^ ck s.check t = y
        · rw [if_pos hyx] at hy; cases hy
        · rw [if_neg hyx] at hy
          rw [fn, if_neg hyx]
          rcases h.used y hy with hz | ⟨hz1, hz2⟩ | hz
          · exact Or.inl hz
          · refine Or.inr (Or.inl ⟨?_, hz2⟩)
            rcases List.mem_cons.1 hz1 with e | e
            · rw [e] at hz2; exact absurd hz2.symm hyx
            · exact e
          · exact Or.inr (Or.inr hz)
      · rw [fu, fn, if_neg hx0, if_neg hx0]; exact h.zero
    have e1 : ∀ st c t', Ext { s with next := s.next.set (oldB ^^^ ck s.check t) kEmpty, usedTrans := s.usedTrans.set (oldB ^^^ ck s.check t) false }
        st c t' ↔ Ext s st c t' := by
      intro st c t'
      unfold Ext
      constructor
      · rintro ⟨b, a1, a2, a3, a4, a5⟩
        rw [fu] at a3
        by_cases hyx : oldB ^^^ ck s.check t = b ^^^ c
        · rw [if_pos hyx] at a3; cases a3
        · rw [if_neg hyx] at a3
          rw [fn, if_neg hyx] at a4
          exact ⟨b, a1, a2, a3, a4, a5⟩
      · rintro ⟨b, a1, a2, a3, a4, a5, a6⟩
        have hyx : oldB ^^^ ck s.check t ≠ b ^^^ c := by
          intro e
          rw [← e, htn] at a4
          subst a4
          rw [a6] at e
          have := xor_cancel e
          subst this
          exact hob _ a1
        exact ⟨b, a1, a2, by rw [fu, if_neg hyx]; exact a3, by rw [fn, if_neg hyx]; exact a4, a5, a6⟩
    have hfree : ut { s with next := s.next.set (oldB ^^^ ck s.check t) kEmpty, usedTrans := s.usedTrans.set (oldB ^^^ ck s.check t) false }
        (newB ^^^ ck s.check t) = false := by
      rw [fu, htf]; split <;> rfl
    have d1 : ({ s with next := s.next.set (oldB ^^^ ck s.check t) kEmpty, usedTrans := s.usedTrans.set (oldB ^^^ ck s.check t) false } : Builder).check
      = s.check := rfl
    have d2 : ({ s with next := s.next.set (oldB ^^^ ck s.check t) kEmpty, usedTrans := s.usedTrans.set (oldB ^^^ ck s.check t) false } : Builder).base
      = s.base := rfl
    generalize ({ s with next := s.next.set (oldB ^^^ ck s.check t) kEmpty, usedTrans := s.usedTrans.set (oldB ^^^ ck s.check t) false } : Builder) = s1 at *
    obtain ⟨s2, e2, c1, c2, c3, fu2, fn2, fnt, h2, k2c, x2⟩ := setSlot_spec s1 (O' := fun x t => t ∈ ts ∧ x = oldB ^^^ ck s.check t) h1 st0 newB t
      (by rw [d2]; exact hb) hne ht0 htlt (by rw [d1]; exact htle) (by rw [d1]; exact hfree) (fun _ _ h => h)
    rw [d1] at e2 fu2 x2 c1
    rw [d2] at c2
    rw [e2, Option.bind_some]
    obtain ⟨s3, e3, k1, k2, h3, k3c, hf3, x3⟩ := ih s2 (by rw [c1]; exact h2) (by rw [c2]; exact hb) (by rw [c2]; exact hob) (by rw [c1]; exact hp.2) (by
      intro t' ht'
      obtain ⟨b0, b1, b2, b3, b4, b5⟩ := hts t' (by simp [ht'])
      have hne' : ck s.check t ≠ ck s.check t' := hp.1 t' ht'
      have g1 : oldB ^^^ ck s.check t ≠ oldB ^^^ ck s.check t' := fun e => hne' (xor_cancel' e)
      have g2 : newB ^^^ ck s.check t' ≠ newB ^^^ ck s.check t := fun e => hne' (xor_cancel' e).symm
      have u1 : ut s1 (oldB ^^^ ck s.check t') = true := by rw [fu, if_neg g1]; exact b3
      rw [c1]
      refine ⟨b0, b1, b2, ?_, ?_, ?_⟩
      · rw [fu2]; split
        · rfl
        · exact u1
      · rw [fn2 _ u1, fn, if_neg g1]; exact b4
      · rw [fu2, if_neg g2, fu, b5]; split <;> rfl)
    refine ⟨s3, e3, k1.trans c1, k2.trans c2, h3, ((krel.trans k2c).trans k3c).mono (by simp; omega) (by omega), fun x hx hall => ?_, fun st c t' => ?_⟩
    · apply hf3
      · rw [fu2, if_neg (hall t (by simp)), fu, hx]; split <;> rfl
      · intro t' ht'
        rw [c1]
        exact hall t' (by simp [ht'])
    · rw [x3, x2, e1, c1]
      constructor
      · rintro ((hz | ⟨rfl, rfl, rfl⟩) | ⟨rfl, hz, rfl⟩)
        · exact Or.inl hz
        · exact Or.inr ⟨rfl, by simp, rfl⟩
        · exact Or.inr ⟨rfl, by simp [hz], rfl⟩
      · rintro (hz | ⟨rfl, hz, rfl⟩)
        · exact Or.inl (Or.inl hz)
        · rcases List.mem_cons.1 hz with rfl | hz
          · exact Or.inl (Or.inr ⟨rfl, rfl, rfl⟩)
          · exact Or.inr ⟨rfl, hz, rfl⟩

/-- `insertTrans` adds exactly one transition. -/
theorem insertTrans_spec (fuel : Nat) (s : Builder) (h : Inv s No) (hnz : ∀ t, 0 < t → t ≤ s.check.length → ck s.check t ≠ 0) (st ns : Nat)
    (hlt : st < ns) (hle : ns ≤ s.check.length) (hno : ∀ t, ¬ Ext s st (ck s.check ns) t) :
    (insertTrans (findBase fuel) s st ns = .stop ∧ ¬ Plenty fuel s) ∨ ∃ s', insertTrans (findBase fuel) s st ns = .ok s' ∧ s'.check = s.check ∧
      Inv s' No ∧ (Plenty fuel s → ∃ L : List Nat, L.Pairwise (fun x y => ck s.check x ≠ ck s.check y) ∧ (∀ t ∈ L, Ext s st (ck s.check t) t) ∧
        Cost (L.length + 1) 1 s s') ∧
      ∀ st' c t, Ext s' st' c t ↔ Ext s st' c t ∨ (st' = st ∧ c = ck s.check ns ∧ t = ns) := by
  have hbl := h.blen
  have hfront : s.front = 0 ∨ InL s s.front := by
    rcases h.ring.front with hf | hf
    · exact Or.inr hf
    · exact Or.inl hf.1
  obtain ⟨b, hb⟩ : ∃ b, s.base[st]? = some b := ⟨_, List.getElem?_eq_getElem (by omega)⟩
  unfold insertTrans
  rw [checkAt_eq _ _ hle, hb]
  simp only [lift_some, ok_bind]
  by_cases hbe : b = kEmpty
  · rw [if_pos hbe]
    rcases findBase_spec [ns] (by simp) fuel s h (by simpa using hle) s.front hfront with es | ⟨s1, b1, es, g, h1, hb1, hus, hfr⟩
    · rw [es]
      refine Or.inl ⟨rfl, fun hP => ?_⟩
      obtain ⟨_, _, e, _⟩ := findBase_total fuel s h [ns] (by simp) (by simpa using hle) hP
      rw [es] at e; cases e
    · have hcost : Plenty fuel s → Cost 0 1 s s1 := by
        intro hP
        obtain ⟨_, _, e, hc⟩ := findBase_total fuel s h [ns] (by simp) (by simpa using hle) hP
        rw [es] at e; cases e; exact hc
      rw [es]
      have hfr' := hfr ns (by simp)
      have hle1 := h1.le
      have hb1e : b1 ≠ kEmpty := by omega
      have gck := g.check
      have gb := g.base
      -- write the base and the used state first
      have hI : Inv { s1 with base := s1.base.set st b1, usedState := s1.usedState.set b1 true } No := by
        have fus : ∀ x, us { s1 with base := s1.base.set st b1, usedState := s1.usedState.set b1 true } x = if b1 = x then true else us s1 x :=
          fun x => getD_set _ _ _ _ _ (by rw [h1.ring.n1]; exact hb1)
        have fb : ∀ st' : Nat, (s1.base.set st b1)[st']? = if st = st' then some b1 else s1.base[st']? := by
          intro st'
          rw [List.getElem?_set]
          split
          · rw [if_pos (by rw [gb]; omega)]
          · rfl
        refine ⟨⟨by simp only [List.length_set]; exact h1.ring.n1, h1.ring.n2, h1.ring.n3, h1.ring.ring, h1.ring.front⟩, h1.dvd, h1.pos, h1.le,
          by simp only [List.length_set]; exact h1.blen, fun st' b' a1 a2 => ?_, fun s1' s2' b' a1 a2 a3 => ?_, fun x hx => ?_, h1.zero⟩
        · rw [fus]
          rw [fb] at a1
          by_cases e : st = st'
          · rw [if_pos e] at a1
            have := Option.some.inj a1
            rw [if_pos this]
            exact ⟨by rw [← this]; exact hb1, rfl⟩
          · rw [if_neg e] at a1
            have := h1.own _ _ a1 a2
            refine ⟨this.1, ?_⟩
            split
            · rfl
            · exact this.2
        · rw [fb] at a1 a2
          by_cases e1 : st = s1' <;> by_cases e2 : st = s2'
          · omega
          · rw [if_pos e1] at a1
            rw [if_neg e2] at a2
            have := (h1.own _ _ a2 a3).2
            rw [← Option.some.inj a1, hus] at this; cases this
          · rw [if_pos e2] at a2
            rw [if_neg e1] at a1
            have := (h1.own _ _ a1 a3).2
            rw [← Option.some.inj a2, hus] at this; cases this
          · rw [if_neg e1] at a1
            rw [if_neg e2] at a2
            exact h1.inj _ _ _ a1 a2 a3
        · rcases h1.used x hx with hz | hz | ⟨st', b', a1, a2, a3⟩
          · exact Or.inl hz
          · exact Or.inr (Or.inl hz)
          · refine Or.inr (Or.inr ⟨st', b', ?_, a2, a3⟩)
            change (s1.base.set st b1)[st']? = some b'
            rw [fb, if_neg ?_]
            · exact a1
            · rintro rfl
              rw [gb, hb] at a1
              exact a2 ((Option.some.inj a1).symm.trans hbe)
      obtain ⟨s2, e2, c1, c2, c3, fu2, fn2, fnt, h2, k2c, x2⟩ := setSlot_spec { s1 with base := s1.base.set st b1, usedState := s1.usedState.set b1 true }
        (O' := No) hI st b1 ns (by
          change (s1.base.set st b1)[st]? = some b1
          rw [List.getElem?_set, if_pos rfl, if_pos (by rw [gb]; omega)]) hb1e (by omega) hlt
        (by change ns ≤ s1.check.length; rw [gck]; exact hle) (by change ut s1 (b1 ^^^ ck s1.check ns) = false; rw [gck]; exact hfr') (fun _ _ h => h)
      have hck : ({ s1 with base := s1.base.set st b1, usedState := s1.usedState.set b1 true } : Builder).check = s.check := gck
      have hckn : ck s1.check ns = ck s.check ns := by rw [gck]
      change Builder.setNext _ (b1 ^^^ ck s1.check ns) ns = some s2 at e2
      change ∀ st' c t, Ext s2 st' c t ↔ _ ∨ (st' = st ∧ c = ck s1.check ns ∧ t = ns) at x2
      rw [hckn] at e2 x2
      have e2' : some s2 = _ := e2.symm.trans <| setNext_us { s1 with base := s1.base.set st b1 } (s1.usedState.set b1 true) (b1 ^^^ ck s.check ns) ns
      obtain ⟨s3, e3, e4⟩ := Option.map_eq_some_iff.1 e2'.symm
      have h3us : s3.usedState = s1.usedState := by
        have := setNext_us { s1 with base := s1.base.set st b1 } s1.usedState (b1 ^^^ ck s.check ns) ns
        change Builder.setNext { s1 with base := s1.base.set st b1 } _ _ = _ at this
        rw [e3] at this
        have := congrArg Builder.usedState (Option.some.inj this)
        exact this
      have hfirst : insertFirst s1 b1 st ns (ck s.check ns) = some s2 := by
        unfold insertFirst
        rw [wr_eq _ _ _ (by rw [gb]; omega)]
        simp only [Option.bind_eq_bind, Option.bind_some, Option.pure_def]
        rw [e3, Option.bind_some, h3us, wr_eq _ _ _ (by rw [h1.ring.n1]; exact hb1), Option.bind_some, e4]
      refine Or.inr ⟨s2, by simp only [ok_bind]; rw [hfirst]; rfl, c1.trans gck, h2, fun hP => ⟨[], .nil, by simp, ?_⟩, fun st' c t => ?_⟩
      · have ksame : Cost 0 0 s1 { s1 with base := s1.base.set st b1, usedState := s1.usedState.set b1 true } :=
          Cost.same h1.ring (fun _ => Iff.rfl) (fun _ _ => rfl) rfl rfl
        exact ((hcost hP).trans (ksame.trans k2c)).mono (by simp) (by omega)
      · rw [x2, ← g.ext]
        refine or_congr ?_ Iff.rfl
        unfold Ext
        rw [hck]
        by_cases e : st' = st
        · subst e
          constructor
          · rintro ⟨b2, a1, a2, a3, a4, a5, a6⟩
            exfalso
            have hb2 : b1 = b2 := by
              have : (s1.base.set st' b1)[st']? = some b2 := a1
              rw [List.getElem?_set, if_pos rfl, if_pos (by rw [gb]; omega)] at this
              exact Option.some.inj this
            subst hb2
            rcases h1.owner a3 a4 a5 (by rw [gck]; exact a6) with hz | ⟨st2, z1, z2, _⟩
            · exact hz
            · have := (h1.own _ _ z1 z2).2
              rw [hus] at this; cases this
          · rintro ⟨b2, a1, a2, _⟩
            rw [gb, hb] at a1
            exact absurd ((Option.some.inj a1).symm.trans hbe) a2
        · have : (s1.base.set st b1)[st']? = s1.base[st']? := by rw [List.getElem?_set, if_neg (Ne.symm e)]
          constructor
          · rintro ⟨b2, a1, a2⟩
            exact ⟨b2, this ▸ a1, a2⟩
          · rintro ⟨b2, a1, a2⟩
            exact ⟨b2, this.trans a1, a2⟩
  · rw [if_neg hbe]
    have hbN := (h.own _ _ hb hbe).1
    have hx := xor_lt h.dvd hbN (ck_lt s.check ns)
    have e1 : s.usedTrans[b ^^^ ck s.check ns]? = some (ut s (b ^^^ ck s.check ns)) := some_getD _ _ _ (h.ring.n2 ▸ hx)
    rw [e1]
    simp only [lift_some, ok_bind]
    cases hu : ut s (b ^^^ ck s.check ns) with
    | false =>
      obtain ⟨s2, e2, c1, c2, c3, fu2, fn2, fnt, h2, k2c, x2⟩ := setSlot_spec s (O' := No) h st b ns hb hbe (by omega) hlt hle hu (fun _ _ h => h)
      exact Or.inr ⟨s2, by simp [e2], c1, h2, fun _ => ⟨[], .nil, by simp, k2c.mono (by simp) (by omega)⟩, x2⟩
    | true =>
      simp only [if_true]
      obtain ⟨ts, et, hts, htp⟩ := getTransesLoop_spec s h b hbN 255 1 [] (by omega)
      have et' : s.getTranses st = some ts := by
        unfold Builder.getTranses
        rw [hb]
        simp only [Option.bind_eq_bind, Option.bind_some]
        rw [if_neg hbe, et]; rfl
      rw [et']
      simp only [lift_some, ok_bind]
      have hmem : ∀ t, t ∈ ts ↔ Ext s st (ck s.check t) t := by
        intro t
        rw [hts]
        constructor
        · rintro ⟨d, _, _, h3, h4, h5, h6⟩
          exact ⟨b, hb, hbe, by rw [h6]; exact h3, by rw [h6]; exact h4, h5, rfl⟩
        · intro he
          have hl := h.ext_lt he
          obtain ⟨b', h1, h2, h3, h4, h5, _⟩ := he
          rw [hb] at h1
          have := Option.some.inj h1
          subst this
          have z := hnz t h5 hl.2
          have z2 := ck_lt s.check t
          exact ⟨ck s.check t, by omega, by omega, h3, h4, h5, rfl⟩
      have htle : ∀ t ∈ ts ++ [ns], t ≤ s.check.length := by
        intro t ht
        rcases List.mem_append.1 ht with ht | ht
        · exact (h.ext_lt ((hmem t).1 ht)).2
        · rw [List.mem_singleton.1 ht]; exact hle
      rcases findBase_spec (ts ++ [ns]) (by simp) fuel s h htle s.front hfront with es | ⟨s1, nb, es, g, h1, hnbN, hus, hfr⟩
      · rw [es]
        refine Or.inl ⟨rfl, fun hP => ?_⟩
        obtain ⟨_, _, e, _⟩ := findBase_total fuel s h (ts ++ [ns]) (by simp) htle hP
        rw [es] at e; cases e
      · have hcost : Plenty fuel s → Cost 0 1 s s1 := by
          intro hP
          obtain ⟨_, _, e, hc⟩ := findBase_total fuel s h (ts ++ [ns]) (by simp) htle hP
          rw [es] at e; cases e; exact hc
        rw [es]
        simp only [ok_bind]
        have hle1 := h1.le
        have hnbe : nb ≠ kEmpty := by omega
        have gck := g.check
        have gb := g.base
        have hb1 : s1.base[st]? = some b := by rw [gb]; exact hb
        have hown := h1.own _ _ hb1 hbe
        have hbnb : b ≠ nb := by
          rintro rfl
          rw [hus] at hown
          cases hown.2
        have hstl : st < s1.base.length := by rw [gb]; omega
        have fb : ∀ st' : Nat, (s1.base.set st nb)[st']? = if st = st' then some nb else s1.base[st']? := by
          intro st'
          rw [List.getElem?_set]
          by_cases e : st = st'
          · rw [if_pos e, if_pos e, if_pos hstl]
          · rw [if_neg e, if_neg e]
        have hNob : ∀ st' : Nat, (s1.base.set st nb)[st']? ≠ some b := by
          intro st' e
          rw [fb] at e
          by_cases e1 : st = st'
          · rw [if_pos e1] at e
            exact hbnb (Option.some.inj e).symm
          · rw [if_neg e1] at e
            exact e1 (h1.inj _ _ _ hb1 e hbe)
        have fus : ∀ x, us { s1 with usedState := (s1.usedState.set b false).set nb true, base := s1.base.set st nb } x =
            if nb = x then true else if b = x then false else us s1 x := by
          intro x
          unfold us
          simp only []
          rw [getD_set _ _ _ _ _ (by rw [List.length_set, h1.ring.n1]; exact hnbN), getD_set _ _ _ _ _ (by rw [h1.ring.n1]; exact hown.1)]
        have hnoNb : ∀ st' : Nat, s1.base[st']? ≠ some nb := by
          intro st' e
          have := (h1.own _ _ e hnbe).2
          rw [hus] at this; cases this
        have hExt1 : ∀ d t, Ext s1 st d t ↔ t ∈ ts ∧ d = ck s.check t := by
          intro d t
          rw [g.ext, hmem]
          constructor
          · intro he
            have : ck s.check t = d := by
              obtain ⟨_, _, _, _, _, _, h6⟩ := he
              exact h6
            exact ⟨by rw [this]; exact he, this.symm⟩
          · rintro ⟨he, rfl⟩; exact he
        have hslot : ∀ t ∈ ts, ut s1 (b ^^^ ck s.check t) = true ∧ nx s1 (b ^^^ ck s.check t) = t ∧ 0 < t := by
          intro t ht
          obtain ⟨b', z1, z2, z3, z4, z5, z6⟩ := (hExt1 _ t).2 ⟨ht, rfl⟩
          rw [hb1] at z1
          have := Option.some.inj z1
          subst this
          exact ⟨z3, z4, z5⟩
        have hI : Inv { s1 with usedState := (s1.usedState.set b false).set nb true, base := s1.base.set st nb }
            (fun x t => t ∈ ts ∧ x = b ^^^ ck s1.check t) := by
          refine ⟨⟨by simp only [List.length_set]; exact h1.ring.n1, h1.ring.n2, h1.ring.n3, h1.ring.ring, h1.ring.front⟩, h1.dvd, h1.pos, h1.le,
            by simp only [List.length_set]; exact h1.blen, fun st' b' a1 a2 => ?_, fun s1' s2' b' a1 a2 a3 => ?_, fun x hx => ?_, h1.zero⟩
          · rw [fus]
            have hb'b : b ≠ b' := by
              rintro rfl
              exact hNob _ a1
            change (s1.base.set st nb)[st']? = some b' at a1
            rw [fb] at a1
            by_cases e : st = st'
            · rw [if_pos e] at a1
              have := Option.some.inj a1
              rw [if_pos this]
              exact ⟨by rw [← this]; exact hnbN, rfl⟩
            · rw [if_neg e] at a1
              have := h1.own _ _ a1 a2
              refine ⟨this.1, ?_⟩
              rw [if_neg hb'b]
              split
              · rfl
              · exact this.2
          · change (s1.base.set st nb)[s1']? = some b' at a1
            change (s1.base.set st nb)[s2']? = some b' at a2
            rw [fb] at a1 a2
            by_cases e1 : st = s1' <;> by_cases e2 : st = s2'
            · omega
            · rw [if_pos e1] at a1
              rw [if_neg e2] at a2
              rw [← Option.some.inj a1] at a2
              exact absurd a2 (hnoNb _)
            · rw [if_pos e2] at a2
              rw [if_neg e1] at a1
              rw [← Option.some.inj a2] at a1
              exact absurd a1 (hnoNb _)
            · rw [if_neg e1] at a1
              rw [if_neg e2] at a2
              exact h1.inj _ _ _ a1 a2 a3
          · rcases h1.used x hx with hz | hz | ⟨st', b', a1, a2, a3, a4, a5⟩
            · exact Or.inl hz
            · exact hz.elim
            · by_cases e : st = st'
              · subst e
                rw [hb1] at a1
                have := Option.some.inj a1
                subst this
                refine Or.inr (Or.inl ⟨((hExt1 (ck s1.check (nx s1 x)) (nx s1 x)).1 ?_).1, a5.symm⟩)
                exact ⟨b, hb1, hbe, by rw [a5]; exact hx, by rw [a5], by omega, rfl⟩
              · refine Or.inr (Or.inr ⟨st', b', ?_, a2, a3, a4, a5⟩)
                change (s1.base.set st nb)[st']? = some b'
                rw [fb, if_neg e]; exact a1
        have hck : ({ s1 with usedState := (s1.usedState.set b false).set nb true, base := s1.base.set st nb } : Builder).check = s.check := gck
        have hX : ∀ st' c t, Ext { s1 with usedState := (s1.usedState.set b false).set nb true, base := s1.base.set st nb } st' c t ↔
            Ext s1 st' c t ∧ st' ≠ st := by
          intro st' c t
          unfold Ext
          rw [hck]
          constructor
          · rintro ⟨b', a1, a2, a3, a4, a5, a6⟩
            change (s1.base.set st nb)[st']? = some b' at a1
            rw [fb] at a1
            by_cases e : st = st'
            · exfalso
              rw [if_pos e] at a1
              have := Option.some.inj a1
              subst this
              rcases h1.owner a3 a4 a5 (by rw [gck]; exact a6) with hz | ⟨st2, z1, z2, _⟩
              · exact hz
              · exact hnoNb _ z1
            · rw [if_neg e] at a1
              exact ⟨⟨b', a1, a2, a3, a4, a5, a6⟩, Ne.symm e⟩
          · rintro ⟨⟨b', a1, a2⟩, e⟩
            refine ⟨b', ?_, a2⟩
            change (s1.base.set st nb)[st']? = some b'
            rw [fb, if_neg (Ne.symm e)]; exact a1
        have hbase : ({ s1 with usedState := (s1.usedState.set b false).set nb true, base := s1.base.set st nb } : Builder).base[st]? = some nb := by
          change (s1.base.set st nb)[st]? = some nb
          rw [fb, if_pos rfl]
        obtain ⟨s2, e2, k1, k2, h2, k2c, hf2, x2⟩ := moveLoop_spec b nb st hnbe ts
          { s1 with usedState := (s1.usedState.set b false).set nb true, base := s1.base.set st nb } hI hbase hNob
          (by rw [hck]; exact htp)
          (by
            intro t ht
            rw [hck]
            have hl := h.ext_lt ((hmem t).1 ht)
            have hs := hslot t ht
            exact ⟨hs.2.2, hl.1, hl.2, hs.1, hs.2.1, hfr t (by simp [ht])⟩)
        rw [hck] at k1 hf2
        have hfree2 : ut s2 (nb ^^^ ck s.check ns) = false := by
          apply hf2
          · exact hfr ns (by simp)
          · intro t ht e
            have := xor_cancel' e
            have he := (hmem t).1 ht
            rw [← this] at he
            exact hno t he
        obtain ⟨s3, e3, c1, c2, c3, fu3, fn3, fnt, h3, k3c, x3⟩ := setSlot_spec s2 (O' := No) h2 st nb ns (by rw [k2]; exact hbase) hnbe (by omega) hlt
          (by rw [k1]; exact hle) (by rw [k1]; exact hfree2) (fun _ _ h => h)
        rw [k1] at e3 x3 c1
        have hconf : insertConflict s1 ts nb st ns (ck s.check ns) = some s3 := by
          unfold insertConflict
          rw [hb1]
          simp only [Option.bind_eq_bind, Option.bind_some]
          rw [wr_eq _ _ _ (by rw [h1.ring.n1]; exact hown.1), Option.bind_some, wr_eq _ _ _ (by rw [List.length_set, h1.ring.n1]; exact hnbN),
            Option.bind_some, wr_eq _ _ _ hstl, Option.bind_some, e2, Option.bind_some, e3]
        have ksame : Cost 0 0 s1 { s1 with usedState := (s1.usedState.set b false).set nb true, base := s1.base.set st nb } :=
          Cost.same h1.ring (fun _ => Iff.rfl) (fun _ _ => rfl) rfl rfl
        refine Or.inr ⟨s3, by rw [hconf]; rfl, c1, h3,
          fun hP => ⟨ts, htp, fun t ht => (hmem t).1 ht, ((hcost hP).trans (ksame.trans (k2c.trans k3c))).mono (by omega) (by omega)⟩, fun st' c t => ?_⟩
        rw [x3, x2, hX, g.ext, hck]
        refine or_congr ?_ Iff.rfl
        constructor
        · rintro (hz | ⟨rfl, hz, rfl⟩)
          · exact hz.1
          · exact (hmem t).1 hz
        · intro hz
          by_cases e : st' = st
          · subst e
            rw [← g.ext] at hz
            exact Or.inr ⟨rfl, (hExt1 _ _).1 hz⟩
          · exact Or.inl ⟨hz, e⟩

end Verif.FO
