/-
The finished oracle, `accept` and the BOM search.
-/
import Verif.FO.Chain
import Verif.PM.Lemmas

namespace Verif.FO
open Verif.PM (Byte Occ Found)

theorem expandLoop_spec (m : Nat) : ∀ (n : Nat) (s : Builder), Ring s → 256 ∣ s.next.length → 0 < s.next.length → s.next.length ≤ kEmpty →
    (∀ x, us s x = false) → (∀ x, ut s x = false) →
    expandLoop m n s = .stop ∨ ∃ s', expandLoop m n s = .ok s' ∧ s'.check = s.check ∧ s'.base = s.base ∧ Ring s' ∧ 256 ∣ s'.next.length ∧
      0 < s'.next.length ∧ s'.next.length ≤ kEmpty ∧ (∀ x, us s' x = false) ∧ (∀ x, ut s' x = false) := by
  intro n
  induction n with
  | zero => intro s h1 h2 h3 h4 h5 h6; exact Or.inr ⟨s, rfl, rfl, rfl, h1, h2, h3, h4, h5, h6⟩
  | succ n ih =>
    intro s h1 h2 h3 h4 h5 h6
    unfold expandLoop
    by_cases hl : s.next.length < m
    · rw [if_pos hl]
      unfold Builder.expand
      by_cases hk : s.next.length + 256 > kEmpty
      · rw [if_pos hk]; exact Or.inl rfl
      · rw [if_neg hk]
        obtain ⟨s1, e, c1, c2, l, u1, u2, _, _, hr⟩ := expandRaw_ring s h1 (by omega) h3
        rw [e]
        simp only [lift_some, ok_bind]
        rcases ih s1 hr (by omega) (by omega) (by omega) (fun x => by rw [u1, h5]) (fun x => by rw [u2, h6]) with es | ⟨s', es, d1, d2, d3⟩
        · exact Or.inl es
        · exact Or.inr ⟨s', es, d1.trans c1, d2.trans c2, d3⟩
    · rw [if_neg hl]
      exact Or.inr ⟨s, rfl, rfl, rfl, h1, h2, h3, h4, h5, h6⟩

/-- The finished oracle of a builder. -/
def fin (s : Builder) : Oracle := ⟨s.check, s.base, clearNext s⟩

theorem ck_nz (text : List Byte) (hnz : ∀ c ∈ text, c ≠ 0#8) : ∀ t, 0 < t → t ≤ text.length → ck text t ≠ 0 := by
  intro t h0 ht
  unfold ck checkAt
  rw [if_neg (by omega), List.getElem?_eq_getElem (by omega)]
  have := hnz _ (List.getElem_mem (show t - 1 < text.length by omega))
  intro e
  apply this
  apply BitVec.eq_of_toNat_eq
  exact e

theorem build_spec (fuel : Nat) (text : List Byte) (hne : text ≠ []) (hnz : ∀ c ∈ text, c ≠ 0#8) :
    build fuel text = .stop ∨ ∃ s lrs, build fuel text = .ok (fin s) ∧ LI text text.length lrs s := by
  have hpos : 0 < text.length := List.length_pos_iff.2 hne
  have hkE : kEmpty = 4294967295 := rfl
  unfold build buildWith
  obtain ⟨n, hn⟩ : ∃ n, text.length = n + 1 := ⟨text.length - 1, by omega⟩
  have e1 : expandLoop text.length text.length (initial text) = ((initial text).expand >>= expandLoop text.length n) := by
    rw [show expandLoop text.length text.length (initial text) = expandLoop text.length (n + 1) (initial text) by rw [← hn]]
    rw [expandLoop, if_pos (show (initial text).next.length < text.length from hpos)]
  rw [e1]
  obtain ⟨s1, es1, c1, b1, l1, u1, u2, i0, f0, r1⟩ := expandRaw_first (initial text) rfl rfl rfl rfl rfl
  have e2 : (initial text).expand = .ok s1 := by
    unfold Builder.expand
    rw [if_neg (by rw [hkE]; show ¬ (0 + 256 > _); omega), es1]; rfl
  rw [e2]
  simp only [ok_bind]
  rcases expandLoop_spec text.length n s1 r1 (by rw [l1]; exact ⟨1, rfl⟩) (by omega) (by omega) u1 u2 with es | ⟨s2, es, c2, b2, r2, d2, p2, le2, us2, ut2⟩
  · rw [es]; exact Or.inl rfl
  · rw [es]
    simp only [ok_bind]
    obtain ⟨s3, es3, c3, b3, uu3, l3, fu3, n3, _, r3⟩ := setNext_ring s2 r2 0 0 p2 (ut2 0) (Or.inr rfl)
    rw [es3]
    simp only [lift_some, ok_bind]
    have hbase : s3.base = List.replicate (text.length + 1) kEmpty := by rw [b3, b2, b1]; rfl
    have hcheck : s3.check = text := by rw [c3, c2, c1]; rfl
    have hbE : ∀ (st b : Nat), s3.base[st]? = some b → b = kEmpty := by
      intro st b h
      rw [hbase, List.getElem?_replicate] at h
      split at h
      · exact (Option.some.inj h).symm
      · cases h
    have hI : Inv s3 No := by
      refine ⟨r3, by rw [l3]; exact d2, by omega, by omega, by rw [hbase, hcheck, List.length_replicate], fun st b h1 h2 => absurd (hbE _ _ h1) h2,
        fun a b c h1 _ h3 => absurd (hbE _ _ h1) h3, fun x hx => ?_, by rw [fu3, if_pos rfl], n3⟩
      rw [fu3] at hx
      by_cases e : x = 0
      · exact Or.inl e
      · rw [if_neg e, ut2] at hx; cases hx
    have hLI : LI text 0 (List.replicate (text.length + 1) 0) s3 := by
      refine ⟨hI, hcheck, by rw [List.length_replicate], fun st c t he => ?_, fun k h1 h2 => by omega, fun k h1 h2 => by omega⟩
      obtain ⟨b, h1, h2, _⟩ := he
      exact absurd (hbE _ _ h1) h2
    rcases letterLoop_spec fuel text (ck_nz text hnz) text.length 0 _ s3 (by omega) hLI with es4 | ⟨s4, lrs, es4, h4⟩
    · rw [es4]; exact Or.inl rfl
    · rw [es4]
      rw [Nat.zero_add] at h4
      exact Or.inr ⟨s4, lrs, rfl, h4⟩

theorem clearNext_getElem? (s : Builder) (h : Ring s) (x : Nat) (hx : x < s.next.length) :
    (clearNext s)[x]? = some (if ut s x then nx s x else 0) := by
  unfold clearNext
  have h2 : x < s.usedTrans.length := by rw [h.n2]; exact hx
  rw [List.getElem?_map, List.getElem?_eq_getElem (by rw [List.length_zip]; omega), List.getElem_zip]
  unfold ut nx
  rw [List.getElem?_eq_getElem hx, List.getElem?_eq_getElem h2]
  rfl

/-- One transition of the finished oracle. -/
theorem image_spec (text : List Byte) (s : Builder) (lrs : List Nat) (h : LI text text.length lrs s) (past : Option Byte)
    (st : Nat) (hst : st ≤ text.length) (c : Byte) (hp : st = text.length → ∃ g, past = some g ∧ g ≠ c) :
    (∃ t, (fin s).image past st c = some (some t) ∧ D s st c.toNat t ∧ t ≤ text.length) ∨
    ((fin s).image past st c = some none ∧ ∀ t, t ≤ text.length → ¬ D s st c.toNat t) := by
  have hck := h.check
  have hbl := h.inv.blen
  rw [hck] at hbl
  unfold Oracle.image
  have hfc : (fin s).check = text := hck
  have hfb : (fin s).base = s.base := rfl
  rw [hfc, hfb]
  -- the rest after the first comparison
  have rest : ck text (st + 1) ≠ c.toNat ∨ st = text.length →
      ((∃ t, ((s.base[st]?).bind fun b => if b = kEmpty then some none else ((fin s).next[b ^^^ c.toNat]?).bind fun t =>
        if t ≤ st then some none else (checkAt text t).bind fun d => if d ≠ c.toNat then some none else some (some t)) = some (some t) ∧
        D s st c.toNat t ∧ t ≤ text.length) ∨
      (((s.base[st]?).bind fun b => if b = kEmpty then some none else ((fin s).next[b ^^^ c.toNat]?).bind fun t =>
        if t ≤ st then some none else (checkAt text t).bind fun d => if d ≠ c.toNat then some none else some (some t)) = some none ∧
        ∀ t, t ≤ text.length → ¬ D s st c.toNat t)) := by
    intro hne
    have nod : (∀ t, ¬ Ext s st c.toNat t) → ∀ t, t ≤ text.length → ¬ D s st c.toNat t := by
      rintro he t ht (⟨h1, h2⟩ | ⟨_, h2⟩)
      · rcases hne with hne | hne
        · rw [hck] at h1; exact hne h1
        · omega
      · exact he t h2
    obtain ⟨b, hb⟩ : ∃ b, s.base[st]? = some b := ⟨_, List.getElem?_eq_getElem (by omega)⟩
    rw [hb, Option.bind_some]
    by_cases hbe : b = kEmpty
    · rw [if_pos hbe]
      refine Or.inr ⟨rfl, nod ?_⟩
      rintro t ⟨b', h1, h2, _⟩
      rw [hb] at h1
      exact h2 ((Option.some.inj h1).symm.trans hbe)
    · rw [if_neg hbe]
      have hx := xor_lt h.inv.dvd (h.inv.own _ _ hb hbe).1 c.isLt
      rw [show (fin s).next = clearNext s from rfl, clearNext_getElem? s h.inv.ring _ hx, Option.bind_some]
      cases hu : ut s (b ^^^ c.toNat) with
      | false =>
        simp only [Bool.false_eq_true, if_false]
        rw [if_pos (by omega)]
        refine Or.inr ⟨rfl, nod ?_⟩
        rintro t ⟨b', h1, h2, h3, _⟩
        rw [hb] at h1
        rw [← Option.some.inj h1, hu] at h3; cases h3
      | true =>
        simp only [if_true]
        by_cases h0 : nx s (b ^^^ c.toNat) ≤ st
        · rw [if_pos h0]
          refine Or.inr ⟨rfl, nod ?_⟩
          intro t he
          have := (h.inv.ext_lt he).1
          obtain ⟨b', h1, h2, h3, h4, h5, _⟩ := he
          rw [hb] at h1
          rw [← Option.some.inj h1] at h4; omega
        · rw [if_neg h0]
          have hle : nx s (b ^^^ c.toNat) ≤ text.length := by
            rcases h.inv.used _ hu with hz | hz | ⟨_, b', _, _, _, h2, _⟩
            · rw [hz, h.inv.zero.2] at h0; omega
            · exact hz.elim
            · rw [hck] at h2; exact h2
          rw [checkAt_eq _ _ hle, Option.bind_some]
          by_cases hd : ck text (nx s (b ^^^ c.toNat)) = c.toNat
          · rw [if_neg (by simpa using hd)]
            refine Or.inl ⟨_, rfl, ?_, hle⟩
            rcases hne with hne | hne
            · exact Or.inr ⟨by rw [hck]; exact hne, b, hb, hbe, hu, rfl, by omega, by rw [hck]; exact hd⟩
            · omega
          · rw [if_pos hd]
            refine Or.inr ⟨rfl, nod ?_⟩
            rintro t ⟨b', h1, h2, h3, h4, h5, h6⟩
            rw [hb] at h1
            rw [← Option.some.inj h1] at h4
            rw [← h4, hck] at h6
            exact hd h6
  by_cases hsm : st = text.length
  · obtain ⟨g, hg, hgc⟩ := hp hsm
    rw [if_pos hsm, hg]
    simp only [Option.map_some, Option.bind_eq_bind, Option.bind_some, Option.pure_def]
    have hgn : ¬ g.toNat = c.toNat := fun e => hgc (BitVec.eq_of_toNat_eq e)
    rw [if_neg hgn]
    exact rest (Or.inr hsm)
  · rw [if_neg hsm, checkAt_eq _ _ (by omega)]
    simp only [Option.bind_eq_bind, Option.bind_some, Option.pure_def]
    by_cases ha : ck text (st + 1) = c.toNat
    · rw [if_pos ha]
      exact Or.inl ⟨st + 1, rfl, Or.inl ⟨by rw [hck]; exact ha, rfl⟩, by omega⟩
    · rw [if_neg ha]
      exact rest (Or.inl ha)

theorem Reads_len {text : List Byte} {s : Builder} (hI : Inv s No) (hck : s.check = text) : ∀ (w : List Byte) (st t : Nat), st ≤ text.length →
    Reads s st w t → st + w.length ≤ text.length ∧ (st + w.length = text.length → w = text.drop st) := by
  intro w
  induction w with
  | nil =>
    intro st t hst h
    refine ⟨by simpa using hst, fun e => ?_⟩
    rw [List.drop_eq_nil_of_le (by simp at e; omega)]
  | cons c w ih =>
    rintro st t hst ⟨u, hd, hu, hr⟩
    rw [hck] at hu
    have hlt := D_lt hI hd
    obtain ⟨h1, h2⟩ := ih u t hu hr
    rw [List.length_cons]
    refine ⟨by omega, fun e => ?_⟩
    have hus : u = st + 1 := by omega
    subst hus
    rw [List.drop_eq_getElem_cons (by omega), ← h2 (by omega)]
    congr 1
    have hc : ck s.check (st + 1) = c.toNat := by
      rcases hd with ⟨h, _⟩ | ⟨_, b, _, _, _, _, _, h⟩
      · exact h
      · exact h
    rw [hck] at hc
    unfold ck checkAt at hc
    rw [if_neg (by omega), Nat.add_sub_cancel, List.getElem?_eq_getElem (by omega)] at hc
    exact (BitVec.eq_of_toNat_eq hc).symm

/-- `accept` with a harmless byte after the end. -/
theorem acceptFrom_spec (text : List Byte) (s : Builder) (lrs : List Nat) (h : LI text text.length lrs s) (g : Byte) :
    ∀ (w : List Byte) (st : Nat), st ≤ text.length → g ∉ w →
    ∃ r, (fin s).acceptFrom (some g) st w = some r ∧ (r = true ↔ ∃ t, Reads s st w t) := by
  intro w
  induction w with
  | nil => intro st _ _; exact ⟨true, rfl, by simp [Reads]⟩
  | cons c w ih =>
    intro st hst hg
    have hgc : g ≠ c := fun e => hg (by simp [e])
    unfold Oracle.acceptFrom
    rcases image_spec text s lrs h (some g) st hst c (fun _ => ⟨g, rfl, hgc⟩) with ⟨t, e, hd, ht⟩ | ⟨e, hnd⟩
    · rw [e]
      simp only [Option.bind_eq_bind, Option.bind_some]
      obtain ⟨r, er, hr⟩ := ih t ht (fun hm => hg (by simp [hm]))
      refine ⟨r, er, hr.trans ⟨?_, ?_⟩⟩
      · rintro ⟨u, hu⟩; exact ⟨u, t, hd, by rw [h.check]; exact ht, hu⟩
      · rintro ⟨u, v, hv, _, hu⟩
        have := D_fun hd hv
        subst this
        exact ⟨u, hu⟩
    · rw [e]
      simp only [Option.bind_eq_bind, Option.bind_some]
      refine ⟨false, rfl, ⟨fun h => (by cases h), ?_⟩⟩
      rintro ⟨u, v, hv, hvl, _⟩
      rw [h.check] at hvl
      exact absurd hv (hnd v hvl)

/-- `accept` under the strict reading: never past the end. -/
theorem acceptFrom_strict (text : List Byte) (s : Builder) (lrs : List Nat) (h : LI text text.length lrs s)
    (past : Option Byte) : ∀ (w : List Byte) (st t : Nat), st ≤ text.length → Reads s st w t → (fin s).acceptFrom past st w = some true := by
  intro w
  induction w with
  | nil => intro st t _ _; rfl
  | cons c w ih =>
    rintro st t hst ⟨u, hd, hu, hr⟩
    rw [h.check] at hu
    have hlt := D_lt h.inv hd
    unfold Oracle.acceptFrom
    rcases image_spec text s lrs h past st hst c (fun e => by omega) with ⟨t', e, hd', ht'⟩ | ⟨e, hnd⟩
    · rw [e]
      simp only [Option.bind_eq_bind, Option.bind_some]
      have := D_fun hd hd'
      subst this
      exact ih u t hu hr
    · exact absurd hd (hnd u hu)

theorem acceptFrom_none (text : List Byte) (s : Builder) (lrs : List Nat) (h : LI text text.length lrs s) :
    ∀ (w : List Byte) (st : Nat), st ≤ text.length → (fin s).acceptFrom none st w = some true → ∃ t, Reads s st w t := by
  intro w
  induction w with
  | nil => intro st _ _; exact ⟨st, rfl⟩
  | cons c w ih =>
    intro st hst ha
    unfold Oracle.acceptFrom at ha
    by_cases hsm : st = text.length
    · have : (fin s).image none st c = none := by
        unfold Oracle.image
        rw [show (fin s).check = text from h.check, if_pos hsm]; rfl
      rw [this] at ha; cases ha
    · rcases image_spec text s lrs h none st hst c (fun e => absurd e hsm) with ⟨t', e, hd', ht'⟩ | ⟨e, hnd⟩
      · rw [e] at ha
        simp only [Option.bind_eq_bind, Option.bind_some] at ha
        obtain ⟨t, hr⟩ := ih t' ht' ha
        exact ⟨t, t', hd', by rw [h.check]; exact ht', hr⟩
      · rw [e] at ha
        simp only [Option.bind_eq_bind, Option.bind_some, Option.pure_def] at ha
        cases ha

/-! ### BOM -/

theorem Reads_fun {s : Builder} : ∀ (w : List Byte) (st t t' : Nat), Reads s st w t → Reads s st w t' → t = t' := by
  intro w
  induction w with
  | nil => intro st t t' h h'; cases h; cases h'; rfl
  | cons c w ih =>
    rintro st t t' ⟨u, h1, _, h2⟩ ⟨v, g1, _, g2⟩
    have := D_fun h1 g1
    subst this
    exact ih _ _ _ h2 g2

theorem Reads_prefix {s : Builder} : ∀ (w v : List Byte) (st t : Nat), Reads s st (w ++ v) t → ∃ u, Reads s st w u := by
  intro w
  induction w with
  | nil => intro v st t _; exact ⟨st, rfl⟩
  | cons c w ih =>
    rintro v st t ⟨u, h1, h2, h3⟩
    obtain ⟨x, hx⟩ := ih v u t h3
    exact ⟨x, u, h1, h2, hx⟩

/-- The letters of `text` from `p` up to `q`, read backwards. -/
def back (text : List Byte) (p q : Nat) : List Byte := ((text.take q).drop p).reverse

theorem back_length (text : List Byte) (p q : Nat) (h : q ≤ text.length) : (back text p q).length = q - p := by
  simp [back]; omega

theorem back_succ (text : List Byte) (p q : Nat) (hp : p ≤ q) (hq : q < text.length) : back text p (q + 1) = text[q] :: back text p q := by
  unfold back
  rw [List.take_succ_eq_append_getElem hq, List.drop_append_of_le_length (by rw [List.length_take]; omega), List.reverse_append]
  rfl

theorem back_self (text : List Byte) (p : Nat) : back text p p = [] := by
  unfold back
  rw [List.drop_eq_nil_of_le (by rw [List.length_take]; omega)]; rfl

theorem bomBack_spec (text : List Byte) (rkey : List Byte) (s : Builder) (lrs : List Nat) (h : LI rkey rkey.length lrs s)
    (g : Byte) (hg : g ∉ text) : ∀ (n st p : Nat), n ≤ p → p ≤ text.length → st ≤ rkey.length →
    ∃ q, bomBack (fin s) (some g) text n st p = some q ∧ p - n ≤ q ∧ q ≤ p ∧ (∃ t, Reads s st (back text q p) t) ∧
      (q = p - n ∨ ∀ t, ¬ Reads s st (back text (q - 1) p) t) := by
  intro n
  induction n with
  | zero =>
    intro st p _ _ _
    exact ⟨p, rfl, by omega, by omega, ⟨st, by rw [back_self]; rfl⟩, Or.inl (by omega)⟩
  | succ n ih =>
    intro st p hnp hp hst
    obtain ⟨p', rfl⟩ : ∃ p', p = p' + 1 := ⟨p - 1, by omega⟩
    unfold bomBack
    rw [Nat.add_sub_cancel, List.getElem?_eq_getElem (by omega)]
    simp only [Option.bind_eq_bind, Option.bind_some]
    have hgc : g ≠ text[p'] := fun e => hg (e ▸ List.getElem_mem _)
    rcases image_spec rkey s lrs h (some g) st hst text[p'] (fun _ => ⟨g, rfl, hgc⟩) with ⟨t, e, hd, ht⟩ | ⟨e, hnd⟩
    · rw [e]
      simp only [Option.bind_some]
      obtain ⟨q, eq, h1, h2, ⟨u, hu⟩, h4⟩ := ih t p' (by omega) (by omega) ht
      refine ⟨q, eq, by omega, by omega, ⟨u, ?_⟩, ?_⟩
      · rw [back_succ _ _ _ (by omega) (by omega)]
        exact ⟨t, hd, by rw [h.check]; exact ht, hu⟩
      · rcases h4 with h4 | h4
        · exact Or.inl (by omega)
        · refine Or.inr fun t' hr => ?_
          rw [back_succ _ _ _ (by omega) (by omega)] at hr
          obtain ⟨v, g1, _, g2⟩ := hr
          have := D_fun hd g1
          subst this
          exact h4 _ g2
    · rw [e]
      simp only [Option.bind_some, Option.pure_def]
      refine ⟨p' + 1, rfl, by omega, by omega, ⟨st, by rw [back_self]; rfl⟩, Or.inr fun t hr => ?_⟩
      rw [Nat.add_sub_cancel, back_succ _ _ _ (by omega) (by omega)] at hr
      obtain ⟨v, g1, g2, _⟩ := hr
      rw [h.check] at g2
      exact hnd v g2 g1

/-- A part of an occurrence of the key, read backwards, is read by the oracle of the reversed key. -/
theorem Occ_reads (key text : List Byte) (s : Builder) (lrs : List Nat) (h : LI key.reverse key.reverse.length lrs s) (i a b : Nat) (ho : Occ key text i)
    (h1 : i ≤ a) (h2 : a ≤ b) (h3 : b ≤ i + key.length) : ∃ t, Reads s 0 (back text a b) t := by
  have hlen := ho.1
  have hrl : key.reverse.length = key.length := List.length_reverse
  obtain ⟨t, ht, _⟩ := h.reads (key.length - (a - i)) (by omega) (i + key.length - b) (by omega)
  refine ⟨t, ?_⟩
  have : back text a b = (key.reverse.take (key.length - (a - i))).drop (i + key.length - b) := by
    apply List.ext_getElem?
    intro x
    have hl1 : (back text a b).length = b - a := back_length _ _ _ (by omega)
    by_cases hx : x < b - a
    · rw [List.getElem?_drop, List.getElem?_take, if_pos (by omega), List.getElem?_reverse (by omega)]
      unfold back
      rw [List.getElem?_reverse (by simp; omega), List.getElem?_drop, List.getElem?_take]
      simp only [List.length_drop, List.length_take]
      rw [if_pos (by omega)]
      have := ho.2 (b - 1 - x - i) (by omega)
      rw [show i + (b - 1 - x - i) = b - 1 - x by omega] at this
      rw [show a + (min b text.length - a - 1 - x) = b - 1 - x by omega, this]
      congr 1
      omega
    · rw [List.getElem?_eq_none (by omega), List.getElem?_eq_none (by simp; omega)]
  rw [this]
  exact ht

theorem bomLoop_spec (key text : List Byte) (hk : key ≠ []) (s : Builder) (lrs : List Nat)
    (h : LI key.reverse key.reverse.length lrs s) (g : Byte) (hg : g ∉ text) : ∀ (k j : Nat) (acc : List Nat), text.length - j ≤ k →
    Found key text j acc →
    ∃ r, bomLoop (fin s) (some g) text key.length (j + (key.length - 1)) acc = some r ∧ r.Pairwise (· < ·) ∧ ∀ p, p ∈ r ↔ Occ key text p := by
  have hkp : 0 < key.length := List.length_pos_iff.2 hk
  have hrl : key.reverse.length = key.length := List.length_reverse
  intro k
  induction k with
  | zero =>
    intro j acc hj hf
    unfold bomLoop
    rw [dif_neg (by omega)]
    exact ⟨acc, rfl, PM.Found_done hf (by omega)⟩
  | succ k ih =>
    intro j acc hj hf
    unfold bomLoop
    by_cases hi : j + (key.length - 1) < text.length
    · rw [dif_pos hi]
      obtain ⟨q, e, h1, h2, ⟨t, ht⟩, h4⟩ := bomBack_spec text key.reverse s lrs h g hg key.length 0 (j + (key.length - 1) + 1) (by omega) (by omega)
        (by omega)
      rw [e]
      simp only
      by_cases hq : q + key.length = j + (key.length - 1) + 1
      · rw [if_pos hq]
        have hqj : q = j := by omega
        subst hqj
        have hl := Reads_len h.inv h.check _ _ _ (by omega) ht
        rw [back_length _ _ _ (by omega)] at hl
        have hw := hl.2 (by omega)
        have hocc : Occ key text q := by
          refine ⟨by omega, fun x hx => ?_⟩
          have h5 : (text.take (q + (key.length - 1) + 1)).drop q = key := by
            have := congrArg List.reverse hw
            simpa [back] using this
          have h6 := congrArg (·[x]?) h5
          simp only [List.getElem?_drop, List.getElem?_take] at h6
          rw [if_pos (by omega)] at h6
          exact h6
        rw [show q + (key.length - 1) + 1 = q + 1 + (key.length - 1) by omega, show q + 1 + (key.length - 1) - key.length = q by omega]
        exact ih (q + 1) _ (by omega) (PM.Found_hit hf hocc)
      · rw [if_neg hq]
        have hq0 : 0 < q := by omega
        rw [dif_pos (by omega)]
        rw [show q - 1 + key.length = q + (key.length - 1) by omega]
        refine ih q _ (by omega) (PM.Found_skip hf (by omega) fun p hp1 hp2 ho => ?_)
        rcases h4 with h4 | h4
        · omega
        · obtain ⟨t', ht'⟩ := Occ_reads key text s lrs h p (q - 1) (j + (key.length - 1) + 1) ho (by omega) (by omega) (by omega)
          exact h4 t' ht'
    · rw [dif_neg hi]
      exact ⟨acc, rfl, PM.Found_done hf (by omega)⟩

end Verif.FO
