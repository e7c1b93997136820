/-
One level of the construction: the codes of the characters put all edges at different places.
-/
import Verif.Samc.Check

namespace Verif.Samc
open Verif.BV Verif.Serial
open Verif.Bits (W64)

theorem set_bv {v : BVec} (hw : v.words.length = wordSize v.size) {i : Nat} (hi : i < v.size) (b : Bool) :
    ∃ v', v.set i b = some v' ∧ v'.size = v.size ∧ v'.words.length = wordSize v'.size ∧
      ∀ j, j < v.size → bitAt v'.words j = if j = i then b else bitAt v.words j := by
  have hr : Rep v ((List.range v.size).map (bitAt v.words)) := ⟨by simp, hw, fun i h => by simp⟩
  obtain ⟨v', e, r⟩ := rep_step v _ (.set i b) hr (by simpa [specOk] using hi)
  have hs := r.size
  simp only [specStep, List.length_set, List.length_map, List.length_range] at hs
  refine ⟨v', e, hs, r.words, ?_⟩
  intro j hj
  have := r.bits j (by simp [specStep]; omega)
  rw [this]
  simp only [specStep, List.getElem_set, List.getElem_map, List.getElem_range]
  by_cases h : i = j
  · rw [if_pos h, if_pos h.symm]
  · rw [if_neg h, if_neg (Ne.symm h)]

theorem grow_bv {v : BVec} (hw : v.words.length = wordSize v.size) (n : Nat) :
    ∃ v', grow v n = some v' ∧ v'.size = max v.size n ∧ v'.words.length = wordSize v'.size ∧
      ∀ j, j < v'.size → bitAt v'.words j = if j < v.size then bitAt v.words j else true := by
  unfold grow
  split
  · rename_i hlt
    have hr : Rep v ((List.range v.size).map (bitAt v.words)) := ⟨by simp, hw, fun i h => by simp⟩
    obtain ⟨v', e, r⟩ := rep_step v _ (.resize n true) hr trivial
    have hs := r.size
    simp only [specStep, List.length_append, List.length_take, List.length_map, List.length_range, List.length_replicate] at hs
    refine ⟨v', e, by omega, r.words, ?_⟩
    intro j hj
    have := r.bits j (by simp [specStep]; omega)
    rw [this]
    simp only [specStep]
    rw [List.getElem_append]
    split
    · rename_i h
      simp only [List.length_take, List.length_map, List.length_range] at h
      rw [if_pos (by omega)]
      simp
    · rename_i h
      simp only [List.length_take, List.length_map, List.length_range] at h
      rw [if_neg (by omega)]
      simp
  · refine ⟨v, rfl, by omega, hw, ?_⟩
    intro j hj
    rw [if_pos hj]

theorem place_spec (h0 h1 : Nat) (c : Byte) (code : Nat) (hh : h1 ≤ 2 ^ 64) : ∀ (es : List (Nat × List Key)) (s : Lv),
    s.bv.words.length = wordSize s.bv.size → s.mh ≤ s.bv.size →
    (∀ e ∈ es, h1 ≤ h0 + e.1 + code ∧ h0 + e.1 + code - h1 < s.bv.size ∧ h0 + e.1 + code < 2 ^ 64) →
    ∃ s', place h0 h1 c code es s = some s' ∧ s'.bv.size = s.bv.size ∧ s'.bv.words.length = wordSize s'.bv.size ∧
      (∀ x, x < s.bv.size → (bitAt s'.bv.words x = false ↔ bitAt s.bv.words x = false ∨ ∃ e ∈ es, h0 + e.1 + code = h1 + x)) ∧
      s.mh ≤ s'.mh ∧ s'.mh ≤ s.bv.size ∧ (∀ e ∈ es, h0 + e.1 + code - h1 < s'.mh) ∧
      (∀ B, s.mh ≤ B → (∀ e ∈ es, h0 + e.1 + code - h1 < B) → s'.mh ≤ B) ∧
      s'.codes = s.codes ∧ s'.map = s.map ++ es.map (fun e => (h0 + e.1 + code, c)) ∧
      s'.queue = s.queue ++ if c ≠ 0 then es.map (fun e => (h0 + e.1 + code, e.2)) else []
  | [], s, hw, hm, _ => ⟨s, rfl, rfl, hw, by simp, Nat.le_refl _, hm, by simp, fun B h _ => h, rfl, by simp, by simp⟩
  | (i, node) :: es, s, hw, hm, h => by
    obtain ⟨a1, a2, a3⟩ := h (i, node) (List.mem_cons_self ..)
    have e1 : (h0 + i + code) % 2 ^ 64 = h0 + i + code := Nat.mod_eq_of_lt a3
    have e2 : (h0 + i + code + 2 ^ 64 - h1) % 2 ^ 64 = h0 + i + code - h1 := by
      simp only at a1 a3
      rw [show h0 + i + code + 2 ^ 64 - h1 = h0 + i + code - h1 + 2 ^ 64 by omega, Nat.add_mod_right]
      exact Nat.mod_eq_of_lt (by omega)
    obtain ⟨v, ev, vs, vw, vb⟩ := set_bv hw a2 false
    simp only at a1 a2 a3 ev vb
    obtain ⟨s', es', b1, b2, b3, b4, b5, b6, b7, b8, b9, b10⟩ := place_spec h0 h1 c code hh es
      { s with bv := v, mh := max s.mh (h0 + i + code - h1 + 1), map := s.map ++ [(h0 + i + code, c)],
               queue := if c ≠ 0 then s.queue ++ [(h0 + i + code, node)] else s.queue }
      vw (by simp only; omega) (fun e he => by
        have := h e (List.mem_cons_of_mem _ he)
        simp only
        rw [vs]
        exact this)
    simp only at b1 b3 b4 b5 b6 b7 b8 b9 b10
    refine ⟨s', ?_, by omega, b2, ?_, by omega, by omega, ?_, ?_, b8, ?_, ?_⟩
    · simp only [place, e1, e2, ev, Option.bind_eq_bind, Option.bind_some]
      exact es'
    · intro x hx
      rw [b3 x (by omega), vb x hx]
      simp only [List.mem_cons, exists_eq_or_imp]
      by_cases hxi : x = h0 + i + code - h1
      · rw [if_pos hxi]
        have : h0 + i + code = h1 + x := by omega
        simp [this]
      · rw [if_neg hxi]
        have : ¬ h0 + i + code = h1 + x := by omega
        simp [this]
    · intro e he
      rcases List.mem_cons.1 he with rfl | he
      · simp only; omega
      · exact b6 e he
    · intro B hB hb
      refine b7 B ?_ (fun e he => hb e (List.mem_cons_of_mem _ he))
      have := hb (i, node) (List.mem_cons_self ..)
      simp only at this
      omega
    · rw [b9]; simp
    · rw [b10]
      split <;> simp

/-- The edges of a level: label, index in the block of the parents, strings. -/
abbrev Edge := Byte × Nat × List Key

/-- State after the characters below `c`, with `prev` the height of the block of the parents. -/
structure LInv (h0 prev : Nat) (es : List Edge) (map0 : List (Nat × Byte)) (c : Nat) (s : Lv) : Prop where
  wf : s.bv.words.length = wordSize s.bv.size
  mhle : s.mh ≤ s.bv.size
  mhb : s.mh ≤ prev + es.length * es.length
  len : s.codes.length = 256
  small : ∀ c', s.codes.getD c' 0 ≤ prev + es.length * es.length
  zero : ∀ c', (c ≤ c' ∨ ∀ e ∈ es, e.1.toNat ≠ c') → s.codes.getD c' 0 = 0
  pos : ∀ e ∈ es, e.1.toNat < c → prev ≤ e.2.1 + s.codes.getD e.1.toNat 0 ∧ e.2.1 + s.codes.getD e.1.toNat 0 - prev < s.mh
  inj : ∀ e ∈ es, ∀ e' ∈ es, e.1.toNat < c → e'.1.toNat < c →
    e.2.1 + s.codes.getD e.1.toNat 0 = e'.2.1 + s.codes.getD e'.1.toNat 0 → e.1 = e'.1
  used : ∀ x, x < s.bv.size → (bitAt s.bv.words x = false ↔ ∃ e ∈ es, e.1.toNat < c ∧ e.2.1 + s.codes.getD e.1.toNat 0 = prev + x)
  map : ∃ M, s.map = map0 ++ M ∧ ∀ p, p ∈ M ↔ ∃ e ∈ es, e.1.toNat < c ∧ p = (h0 + e.2.1 + s.codes.getD e.1.toNat 0, e.1)
  queue : ∀ p, p ∈ s.queue ↔ ∃ e ∈ es, e.1.toNat < c ∧ e.1 ≠ 0 ∧ p = (h0 + e.2.1 + s.codes.getD e.1.toNat 0, e.2.2)
  qsum : (s.queue.map (fun q => q.2.length)).sum + ((es.filter (fun e => c ≤ e.1.toNat)).map (fun e => e.2.2.length)).sum ≤
    (es.map (fun e => e.2.2.length)).sum

theorem sum_split (es : List Edge) (c : Nat) :
    ((es.filter (fun e => c ≤ e.1.toNat)).map (fun e => e.2.2.length)).sum =
      ((es.filter (fun e => e.1.toNat = c)).map (fun e => e.2.2.length)).sum +
      ((es.filter (fun e => c + 1 ≤ e.1.toNat)).map (fun e => e.2.2.length)).sum := by
  induction es with
  | nil => rfl
  | cons e es ih =>
    simp only [List.filter_cons]
    rcases Nat.lt_trichotomy e.1.toNat c with h | h | h
    · have h1 : ¬ c ≤ e.1.toNat := by omega
      have h2 : ¬ e.1.toNat = c := by omega
      have h3 : ¬ c + 1 ≤ e.1.toNat := by omega
      simp only [h1, h2, h3, decide_false]
      exact ih
    · have h3 : ¬ c + 1 ≤ c := by omega
      simp only [h, h3, decide_false, decide_true, Bool.false_eq_true, if_false, if_true, Nat.le_refl, List.map_cons, List.sum_cons]
      omega
    · have h1 : c ≤ e.1.toNat := by omega
      have h2 : ¬ e.1.toNat = c := by omega
      have h3 : c + 1 ≤ e.1.toNat := by omega
      simp only [h1, h2, h3, decide_false, decide_true, Bool.false_eq_true, if_false, if_true, List.map_cons, List.sum_cons]
      omega

theorem charStep_inv {W : Nat} {legacy : Bool} {h0 h1 : Nat} {es : List Edge} {map0 : List (Nat × Byte)} (hlt : h0 < h1)
    (hW : W ≤ 64) (hbig : h1 + (h1 - h0) + es.length * es.length < 2 ^ W) (hidx : ∀ e ∈ es, e.2.1 < h1 - h0) {c : Nat} (hc : c < 256) {s : Lv}
    (h : LInv h0 (h1 - h0) es map0 c s) : ∃ s', charStep W legacy h0 h1 es c s = some s' ∧ LInv h0 (h1 - h0) es map0 (c + 1) s' := by
  unfold charStep
  simp only
  have hW64 : 2 ^ W ≤ 2 ^ 64 := Nat.pow_le_pow_right (by decide) hW
  by_cases hg : (es.filter (fun e => e.1.toNat = c)).map Prod.snd = []
  · rw [if_pos hg]
    have hnone : ∀ e ∈ es, e.1.toNat ≠ c := by
      intro e he hec
      have : e.2 ∈ (es.filter (fun e => e.1.toNat = c)).map Prod.snd := List.mem_map.2 ⟨e, List.mem_filter.2 ⟨he, by simpa using hec⟩, rfl⟩
      rw [hg] at this
      simp at this
    have hiff : ∀ e ∈ es, (e.1.toNat < c + 1 ↔ e.1.toNat < c) := by
      intro e he
      have := hnone e he
      omega
    refine ⟨s, rfl, h.wf, h.mhle, h.mhb, h.len, h.small, ?_, ?_, ?_, ?_, ?_, ?_, ?_⟩
    · rintro c' (h' | h')
      · exact h.zero c' (Or.inl (by omega))
      · exact h.zero c' (Or.inr h')
    · intro e he hec
      exact h.pos e he ((hiff e he).1 hec)
    · intro e he e' he' hec hec'
      exact h.inj e he e' he' ((hiff e he).1 hec) ((hiff e' he').1 hec')
    · intro x hx
      rw [h.used x hx]
      constructor
      · rintro ⟨e, he, h1, h2⟩; exact ⟨e, he, (hiff e he).2 h1, h2⟩
      · rintro ⟨e, he, h1, h2⟩; exact ⟨e, he, (hiff e he).1 h1, h2⟩
    · obtain ⟨M, e1, e2⟩ := h.map
      refine ⟨M, e1, fun p => ?_⟩
      rw [e2 p]
      constructor
      · rintro ⟨e, he, h1, h2⟩; exact ⟨e, he, (hiff e he).2 h1, h2⟩
      · rintro ⟨e, he, h1, h2⟩; exact ⟨e, he, (hiff e he).1 h1, h2⟩
    · intro p
      rw [h.queue p]
      constructor
      · rintro ⟨e, he, h1, h2⟩; exact ⟨e, he, (hiff e he).2 h1, h2⟩
      · rintro ⟨e, he, h1, h2⟩; exact ⟨e, he, (hiff e he).1 h1, h2⟩
    · have := h.qsum
      rw [sum_split] at this
      omega
  · rw [if_neg hg]
    generalize hG : es.filter (fun e => e.1.toNat = c) = G at hg ⊢
    have hmem : ∀ e, e ∈ G ↔ e ∈ es ∧ e.1.toNat = c := by
      intro e
      rw [← hG, List.mem_filter]
      simp
    have hGlen : G.length ≤ es.length := by rw [← hG]; exact List.length_filter_le ..
    have hidsne : (G.map Prod.snd).map Prod.fst ≠ [] := by
      intro hc
      exact hg (List.map_eq_nil_iff.1 hc)
    generalize hids : (G.map Prod.snd).map Prod.fst = ids at hidsne ⊢
    have hidm : ∀ i, i ∈ ids ↔ ∃ e ∈ G, e.2.1 = i := by
      intro i
      rw [← hids]
      simp only [List.map_map, List.mem_map, Function.comp]
    have hidlen : ids.length ≤ es.length := by rw [← hids]; simpa using hGlen
    obtain ⟨bv, ebv, bs, bw, bb⟩ := grow_bv h.wf (s.mh + (1 + lmax ids - lmin ids))
    have hmn := (hidm _).1 (lmin_mem ids hidsne)
    obtain ⟨em, hem, hemi⟩ := hmn
    have hmnlt : lmin ids < h1 - h0 := by
      rw [← hemi]
      exact hidx em ((hmem em).1 hem).1
    have hmx := (hidm _).1 (lmax_mem ids hidsne)
    obtain ⟨ex, hex, hexi⟩ := hmx
    have hmxlt : lmax ids < h1 - h0 := by
      rw [← hexi]
      exact hidx ex ((hmem ex).1 hex).1
    have hmm := le_lmax ids _ (lmin_mem ids hidsne)
    have hbit : ∀ x, x < bv.size → (bitAt bv.words x = false ↔
        ∃ e ∈ es, e.1.toNat < c ∧ e.2.1 + s.codes.getD e.1.toNat 0 = (h1 - h0) + x) := by
      intro x hx
      rw [bb x hx]
      split
      · rename_i hlt
        exact h.used x hlt
      · rename_i hge
        simp only [Bool.true_eq_false, false_iff]
        rintro ⟨e, he, h2, h3⟩
        have := (h.pos e he h2).2
        have := h.mhle
        omega
    obtain ⟨y, y1, y2, y3, y4⟩ := yFront_spec legacy bw ids hidsne s.mh
      ((es.filter (fun e => e.1.toNat < c)).map (fun e => e.2.1 + s.codes.getD e.1.toNat 0 - (h1 - h0))) (by omega)
      (by
        intro x hx1 hx2
        by_contra hcon
        have hcon' : bitAt bv.words x = false := by simpa using hcon
        obtain ⟨e, he, h2, h3⟩ := (hbit x hx2).1 hcon'
        have := (h.pos e he h2).2
        omega)
      (by
        intro x hx hf
        obtain ⟨e, he, h2, h3⟩ := (hbit x hx).1 hf
        exact List.mem_map.2 ⟨e, List.mem_filter.2 ⟨he, by simpa using h2⟩, by omega⟩)
    have hyb : y ≤ es.length * es.length := by
      refine Nat.le_trans y2 (Nat.mul_le_mul hidlen ?_)
      rw [List.length_map]
      exact List.length_filter_le ..
    have hcode : (((codeSub W h1 h0 : Nat) + ((y : Int) - lmin ids)) % 2 ^ 64 : Int).toNat = (h1 - h0) + y - lmin ids := by
      have e1 : codeSub W h1 h0 = h1 - h0 := by unfold codeSub; rw [if_pos (by omega)]
      rw [e1, show ((h1 - h0 : Nat) : Int) + ((y : Int) - lmin ids) = (((h1 - h0) + y - lmin ids : Nat) : Int) by omega]
      have : (((h1 - h0) + y - lmin ids : Nat) : Int) % 2 ^ 64 = (((h1 - h0) + y - lmin ids : Nat) : Int) := by
        refine Int.emod_eq_of_lt (by omega) ?_
        have : (h1 - h0) + y - lmin ids < 2 ^ 64 := by omega
        exact_mod_cast this
      rw [this]
      rfl
    generalize hcd : (h1 - h0) + y - lmin ids = code at hcode
    have hcW : code % 2 ^ W = code := Nat.mod_eq_of_lt (by omega)
    simp only [ebv, y4, hcode, hcW, Option.bind_eq_bind, Option.bind_some, wr_eq s.codes c code (by rw [h.len]; exact hc)]
    have hGi : ∀ e ∈ G, lmin ids ≤ e.2.1 ∧ e.2.1 ≤ lmax ids ∧ e.2.1 + code = (h1 - h0) + (y + (e.2.1 - lmin ids)) := by
      intro e he
      have hi := (hidm e.2.1).2 ⟨e, he, rfl⟩
      have := lmin_le ids _ hi
      have := le_lmax ids _ hi
      omega
    obtain ⟨s', es', p1, p2, p3, p4, p5, p6, p7, p8, p9, p10⟩ := place_spec h0 h1 (BitVec.ofNat 8 c) code (by omega) (G.map Prod.snd)
      { s with bv := bv, codes := s.codes.set c code } bw (by simp only; omega) (by
        intro e0 he0
        obtain ⟨e, he, rfl⟩ := List.mem_map.1 he0
        have := hGi e he
        simp only
        have := hidx e ((hmem e).1 he).1
        omega)
    simp only at p1 p3 p4 p5 p6 p7 p8 p9 p10
    refine ⟨s', es', ?_⟩
    have hK : ∀ c', s'.codes.getD c' 0 = if c' = c then code else s.codes.getD c' 0 := by
      intro c'
      rw [p8, List.getD_eq_getElem?_getD, List.getElem?_set, List.getD_eq_getElem?_getD]
      by_cases hcc : c' = c
      · subst hcc
        rw [if_pos rfl, if_pos (by rw [h.len]; exact hc), if_pos rfl]
        rfl
      · rw [if_neg (Ne.symm hcc), if_neg hcc]
    have hKlt : ∀ c', c' < c → s'.codes.getD c' 0 = s.codes.getD c' 0 := by
      intro c' h'
      rw [hK, if_neg (by omega)]
    have hKc : s'.codes.getD c 0 = code := by rw [hK, if_pos rfl]
    have hlc : ∀ e ∈ es, e.1.toNat < c + 1 → e.1.toNat < c ∨ e ∈ G := by
      intro e he hec
      by_cases h' : e.1.toNat = c
      · exact Or.inr ((hmem e).2 ⟨he, h'⟩)
      · exact Or.inl (by omega)
    have hlab : ∀ e ∈ G, e.1 = BitVec.ofNat 8 c := by
      intro e he
      have := ((hmem e).1 he).2
      rw [← this]
      simp
    have hnew : ∀ e ∈ G, ∀ e' ∈ es, e'.1.toNat < c → e.2.1 + code ≠ e'.2.1 + s.codes.getD e'.1.toNat 0 := by
      intro e he e' he' hc' heq
      have h2 := hGi e he
      have h3 := y3 e.2.1 ((hidm _).2 ⟨e, he, rfl⟩)
      have h4 : bitAt bv.words (y + (e.2.1 - lmin ids)) = false := (hbit _ (by omega)).2 ⟨e', he', hc', by omega⟩
      rw [h3] at h4
      exact absurd h4 (by simp)
    constructor
    · exact p2
    · omega
    · refine p7 _ h.mhb ?_
      intro e0 he0
      obtain ⟨e, he, rfl⟩ := List.mem_map.1 he0
      have := hGi e he
      have := hidx e ((hmem e).1 he).1
      omega
    · rw [p8, List.length_set]; exact h.len
    · intro c'
      rw [hK]
      split
      · omega
      · exact h.small c'
    · intro c' hc'
      have hne : c' ≠ c := by
        rintro rfl
        rcases hc' with hc' | hc'
        · omega
        · exact hc' em ((hmem em).1 hem).1 ((hmem em).1 hem).2
      rw [hK, if_neg hne]
      refine h.zero c' (hc'.imp ?_ id)
      omega
    · intro e he hec
      rcases hlc e he hec with h' | h'
      · rw [hKlt _ h']
        have := h.pos e he h'
        omega
      · rw [((hmem e).1 h').2, hKc]
        have h2 := hGi e h'
        have h3 := p6 e.2 (List.mem_map.2 ⟨e, h', rfl⟩)
        omega
    · intro e he e' he' hec hec' heq
      rcases hlc e he hec with h' | h' <;> rcases hlc e' he' hec' with h'' | h''
      · rw [hKlt _ h', hKlt _ h''] at heq
        exact h.inj e he e' he' h' h'' heq
      · rw [hKlt _ h', ((hmem e').1 h'').2, hKc] at heq
        exact absurd heq.symm (hnew e' h'' e he h')
      · rw [hKlt _ h'', ((hmem e).1 h').2, hKc] at heq
        exact absurd heq (hnew e h' e' he' h'')
      · rw [hlab e h', hlab e' h'']
    · intro x hx
      rw [p3 x (by omega), hbit x (by omega)]
      constructor
      · rintro (⟨e, he, h2, h3⟩ | ⟨e0, he0, h2⟩)
        · exact ⟨e, he, by omega, by rw [hKlt _ h2]; exact h3⟩
        · obtain ⟨e, he, rfl⟩ := List.mem_map.1 he0
          refine ⟨e, ((hmem e).1 he).1, ?_, ?_⟩
          · rw [((hmem e).1 he).2]; omega
          · rw [((hmem e).1 he).2, hKc]; omega
      · rintro ⟨e, he, h2, h3⟩
        rcases hlc e he h2 with h' | h'
        · left
          exact ⟨e, he, h', by rw [← hKlt _ h']; exact h3⟩
        · right
          rw [((hmem e).1 h').2, hKc] at h3
          exact ⟨e.2, List.mem_map.2 ⟨e, h', rfl⟩, by omega⟩
    · obtain ⟨M, e1, e2⟩ := h.map
      refine ⟨M ++ (G.map Prod.snd).map (fun e => (h0 + e.1 + code, BitVec.ofNat 8 c)), by rw [p9, e1, List.append_assoc], ?_⟩
      intro p
      rw [List.mem_append, e2 p]
      constructor
      · rintro (⟨e, he, h2, h3⟩ | hp)
        · exact ⟨e, he, by omega, by rw [hKlt _ h2]; exact h3⟩
        · simp only [List.map_map, List.mem_map, Function.comp] at hp
          obtain ⟨e, he, rfl⟩ := hp
          refine ⟨e, ((hmem e).1 he).1, ?_, ?_⟩
          · rw [((hmem e).1 he).2]; omega
          · rw [((hmem e).1 he).2, hKc, hlab e he]
      · rintro ⟨e, he, h2, h3⟩
        rcases hlc e he h2 with h' | h'
        · left
          exact ⟨e, he, h', by rw [← hKlt _ h']; exact h3⟩
        · right
          rw [((hmem e).1 h').2, hKc] at h3
          simp only [List.map_map, List.mem_map, Function.comp]
          exact ⟨e, h', by rw [h3, hlab e h']⟩
    · intro p
      rw [p10, List.mem_append, h.queue p]
      constructor
      · rintro (⟨e, he, h2, h3, h4⟩ | hp)
        · exact ⟨e, he, by omega, h3, by rw [hKlt _ h2]; exact h4⟩
        · split at hp
          · rename_i hnz
            simp only [List.map_map, List.mem_map, Function.comp] at hp
            obtain ⟨e, he, rfl⟩ := hp
            refine ⟨e, ((hmem e).1 he).1, ?_, ?_, ?_⟩
            · rw [((hmem e).1 he).2]; omega
            · rw [hlab e he]; exact hnz
            · rw [((hmem e).1 he).2, hKc]
          · simp at hp
      · rintro ⟨e, he, h2, h3, h4⟩
        rcases hlc e he h2 with h' | h'
        · left
          exact ⟨e, he, h', h3, by rw [← hKlt _ h']; exact h4⟩
        · right
          rw [((hmem e).1 h').2, hKc] at h4
          rw [if_pos (by rw [← hlab e h']; exact h3)]
          simp only [List.map_map, List.mem_map, Function.comp]
          exact ⟨e, h', h4.symm⟩
    · have hq := h.qsum
      rw [sum_split, hG] at hq
      rw [p10]
      have : ((if BitVec.ofNat 8 c ≠ 0 then (G.map Prod.snd).map (fun e => (h0 + e.1 + code, e.2)) else []).map
          (fun q : Nat × List Key => q.2.length)).sum ≤ (G.map (fun e => e.2.2.length)).sum := by
        split
        · simp only [List.map_map]
          exact Nat.le_refl _
        · simp
      rw [List.map_append, List.sum_append]
      omega

theorem charLoop_inv {W : Nat} {legacy : Bool} {h0 h1 : Nat} {es : List Edge} {map0 : List (Nat × Byte)} (hlt : h0 < h1)
    (hW : W ≤ 64) (hbig : h1 + (h1 - h0) + es.length * es.length < 2 ^ W) (hidx : ∀ e ∈ es, e.2.1 < h1 - h0) :
    ∀ (n c : Nat) (s : Lv), c + n = 256 → LInv h0 (h1 - h0) es map0 c s →
      ∃ s', charLoop W legacy h0 h1 es n c s = some s' ∧ LInv h0 (h1 - h0) es map0 256 s'
  | 0, c, s, hc, h => ⟨s, rfl, by rw [show c = 256 by omega] at h; exact h⟩
  | n + 1, c, s, hc, h => by
    obtain ⟨s1, e1, h1'⟩ := charStep_inv (legacy := legacy) hlt hW hbig hidx (c := c) (by omega) h
    obtain ⟨s2, e2, h2⟩ := charLoop_inv (legacy := legacy) hlt hW hbig hidx n (c + 1) s1 (by omega) h1'
    exact ⟨s2, by simp only [charLoop, e1, Option.bind_eq_bind, Option.bind_some, e2], h2⟩

theorem linv_start (h0 prev : Nat) (es : List Edge) (map0 : List (Nat × Byte)) :
    LInv h0 prev es map0 0 ⟨BV.empty, 0, List.replicate 256 0, map0, []⟩ := by
  have hz : ∀ c', (List.replicate 256 0).getD c' 0 = 0 := by
    intro c'
    rw [List.getD_eq_getElem?_getD, List.getElem?_replicate]
    split <;> rfl
  have hl : (List.replicate 256 0).length = 256 := List.length_replicate
  generalize List.replicate 256 0 = R at hz hl ⊢
  refine ⟨rfl, Nat.le_refl _, Nat.zero_le _, hl, ?_, ?_, ?_, ?_, ?_, ?_, ?_, ?_⟩
  · intro c'; simp only [hz]; omega
  · intro c' _; exact hz c'
  · intro e _ h; omega
  · intro e _ e' _ h; omega
  · intro x hx; simp [BV.empty] at hx
  · exact ⟨[], by simp, by simp⟩
  · simp
  · simp

end Verif.Samc
