/-
The constructor of Samc gives every character the least code that fits, and every depth the least height. So the object is determined by the set of
the keys: order, repetitions and the kind of search do not matter.
-/
import Verif.Samc.Fits

namespace Verif.Samc
open Verif.BV Verif.Serial

/-- Both searches give the first place that fits. -/
theorem yFront_first (legacy : Bool) {e : BVec} (hw : e.words.length = wordSize e.size) (ids : List Nat) (hne : ids ≠ []) (mh y : Nat)
    (hsz : mh + (1 + lmax ids - lmin ids) ≤ e.size) (hle : y ≤ mh) (hy : FitsAt (bitAt e.words) ids (lmin ids) y)
    (hmin : ∀ z, z < y → ¬ FitsAt (bitAt e.words) ids (lmin ids) z) : yFront legacy ids e = some ((y : Int) - lmin ids) := by
  have hmm : ∀ id ∈ ids, lmin ids ≤ id ∧ id ≤ lmax ids := fun id h => ⟨lmin_le _ _ h, le_lmax _ _ h⟩
  have hmx := hmm _ (lmax_mem ids hne)
  unfold yFront
  cases legacy with
  | true =>
    rw [if_pos rfl]
    exact legacyLoop_spec hw ids y hy hmin (fun id hid => by have := hmm id hid; omega) _ 0 (by omega) (by omega)
  | false =>
    rw [if_neg (by simp)]
    unfold yCheck
    have hf := hmm (ids.headD 0) (by cases ids with | nil => exact absurd rfl hne | cons a l => simp)
    have hl := hmm (ids.getLastD 0) (by
      cases ids with
      | nil => exact absurd rfl hne
      | cons a l => rw [List.getLastD_cons]; exact List.getLastD_mem_cons)
    exact yLoop_spec (by omega) hw ids y hy hmin _ 0 (by omega) (by omega)

/-- After the characters below `c`: the codes are the least ones, and the height is the least one. -/
structure LTight (prev : Nat) (es : List Edge) (c : Nat) (s : Lv) : Prop where
  first : ∀ e ∈ es, e.1.toNat < c → ∀ m, m < s.codes.getD e.1.toNat 0 → (∀ e1 ∈ es, e1.1 = e.1 → prev ≤ e1.2.1 + m) →
    ∃ e1 ∈ es, e1.1 = e.1 ∧ ∃ e2 ∈ es, e2.1.toNat < e.1.toNat ∧ e1.2.1 + m = e2.2.1 + s.codes.getD e2.1.toNat 0
  top : s.mh = 0 ∨ ∃ e ∈ es, e.1.toNat < c ∧ e.2.1 + s.codes.getD e.1.toNat 0 + 1 = prev + s.mh

theorem charStep_tight {W : Nat} {legacy : Bool} {h0 h1 : Nat} {es : List Edge} {map0 : List (Nat × Byte)} (hlt : h0 < h1)
    (hW : W ≤ 64) (hbig : h1 + (h1 - h0) + es.length * es.length < 2 ^ W) (hidx : ∀ e ∈ es, e.2.1 < h1 - h0) {c : Nat} (hc : c < 256) {s : Lv}
    (h : LInv h0 (h1 - h0) es map0 c s) (ht : LTight (h1 - h0) es c s) :
    ∃ s', charStep W legacy h0 h1 es c s = some s' ∧ LTight (h1 - h0) es (c + 1) s' := by
  unfold charStep
  simp only
  have hW64 : 2 ^ W ≤ 2 ^ 64 := Nat.pow_le_pow_right (by decide) hW
  by_cases hg : (es.filter (fun e => e.1.toNat = c)).map Prod.snd = []
  · rw [if_pos hg]
    have hnone : ∀ e ∈ es, e.1.toNat ≠ c := by
      intro e he hec
      have : e.2 ∈ (es.filter (fun e => e.1.toNat = c)).map Prod.snd := List.mem_map.2 ⟨e, List.mem_filter.2 ⟨he, by simpa using hec⟩, rfl⟩
      rw [hg] at this
      simp at this
    refine ⟨s, rfl, ?_, ?_⟩
    · intro e he hec
      exact ht.first e he (by have := hnone e he; omega)
    · rcases ht.top with h' | ⟨e, he, h', h''⟩
      · exact Or.inl h'
      · exact Or.inr ⟨e, he, by omega, h''⟩
  · rw [if_neg hg]
    generalize hG : es.filter (fun e => e.1.toNat = c) = G at hg ⊢
    have hmem : ∀ e, e ∈ G ↔ e ∈ es ∧ e.1.toNat = c := by
      intro e
      rw [← hG, List.mem_filter]
      simp
    have hGlen : G.length ≤ es.length := by rw [← hG]; exact List.length_filter_le ..
    have hidsne : (G.map Prod.snd).map Prod.fst ≠ [] := by
      intro hc
      exact hg (List.map_eq_nil_iff.1 hc)
    generalize hids : (G.map Prod.snd).map Prod.fst = ids at hidsne ⊢
    have hidm : ∀ i, i ∈ ids ↔ ∃ e ∈ G, e.2.1 = i := by
      intro i
      rw [← hids]
      simp only [List.map_map, List.mem_map, Function.comp]
    have hidlen : ids.length ≤ es.length := by rw [← hids]; simpa using hGlen
    obtain ⟨bv, ebv, bs, bw, bb⟩ := grow_bv h.wf (s.mh + (1 + lmax ids - lmin ids))
    have hmn := (hidm _).1 (lmin_mem ids hidsne)
    obtain ⟨em, hem, hemi⟩ := hmn
    have hmnlt : lmin ids < h1 - h0 := by
      rw [← hemi]
      exact hidx em ((hmem em).1 hem).1
    have hmx := (hidm _).1 (lmax_mem ids hidsne)
    obtain ⟨ex, hex, hexi⟩ := hmx
    have hmxlt : lmax ids < h1 - h0 := by
      rw [← hexi]
      exact hidx ex ((hmem ex).1 hex).1
    have hmm := le_lmax ids _ (lmin_mem ids hidsne)
    have hbit : ∀ x, x < bv.size → (bitAt bv.words x = false ↔
        ∃ e ∈ es, e.1.toNat < c ∧ e.2.1 + s.codes.getD e.1.toNat 0 = (h1 - h0) + x) := by
      intro x hx
      rw [bb x hx]
      split
      · rename_i hlt
        exact h.used x hlt
      · rename_i hge
        simp only [Bool.true_eq_false, false_iff]
        rintro ⟨e, he, h2, h3⟩
        have := (h.pos e he h2).2
        have := h.mhle
        omega
    have hfree : ∀ x, s.mh ≤ x → x < bv.size → bitAt bv.words x = true := by
      intro x hx1 hx2
      by_contra hcon
      have hcon' : bitAt bv.words x = false := by simpa using hcon
      obtain ⟨e, he, h2, h3⟩ := (hbit x hx2).1 hcon'
      have := (h.pos e he h2).2
      omega
    have hf0 : FitsAt (bitAt bv.words) ids (lmin ids) s.mh := by
      intro id hid
      have := lmin_le _ _ hid
      have := le_lmax _ _ hid
      exact hfree _ (by omega) (by omega)
    obtain ⟨y, y1, y3, hymin⟩ : ∃ y, y ≤ s.mh ∧ FitsAt (bitAt bv.words) ids (lmin ids) y ∧
        ∀ z, z < y → ¬ FitsAt (bitAt bv.words) ids (lmin ids) z := by
      classical
      have hex : ∃ y, FitsAt (bitAt bv.words) ids (lmin ids) y := ⟨s.mh, hf0⟩
      exact ⟨Nat.find hex, Nat.find_min' hex hf0, Nat.find_spec hex, fun z hz => Nat.find_min hex hz⟩
    have y4 := yFront_first legacy bw ids hidsne s.mh y (by omega) y1 y3 hymin
    have hyb : y ≤ es.length * es.length := by
      obtain ⟨y', _, z2, z3, _⟩ := yFront_spec legacy bw ids hidsne s.mh
        ((es.filter (fun e => e.1.toNat < c)).map (fun e => e.2.1 + s.codes.getD e.1.toNat 0 - (h1 - h0))) (by omega) hfree
        (by
          intro x hx hf
          obtain ⟨e, he, h2, h3⟩ := (hbit x hx).1 hf
          exact List.mem_map.2 ⟨e, List.mem_filter.2 ⟨he, by simpa using h2⟩, by omega⟩)
      have hyy : y ≤ y' := by
        by_contra hcon
        exact hymin y' (by omega) z3
      refine Nat.le_trans hyy (Nat.le_trans z2 (Nat.mul_le_mul hidlen ?_))
      rw [List.length_map]
      exact List.length_filter_le ..
    have hcode : (((codeSub W h1 h0 : Nat) + ((y : Int) - lmin ids)) % 2 ^ 64 : Int).toNat = (h1 - h0) + y - lmin ids := by
      have e1 : codeSub W h1 h0 = h1 - h0 := by unfold codeSub; rw [if_pos (by omega)]
      rw [e1, show ((h1 - h0 : Nat) : Int) + ((y : Int) - lmin ids) = (((h1 - h0) + y - lmin ids : Nat) : Int) by omega]
      have : (((h1 - h0) + y - lmin ids : Nat) : Int) % 2 ^ 64 = (((h1 - h0) + y - lmin ids : Nat) : Int) := by
        refine Int.emod_eq_of_lt (by omega) ?_
        have : (h1 - h0) + y - lmin ids < 2 ^ 64 := by omega
        exact_mod_cast this
      rw [this]
      rfl
    generalize hcd : (h1 - h0) + y - lmin ids = code at hcode
    have hcW : code % 2 ^ W = code := Nat.mod_eq_of_lt (by omega)
    simp only [ebv, y4, hcode, hcW, Option.bind_eq_bind, Option.bind_some, wr_eq s.codes c code (by rw [h.len]; exact hc)]
    have hGi : ∀ e ∈ G, lmin ids ≤ e.2.1 ∧ e.2.1 ≤ lmax ids ∧ e.2.1 + code = (h1 - h0) + (y + (e.2.1 - lmin ids)) := by
      intro e he
      have hi := (hidm e.2.1).2 ⟨e, he, rfl⟩
      have := lmin_le ids _ hi
      have := le_lmax ids _ hi
      omega
    obtain ⟨s', es', p1, p2, p3, p4, p5, p6, p7, p8, p9, p10⟩ := place_spec h0 h1 (BitVec.ofNat 8 c) code (by omega) (G.map Prod.snd)
      { s with bv := bv, codes := s.codes.set c code } bw (by simp only; omega) (by
        intro e0 he0
        obtain ⟨e, he, rfl⟩ := List.mem_map.1 he0
        have := hGi e he
        simp only
        have := hidx e ((hmem e).1 he).1
        omega)
    simp only at p1 p3 p4 p5 p6 p7 p8 p9 p10
    have hK : ∀ c', s'.codes.getD c' 0 = if c' = c then code else s.codes.getD c' 0 := by
      intro c'
      rw [p8, List.getD_eq_getElem?_getD, List.getElem?_set, List.getD_eq_getElem?_getD]
      by_cases hcc : c' = c
      · subst hcc
        rw [if_pos rfl, if_pos (by rw [h.len]; exact hc), if_pos rfl]
        rfl
      · rw [if_neg (Ne.symm hcc), if_neg hcc]
    have hKlt : ∀ c', c' < c → s'.codes.getD c' 0 = s.codes.getD c' 0 := by
      intro c' h'
      rw [hK, if_neg (by omega)]
    have hKc : s'.codes.getD c 0 = code := by rw [hK, if_pos rfl]
    have hlc : ∀ e ∈ es, e.1.toNat < c + 1 → e.1.toNat < c ∨ e ∈ G := by
      intro e he hec
      by_cases h' : e.1.toNat = c
      · exact Or.inr ((hmem e).2 ⟨he, h'⟩)
      · exact Or.inl (by omega)
    refine ⟨s', es', ?_, ?_⟩
    · intro e he hec m hm hpr
      rcases hlc e he hec with hlt' | heG
      · rw [hKlt _ hlt'] at hm
        obtain ⟨e1, a1, a2, e2, a3, a4, a5⟩ := ht.first e he hlt' m hm hpr
        exact ⟨e1, a1, a2, e2, a3, a4, by rw [hKlt _ (by omega)]; exact a5⟩
      · have hec' := ((hmem e).1 heG).2
        rw [hec', hKc] at hm
        have h2 := hpr em ((hmem em).1 hem).1 (by rw [← BitVec.toNat_inj, hec', ((hmem em).1 hem).2])
        rw [hemi] at h2
        have hz := hymin (lmin ids + m - (h1 - h0)) (by omega)
        simp only [FitsAt, not_forall] at hz
        obtain ⟨id, hid, hb⟩ := hz
        have hb' : bitAt bv.words (lmin ids + m - (h1 - h0) + (id - lmin ids)) = false := by simpa using hb
        have hl1 := lmin_le _ _ hid
        have hl2 := le_lmax _ _ hid
        obtain ⟨e2, he2, h3, h4⟩ := (hbit _ (by omega)).1 hb'
        obtain ⟨e1, he1, h5⟩ := (hidm id).1 hid
        exact ⟨e1, ((hmem e1).1 he1).1, by rw [← BitVec.toNat_inj, hec', ((hmem e1).1 he1).2], e2, he2, by omega, by rw [hKlt _ h3]; omega⟩
    · by_cases hmh : s'.mh = s.mh
      · rcases ht.top with h' | ⟨e, he, h', h''⟩
        · exact Or.inl (by omega)
        · exact Or.inr ⟨e, he, by omega, by rw [hKlt _ h', hmh]; exact h''⟩
      · refine Or.inr ?_
        by_contra hcon
        have := p7 (s'.mh - 1) (by omega) (by
          intro e0 he0
          have h6 := p6 e0 he0
          obtain ⟨e, he, rfl⟩ := List.mem_map.1 he0
          by_contra hge
          have h7 := hGi e he
          exact hcon ⟨e, ((hmem e).1 he).1, by have := ((hmem e).1 he).2; omega, by rw [((hmem e).1 he).2, hKc]; omega⟩)
        omega

theorem charLoop_tight {W : Nat} {legacy : Bool} {h0 h1 : Nat} {es : List Edge} {map0 : List (Nat × Byte)} (hlt : h0 < h1)
    (hW : W ≤ 64) (hbig : h1 + (h1 - h0) + es.length * es.length < 2 ^ W) (hidx : ∀ e ∈ es, e.2.1 < h1 - h0) :
    ∀ (n c : Nat) (s : Lv), c + n = 256 → LInv h0 (h1 - h0) es map0 c s → LTight (h1 - h0) es c s →
      ∃ s', charLoop W legacy h0 h1 es n c s = some s' ∧ LTight (h1 - h0) es 256 s'
  | 0, c, s, hc, _, h => ⟨s, rfl, by rw [show c = 256 by omega] at h; exact h⟩
  | n + 1, c, s, hc, hi, h => by
    obtain ⟨s1, e1, h1'⟩ := charStep_inv (legacy := legacy) hlt hW hbig hidx (c := c) (by omega) hi
    obtain ⟨s1', e1', ht⟩ := charStep_tight (legacy := legacy) hlt hW hbig hidx (c := c) (by omega) hi h
    obtain rfl : s1 = s1' := Option.some.inj (e1.symm.trans e1')
    obtain ⟨s2, e2, h2⟩ := charLoop_tight (legacy := legacy) hlt hW hbig hidx n (c + 1) s1 (by omega) h1' ht
    exact ⟨s2, by simp only [charLoop, e1, Option.bind_eq_bind, Option.bind_some, e2], h2⟩

theorem ltight_start (prev : Nat) (es : List Edge) (map0 : List (Nat × Byte)) : LTight prev es 0 ⟨BV.empty, 0, List.replicate 256 0, map0, []⟩ :=
  ⟨fun _ _ h => absurd h (Nat.not_lt_zero _), Or.inl rfl⟩

/-- The codes of the depths below `d` are the least ones, and so are the heights. -/
structure Tight (keys : List Key) (d : Nat) (code : List (List Nat)) (head : List Nat) : Prop where
  first : ∀ w c, Path keys (w ++ [c]) → w.length < d → ∀ m, m < (code.getD w.length []).getD c.toNat 0 →
    (∀ w', w'.length = w.length → Path keys (w' ++ [c]) → head.getD (w.length + 1) 0 ≤ pos code w' + m) →
    ∃ w1 w2 c', w1.length = w.length ∧ w2.length = w.length ∧ Path keys (w1 ++ [c]) ∧ Path keys (w2 ++ [c']) ∧ c'.toNat < c.toNat ∧
      pos code w1 + m = pos code (w2 ++ [c'])
  top : ∀ t, t < d → ∃ w, w.length = t + 1 ∧ Path keys w ∧ head.getD (t + 2) 0 = pos code w + 1

theorem level_tight {W : Nat} {legacy : Bool} {keys : List Key} {d : Nat} {s : St} (hW : W ≤ 64)
    (hbig : (d + 2) * (1 + (d + 1) * (keys.length * keys.length)) < 2 ^ W) (h : GInv W keys d s) (hq : s.queue ≠ [])
    (ht : Tight keys d s.code s.head) : ∃ s', level W legacy d s = some s' ∧ Tight keys (d + 1) s'.code s'.head ∧ s.map <+: s'.map := by
  have hW64 : 2 ^ W ≤ 2 ^ 64 := Nat.pow_le_pow_right (by decide) hW
  have eh0 : s.head[d]? = some (s.head.getD d 0) := by
    rw [List.getD_eq_getElem?_getD, List.getElem?_eq_getElem (by rw [h.hlen]; omega)]; rfl
  have eh1 : s.head[d + 1]? = some (s.head.getD (d + 1) 0) := by
    rw [List.getD_eq_getElem?_getD, List.getElem?_eq_getElem (by rw [h.hlen]; omega)]; rfl
  have hlt := h.mono d (Nat.le_refl _)
  have hheight := h.height
  have htotal := h.total
  have hh1W : s.head.getD (d + 1) 0 < 2 ^ W := h.hsmall _ (List.mem_of_getElem? eh1)
  generalize hH0 : s.head.getD d 0 = h0 at eh0 hlt hheight
  generalize hH1 : s.head.getD (d + 1) 0 = h1 at eh1 hlt hheight htotal hh1W
  have hqok : ∀ p ∈ s.queue, p.2 ≠ [] ∧ h0 ≤ p.1 ∧ p.1 < 2 ^ 64 ∧ ∀ k ∈ p.2, d ≤ k.length := by
    intro p hp
    obtain ⟨a1, w, a2, a3, a4⟩ := h.queueS p hp
    obtain ⟨k, hk⟩ := List.exists_mem_of_ne_nil _ a1
    have hpath : Path keys w := ⟨k, (a4 k hk).1, (a4 k hk).2.trans (List.prefix_append _ _)⟩
    have hin := h.inside w hpath (by omega)
    rw [a2, hH0, hH1] at hin
    refine ⟨a1, by omega, by omega, ?_⟩
    intro k hk
    have := (a4 k hk).2.length_le
    omega
  obtain ⟨es, ees, c1, c2, c3, c4, c5⟩ := collect_spec d h0 s.queue hqok
  have hqn := h.queueN
  -- edges and paths
  have hE : ∀ e ∈ es, ∃ w, w.length = d ∧ Path keys (w ++ [e.1]) ∧ pos s.code w = h0 + e.2.1 := by
    intro e he
    obtain ⟨p, hp, h2, k, hk, h3⟩ := c1 e he
    obtain ⟨_, w, a2, a3, a4⟩ := h.queueS p hp
    refine ⟨w, a2, ⟨k, (a4 k hk).1, get_path (by rw [a2]; exact h3) (a4 k hk).2⟩, by omega⟩
  have hP : ∀ w c, Path keys (w ++ [c]) → w.length = d → ∃ e ∈ es, e.1 = c ∧ pos s.code w = h0 + e.2.1 := by
    rintro w c ⟨k, hk, hw⟩ hl
    obtain ⟨h2, h3⟩ := path_get hw
    rw [hl] at h2
    obtain ⟨p, hp, hkp⟩ := h.queueC k hk (by have := h3.length_le; omega)
    obtain ⟨e, he, h4, h5, _⟩ := c3 p hp k hkp c h2
    obtain ⟨_, w', a2, a3, a4⟩ := h.queueS p hp
    have : w = w' := by
      rw [List.prefix_iff_eq_take.1 h3, List.prefix_iff_eq_take.1 (a4 k hkp).2, hl, a2]
    exact ⟨e, he, h4, by rw [this]; omega⟩
  have hidx : ∀ e ∈ es, e.2.1 < h1 - h0 := by
    intro e he
    obtain ⟨w, h2, h3, h4⟩ := hE e he
    have hin := h.inside w h3.init (by omega)
    rw [h2, hH0, hH1] at hin
    omega
  have hn2 : es.length * es.length ≤ keys.length * keys.length := Nat.mul_le_mul (by omega) (by omega)
  generalize hm : keys.length * keys.length = m at hn2 hbig hheight htotal
  have hB : (d + 2) * (1 + (d + 1) * m) = (d + 1) * (1 + d * m) + (d + 1) * m + (1 + d * m) + m := by ring
  have hbig' : h1 + (h1 - h0) + es.length * es.length < 2 ^ W := by
    have : 0 ≤ (d + 1) * m := Nat.zero_le _
    omega
  obtain ⟨l, el, li⟩ := charLoop_inv (legacy := legacy) (map0 := s.map) hlt hW hbig' hidx 256 0 _ rfl (linv_start h0 (h1 - h0) es s.map)
  have hmh := li.mhb
  have hnewW : (h1 + l.mh) % 2 ^ W = h1 + l.mh := Nat.mod_eq_of_lt (by omega)
  have hmhpos : 0 < l.mh := by
    obtain ⟨p, hp⟩ := List.exists_mem_of_ne_nil _ hq
    obtain ⟨k, hk⟩ := List.exists_mem_of_ne_nil _ (hqok p hp).1
    obtain ⟨c, hc⟩ := ext_get ((hqok p hp).2.2.2 k hk)
    obtain ⟨e, he, _⟩ := c3 p hp k hk c hc
    have := (li.pos e he e.1.isLt).2
    omega
  obtain ⟨l', el', lt⟩ := charLoop_tight (legacy := legacy) (map0 := s.map) hlt hW hbig' hidx 256 0 _ rfl (linv_start h0 (h1 - h0) es s.map)
    (ltight_start (h1 - h0) es s.map)
  obtain rfl : l = l' := Option.some.inj (el.symm.trans el')
  refine ⟨⟨l.map, l.queue, s.code ++ [l.codes], s.head ++ [h1 + l.mh]⟩, ?_, ?_⟩
  · simp only [level, eh0, eh1, ees, el, hnewW, Option.bind_eq_bind, Option.bind_some, Option.pure_def]
  refine ⟨?_, by
    obtain ⟨M, e1, _⟩ := li.map
    simp only [e1]
    exact List.prefix_append _ _⟩
  have hcl := h.clen
  have hhl := h.hlen
  have hd : ∀ t, t ≤ d + 1 → (s.head ++ [h1 + l.mh]).getD t 0 = s.head.getD t 0 := fun t ht => getD_append_left (by omega)
  have hdn : (s.head ++ [h1 + l.mh]).getD (d + 2) 0 = h1 + l.mh := by
    rw [List.getD_eq_getElem?_getD, List.getElem?_append_right (by omega), hhl]
    simp
  have hpo : ∀ w, w.length ≤ d → pos (s.code ++ [l.codes]) w = pos s.code w := fun w hw => pos_extend _ _ _ (by omega)
  have hpn : ∀ w c, w.length = d → pos (s.code ++ [l.codes]) (w ++ [c]) = pos s.code w + l.codes.getD c.toNat 0 :=
    fun w c hw => pos_append _ _ _ _ (by omega)
  have hpe : ∀ w c, Path keys (w ++ [c]) → w.length = d →
      ∃ e ∈ es, e.1 = c ∧ pos s.code w = h0 + e.2.1 ∧ pos (s.code ++ [l.codes]) (w ++ [c]) = h0 + e.2.1 + l.codes.getD e.1.toNat 0 := by
    intro w c hw hl
    obtain ⟨e, he, h2, h3⟩ := hP w c hw hl
    exact ⟨e, he, h2, h3, by rw [hpn w c hl, h2, h3]⟩
  have hsnoc : ∀ w : List Byte, w.length = d + 1 → ∃ w' c, w = w' ++ [c] ∧ w'.length = d := by
    intro w hw
    have hne : w ≠ [] := by rintro rfl; simp at hw
    exact ⟨w.dropLast, w.getLast hne, (List.dropLast_append_getLast hne).symm, by simp [hw]⟩
  constructor
  · intro w c hw hl m hm hpr
    simp only at hm hpr ⊢
    by_cases hwd : w.length < d
    · rw [show (s.code ++ [l.codes]).getD w.length [] = s.code.getD w.length [] from by
        rw [List.getD_eq_getElem?_getD, List.getElem?_append_left (by omega), ← List.getD_eq_getElem?_getD]] at hm
      obtain ⟨w1, w2, c', a1, a2, a3, a4, a5, a6⟩ := ht.first w c hw hwd m hm (by
        intro w' hl' hw'
        have := hpr w' hl' hw'
        rw [hd _ (by omega), hpo _ (by omega)] at this
        exact this)
      exact ⟨w1, w2, c', a1, a2, a3, a4, a5, by rw [hpo _ (by omega), hpo _ (by simp; omega)]; exact a6⟩
    · have hwl : w.length = d := by omega
      rw [hwl] at hm hpr ⊢
      rw [show (s.code ++ [l.codes]).getD d [] = l.codes from by
        rw [List.getD_eq_getElem?_getD, List.getElem?_append_right (by omega), show d - s.code.length = 0 by omega]
        rfl] at hm
      rw [hd _ (Nat.le_refl _), hH1] at hpr
      obtain ⟨e, he, h2, h3⟩ := hP w c hw hwl
      obtain ⟨e1, b1, b2, e2, b3, b4, b5⟩ := lt.first e he e.1.isLt m (by rw [h2]; exact hm) (by
        intro e1 he1 h4
        obtain ⟨w1, h5, h6, h7⟩ := hE e1 he1
        have := hpr w1 h5 (by rw [h4, h2] at h6; exact h6)
        rw [hpo _ (by omega), h7] at this
        omega)
      obtain ⟨w1, h5, h6, h7⟩ := hE e1 b1
      obtain ⟨w2, h8, h9, h10⟩ := hE e2 b3
      refine ⟨w1, w2, e2.1, h5, h8, by rw [b2, h2] at h6; exact h6, h9, by rw [← h2]; exact b4, ?_⟩
      rw [hpo _ (by omega), hpn _ _ h8, h7, h10]
      omega
  · intro t htd
    simp only
    by_cases h' : t < d
    · obtain ⟨w, a1, a2, a3⟩ := ht.top t h'
      exact ⟨w, a1, a2, by rw [hd _ (by omega), hpo _ (by omega)]; exact a3⟩
    · rw [show t = d by omega]
      rcases lt.top with h2 | ⟨e, he, _, h2⟩
      · omega
      · obtain ⟨w, h5, h6, h7⟩ := hE e he
        exact ⟨w ++ [e.1], by simp [h5], h6, by rw [hdn, hpn _ _ h5, h7]; omega⟩

theorem levels_tight {W : Nat} {legacy : Bool} {keys : List Key} (hW : W ≤ 64) (hnul : ∀ k ∈ keys, 0 ∉ k) (L : Nat)
    (hL : ∀ k ∈ keys, k.length ≤ L)
    (hbig : (L + 2) * (1 + (L + 1) * (keys.length * keys.length)) < 2 ^ W) : ∀ (n d : Nat) (s s' : St), GInv W keys d s →
    Tight keys d s.code s.head → levels W legacy n d s = some s' → ∃ d', Tight keys d' s'.code s'.head ∧ s'.code.length = d' ∧ s.map <+: s'.map
  | 0, _, _, _, _, _, hs => by simp [levels] at hs
  | n + 1, d, s, s', h, ht, hs => by
    simp only [levels] at hs
    by_cases hq : s.queue = []
    · rw [if_pos hq, Option.some.injEq] at hs
      exact ⟨d, hs ▸ ht, hs ▸ h.clen, hs ▸ List.prefix_refl _⟩
    · rw [if_neg hq] at hs
      have hd : d ≤ L := by
        obtain ⟨p, hp⟩ := List.exists_mem_of_ne_nil _ hq
        obtain ⟨a1, w, a2, a3, a4⟩ := h.queueS p hp
        obtain ⟨k, hk⟩ := List.exists_mem_of_ne_nil _ a1
        have := (a4 k hk).2.length_le
        have := hL k (a4 k hk).1
        omega
      have hb : (d + 2) * (1 + (d + 1) * (keys.length * keys.length)) < 2 ^ W :=
        Nat.lt_of_le_of_lt (Nat.mul_le_mul (by omega) (Nat.add_le_add_left (Nat.mul_le_mul_right _ (by omega)) _)) hbig
      obtain ⟨s1, e1, h1⟩ := level_inv (legacy := legacy) hW hnul hb h hq
      obtain ⟨s1', e1', ht', hp⟩ := level_tight (legacy := legacy) hW hb h hq ht
      obtain rfl : s1 = s1' := Option.some.inj (e1.symm.trans e1')
      simp only [e1, Option.bind_eq_bind, Option.bind_some] at hs
      obtain ⟨d', a1, a2, a3⟩ := levels_tight hW hnul L hL hbig n (d + 1) s1 s' h1 ht' hs
      exact ⟨d', a1, a2, hp.trans a3⟩

theorem store_at {i : Nat} {c : Byte} : ∀ (ps : List (Nat × Byte)) (m m' : List Byte), store ps m = some m' → (∀ p ∈ ps, p.1 = i → p.2 = c) →
    ((i, c) ∈ ps ∨ m[i]? = some c) → m'[i]? = some c
  | [], m, m', h, _, hc => by
    simp only [store, Option.some.injEq] at h
    subst h
    simpa using hc
  | (j, b) :: ps, m, m', h, hf, hc => by
    simp only [store, Option.bind_eq_bind] at h
    obtain ⟨m1, e1, h⟩ := Option.bind_eq_some_iff.1 h
    have hj : j < m.length := by
      by_contra hcon
      simp [wr, hcon] at e1
    rw [wr_eq m j b hj, Option.some.injEq] at e1
    subst e1
    refine store_at ps _ m' h (fun p hp => hf p (List.mem_cons_of_mem _ hp)) ?_
    by_cases hji : j = i
    · subst hji
      right
      rw [List.getElem?_set_self hj]
      exact congrArg some (hf (j, b) (List.mem_cons_self ..) rfl)
    · rcases hc with hc | hc
      · rcases List.mem_cons.1 hc with he | he
        · exact absurd (congrArg Prod.fst he).symm hji
        · exact Or.inl he
      · right
        rw [List.getElem?_set_ne hji]
        exact hc

theorem build_tight {legacy : Bool} {keys : List Key} (hne : keys ≠ []) (hnul : ∀ k ∈ keys, 0 ∉ k)
    {L : Nat} (hL : L = lmax (keys.map List.length)) (hbig : (L + 2) * (1 + (L + 1) * (keys.length * keys.length)) < 2 ^ 64) :
    ∃ s, build 64 legacy keys = some s ∧ Ok 64 keys L s ∧ Tight keys (L + 1) s.code s.head ∧ s.storage[0]? = some 94 := by
  obtain ⟨s, es, ok⟩ := build_spec (W := 64) (legacy := legacy) hne hnul (Nat.le_refl _) hL hbig
  refine ⟨s, es, ok, ?_⟩
  obtain ⟨l1, l2⟩ := lmax_spec keys hne
  rw [← hL] at l1 l2
  obtain ⟨st, e1, h⟩ := levels_spec (legacy := legacy) (Nat.le_refl _) hnul L l1 l2 hbig (L + 2) 0 _ (by omega) (by omega)
    (ginv_start (by decide) keys hne)
  obtain ⟨d, ht, hd, hp⟩ := levels_tight (Nat.le_refl _) hnul L l1 hbig (L + 2) 0 _ st (ginv_start (by decide) keys hne)
    ⟨fun _ _ _ h => absurd h (Nat.not_lt_zero _), fun _ h => absurd h (Nat.not_lt_zero _)⟩ e1
  obtain rfl : d = L + 1 := hd.symm.trans h.clen
  have hs := es
  simp only [build, ← hL, e1, Option.bind_eq_bind, Option.bind_some, Option.pure_def] at hs
  obtain ⟨n, en, hs⟩ := Option.bind_eq_some_iff.1 hs
  obtain ⟨m, em, hs⟩ := Option.bind_eq_some_iff.1 hs
  obtain rfl := (Option.some.inj hs)
  refine ⟨ht, ?_⟩
  refine store_at st.map _ m em ?_ (Or.inl (hp.subset (List.mem_singleton.2 rfl)))
  intro p hpm hp0
  rcases h.mapS p hpm with rfl | ⟨w, c, hw, _, rfl⟩
  · rfl
  · have h1 := (ok.inside _ hw).1
    have h2 := mono_le ok.mono 1 (w ++ [c]).length (by simp) (by have := hw.length_le l1; omega)
    rw [ok.start.2] at h2
    have h3 := Nat.le_trans h2 h1
    simp only at hp0 h3
    omega

theorem Path.congr {keys keys' : List Key} (h : ∀ k, k ∈ keys ↔ k ∈ keys') {w : List Byte} (hw : Path keys w) : Path keys' w := by
  obtain ⟨k, hk, h'⟩ := hw
  exact ⟨k, (h k).1 hk, h'⟩

theorem pos_snoc : ∀ (rows : List (List Nat)) (w : List Byte) (c : Byte), w.length < rows.length →
    pos rows (w ++ [c]) = pos rows w + (rows.getD w.length []).getD c.toNat 0
  | [], _, _, h => absurd h (Nat.not_lt_zero _)
  | r :: rows, [], c, _ => by cases rows <;> simp [pos]
  | r :: rows, b :: w, c, h => by
    simp only [List.cons_append, pos, List.length_cons, List.getD_cons_succ]
    rw [pos_snoc rows w c (by simpa using h)]
    omega

/-- Rows up to `d` alike give the same places up to `d`. -/
theorem pos_congr : ∀ (A B : List (List Nat)) (w : List Byte), (∀ t, t < w.length → A.getD t [] = B.getD t []) → w.length ≤ A.length → w.length ≤ B.length →
    pos A w = pos B w
  | _, _, [], _, _, _ => by simp [pos]
  | a :: A, b :: B, c :: w, h, h1, h2 => by
    have e : a = b := h 0 (by simp)
    simp only [pos, e]
    rw [pos_congr A B w (fun t ht => h (t + 1) (by simpa using ht)) (by simpa using h1) (by simpa using h2)]
  | [], _, _ :: _, _, h1, _ => by simp at h1
  | _ :: _, [], _ :: _, _, _, h2 => by simp at h2

theorem code_le {keys : List Key} {L : Nat} {a b : Samc} (oa : Ok 64 keys L a) (ob : Ok 64 keys L b)
    (tb : Tight keys (L + 1) b.code b.head) {w : List Byte} {c : Byte} (hw : Path keys (w ++ [c])) (hl : w.length ≤ L)
    (hrow : ∀ t, t < w.length → a.code.getD t [] = b.code.getD t []) (hhead : a.head.getD (w.length + 1) 0 = b.head.getD (w.length + 1) 0)
    (hlow : ∀ c' : Byte, c'.toNat < c.toNat → (a.code.getD w.length []).getD c'.toNat 0 = (b.code.getD w.length []).getD c'.toNat 0) :
    (b.code.getD w.length []).getD c.toNat 0 ≤ (a.code.getD w.length []).getD c.toNat 0 := by
  by_contra hcon
  have hap : ∀ (s : Samc), Ok 64 keys L s → ∀ v x, v.length = w.length → pos s.code (v ++ [x]) = pos s.code v + (s.code.getD w.length []).getD x.toNat 0 := by
    intro s ok v x hv
    rw [pos_snoc _ _ _ (by have := ok.clen; omega), hv]
  have hposeq : ∀ v, v.length = w.length → pos a.code v = pos b.code v := fun v hv =>
    pos_congr _ _ v (fun t ht => hrow t (by omega)) (by have := oa.clen; omega) (by have := ob.clen; omega)
  obtain ⟨w1, w2, c', h1, h2, h3, h4, h5, h6⟩ := tb.first w c hw (by omega) _ (Nat.lt_of_not_le hcon) (by
    intro w' hl' hw'
    have := (oa.inside _ hw').1
    rw [hap a oa w' c hl', List.length_append, List.length_singleton, hl', hhead, hposeq w' hl'] at this
    exact this)
  rw [hap b ob w2 c' h2, ← hlow c' h5, ← hposeq w1 h1, ← hposeq w2 h2, ← hap a oa w1 c h1, ← hap a oa w2 c' h2] at h6
  have := oa.inj _ _ h3 h4 (by simp [h1, h2]) h6
  have := (List.append_inj' this rfl).2
  rw [List.singleton_inj.1 this] at h5
  omega

theorem heads_le {keys : List Key} {L : Nat} {a b : Samc} (oa : Ok 64 keys L a) (ob : Ok 64 keys L b)
    (tb : Tight keys (L + 1) b.code b.head) {t : Nat} (ht : t ≤ L) (hrow : ∀ u, u ≤ t → a.code.getD u [] = b.code.getD u []) :
    b.head.getD (t + 2) 0 ≤ a.head.getD (t + 2) 0 := by
  obtain ⟨w, h1, h2, h3⟩ := tb.top t (by omega)
  have := (oa.inside w h2).2
  rw [pos_congr a.code b.code w (fun u hu => hrow u (by omega)) (by have := oa.clen; omega) (by have := ob.clen; omega), h1,
    show t + 1 + 1 = t + 2 from rfl] at this
  omega

theorem rows_same {keys : List Key} {L : Nat} {a b : Samc} (oa : Ok 64 keys L a) (ob : Ok 64 keys L b)
    (ta : Tight keys (L + 1) a.code a.head) (tb : Tight keys (L + 1) b.code b.head) :
    ∀ t, (t ≤ L + 1 → ∀ u, u < t → a.code.getD u [] = b.code.getD u []) ∧ (t ≤ L + 1 → a.head.getD (t + 1) 0 = b.head.getD (t + 1) 0) := by
  intro t
  induction t with
  | zero => exact ⟨fun _ u hu => absurd hu (Nat.not_lt_zero _), fun _ => by rw [oa.start.2, ob.start.2]⟩
  | succ t ih =>
    have hrow : t + 1 ≤ L + 1 → ∀ u, u < t + 1 → a.code.getD u [] = b.code.getD u [] := by
      intro htL u hu
      by_cases hut : u < t
      · exact ih.1 (by omega) u hut
      · obtain rfl : u = t := by omega
        have hall : ∀ n, ∀ c : Byte, c.toNat = n → (a.code.getD u []).getD c.toNat 0 = (b.code.getD u []).getD c.toNat 0 := by
          intro n
          induction n using Nat.strongRecOn with
          | _ n ihn =>
            intro c hcn
            by_cases hp : ∃ w, w.length = u ∧ Path keys (w ++ [c])
            · obtain ⟨w, rfl, hw⟩ := hp
              have hlow : ∀ c' : Byte, c'.toNat < c.toNat → (a.code.getD w.length []).getD c'.toNat 0 = (b.code.getD w.length []).getD c'.toNat 0 :=
                fun c' hc' => ihn c'.toNat (by omega) c' rfl
              exact Nat.le_antisymm
                (code_le ob oa ta hw (by omega) (fun t ht => (ih.1 (by omega) t ht).symm) (ih.2 (by omega)).symm (fun c' hc' => (hlow c' hc').symm))
                (code_le oa ob tb hw (by omega) (ih.1 (by omega)) (ih.2 (by omega)) hlow)
            · have hp' : ∀ w, w.length = u → ¬ Path keys (w ++ [c]) := fun w h1 h2 => hp ⟨w, h1, h2⟩
              rw [oa.zero u (by omega) c hp', ob.zero u (by omega) c hp']
        have hla : (a.code.getD u []).length = 256 := oa.rows _ (by
          rw [List.getD_eq_getElem?_getD, List.getElem?_eq_getElem (by rw [oa.clen]; omega)]; exact List.getElem_mem _)
        have hlb : (b.code.getD u []).length = 256 := ob.rows _ (by
          rw [List.getD_eq_getElem?_getD, List.getElem?_eq_getElem (by rw [ob.clen]; omega)]; exact List.getElem_mem _)
        refine List.ext_getElem (by omega) ?_
        intro i hi1 hi2
        have := hall i (BitVec.ofNat 8 i) (by simp; omega)
        have e : (BitVec.ofNat 8 i).toNat = i := by simp; omega
        simp only [e, List.getD_eq_getElem?_getD (i := i), List.getElem?_eq_getElem hi1, List.getElem?_eq_getElem hi2] at this
        exact this
    refine ⟨hrow, fun htL => ?_⟩
    exact Nat.le_antisymm (heads_le ob oa ta (by omega) (fun u hu => (hrow htL u (by omega)).symm)) (heads_le oa ob tb (by omega) (fun u hu => hrow htL u (by omega)))

theorem same_object {keys : List Key} {L : Nat} {a b : Samc} (oa : Ok 64 keys L a) (ob : Ok 64 keys L b)
    (ta : Tight keys (L + 1) a.code a.head) (tb : Tight keys (L + 1) b.code b.head) (hL : ∀ k ∈ keys, k.length ≤ L)
    (h0a : a.storage[0]? = some 94) (h0b : b.storage[0]? = some 94) : a = b := by
  have hrs := rows_same oa ob ta tb
  have hcode : a.code = b.code := by
    refine List.ext_getElem (by rw [oa.clen, ob.clen]) ?_
    intro i hi1 hi2
    have := (hrs (L + 1)).1 (Nat.le_refl _) i (by have := oa.clen; omega)
    rw [List.getD_eq_getElem?_getD, List.getD_eq_getElem?_getD, List.getElem?_eq_getElem hi1, List.getElem?_eq_getElem hi2] at this
    exact this
  have hhead : a.head = b.head := by
    refine List.ext_getElem (by rw [oa.hlen, ob.hlen]) ?_
    intro i hi1 hi2
    have : a.head.getD i 0 = b.head.getD i 0 := by
      cases i with
      | zero => rw [oa.start.1, ob.start.1]
      | succ i => exact (hrs i).2 (by have := oa.hlen; omega)
    rw [List.getD_eq_getElem?_getD, List.getD_eq_getElem?_getD, List.getElem?_eq_getElem hi1, List.getElem?_eq_getElem hi2] at this
    exact this
  have hst : a.storage = b.storage := by
    refine List.ext_getElem (by rw [oa.slen, ob.slen, hhead]) ?_
    intro i hi1 hi2
    have e1 := List.getElem?_eq_getElem hi1
    have e2 := List.getElem?_eq_getElem hi2
    rcases Nat.eq_zero_or_pos i with rfl | hi
    · rw [h0a] at e1
      rw [h0b] at e2
      rw [← Option.some.inj e1, ← Option.some.inj e2]
    · rcases oa.only i _ hi e1 with h1 | ⟨w, hw, h1⟩
      · rcases ob.only i _ hi e2 with h2 | ⟨w, hw, h2⟩
        · rw [h1, h2]
        · have := oa.label w _ hw
          rw [hcode, ← h2, e1] at this
          exact Option.some.inj this
      · have := ob.label w _ hw
        rw [← hcode, ← h1, e2] at this
        exact (Option.some.inj this).symm
  cases a
  cases b
  simp_all

theorem Ok.congr {W : Nat} {keys keys' : List Key} (h : ∀ k, k ∈ keys ↔ k ∈ keys') {L : Nat} {s : Samc} (ok : Ok W keys L s) (ht : s.storage.length ≤ (L + 2) * (1 + (L + 1) * (keys'.length * keys'.length))) :
    Ok W keys' L s := by
  have e : Path keys = Path keys' := funext fun w => propext ⟨Path.congr h, Path.congr (fun k => (h k).symm)⟩
  refine ⟨ok.clen, ok.rows, ok.small, ok.hlen, ok.hsmall, ok.slen, ht, ok.mono, ok.start, ?_, ?_, ?_, ?_, ?_⟩
  · rw [← e]; exact ok.inside
  · rw [← e]; exact ok.inj
  · rw [← e]; exact ok.zero
  · rw [← e]; exact ok.label
  · rw [← e]; exact ok.only

theorem Tight.congr {keys keys' : List Key} (h : ∀ k, k ∈ keys ↔ k ∈ keys') {d : Nat} {code : List (List Nat)} {head : List Nat}
    (ht : Tight keys d code head) : Tight keys' d code head := by
  have e : Path keys = Path keys' := funext fun w => propext ⟨Path.congr h, Path.congr (fun k => (h k).symm)⟩
  refine ⟨?_, ?_⟩
  · rw [← e]; exact ht.first
  · rw [← e]; exact ht.top

theorem lmax_congr {keys keys' : List Key} (hne : keys ≠ []) (hne' : keys' ≠ []) (h : ∀ k, k ∈ keys ↔ k ∈ keys') :
    lmax (keys.map List.length) = lmax (keys'.map List.length) := by
  obtain ⟨a1, k1, a2, a3⟩ := lmax_spec keys hne
  obtain ⟨b1, k2, b2, b3⟩ := lmax_spec keys' hne'
  have := a1 k2 ((h k2).2 b2)
  have := b1 k1 ((h k1).1 a2)
  omega

theorem build64_set {keys keys' : List Key} (hne : keys ≠ []) (hnul : ∀ k ∈ keys, 0 ∉ k) (h : ∀ k, k ∈ keys ↔ k ∈ keys') {L : Nat}
    (hL : ∀ k ∈ keys, k.length ≤ L) (hbig : (L + 2) * (1 + (L + 1) * (keys.length * keys.length)) < 2 ^ 64)
    (hbig' : (L + 2) * (1 + (L + 1) * (keys'.length * keys'.length)) < 2 ^ 64) (l l' : Bool) : build 64 l keys = build 64 l' keys' := by
  have hne' : keys' ≠ [] := by
    obtain ⟨k, hk⟩ := List.exists_mem_of_ne_nil _ hne
    exact List.ne_nil_of_mem ((h k).1 hk)
  obtain ⟨l1, k, hk, l2⟩ := lmax_spec keys hne
  have hle : lmax (keys.map List.length) ≤ L := by rw [← l2]; exact hL k hk
  have em := lmax_congr hne hne' h
  obtain ⟨a, ea, oa, ta, za⟩ := build_tight (legacy := l) hne hnul rfl (Nat.lt_of_le_of_lt (poly_mono hle) hbig)
  obtain ⟨b, eb, ob, tb, zb⟩ := build_tight (legacy := l') hne' (fun k hk => hnul k ((h k).2 hk)) rfl
    (Nat.lt_of_le_of_lt (poly_mono (em ▸ hle)) hbig')
  rw [← em] at ob tb
  have hm : ∀ k, k ∈ keys ↔ k ∈ keys ++ keys' := fun k => by rw [List.mem_append, ← h k, or_self]
  have hm' : ∀ k, k ∈ keys' ↔ k ∈ keys ++ keys' := fun k => by rw [← hm, h]
  have up : ∀ n, n ≤ (keys ++ keys').length → (lmax (keys.map List.length) + 2) * (1 + (lmax (keys.map List.length) + 1) * (n * n)) ≤
      (lmax (keys.map List.length) + 2) * (1 + (lmax (keys.map List.length) + 1) * ((keys ++ keys').length * (keys ++ keys').length)) :=
    fun n hn => Nat.mul_le_mul_left _ (Nat.add_le_add_left (Nat.mul_le_mul_left _ (Nat.mul_le_mul hn hn)) _)
  have oa' := oa.congr hm (Nat.le_trans oa.total (up _ (by simp)))
  have ob' := ob.congr hm' (Nat.le_trans ob.total (up _ (by simp)))
  rw [ea, eb, same_object oa' ob' (ta.congr hm) (tb.congr hm') (fun k hk => l1 k ((hm k).2 hk)) za zb]

end Verif.Samc
