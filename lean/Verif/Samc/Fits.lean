/-
The construction with a narrow code type against the one with 64 bits: the same object when the places fit, out of range when they do not.
-/
import Verif.Samc.Ids

namespace Verif.Samc
open Verif.BV Verif.Serial

/-- A table of codes cut to `W` bits. -/
def cut (W : Nat) (codes : List Nat) : List Nat := codes.map (· % 2 ^ W)

theorem cut_id {W : Nat} {codes : List Nat} (h : ∀ x ∈ codes, x < 2 ^ W) : cut W codes = codes := by
  unfold cut
  conv => rhs; rw [← List.map_id codes]
  exact List.map_congr_left fun x hx => Nat.mod_eq_of_lt (h x hx)

theorem codeSub_le {W a b : Nat} (h : b ≤ a) : codeSub W a b = a - b := by rw [codeSub, if_pos h]

theorem place_codes (h0 h1 : Nat) (c : Byte) (code : Nat) (cs : List Nat) : ∀ (es : List (Nat × List Key)) (s : Lv),
    place h0 h1 c code es { s with codes := cs } = (place h0 h1 c code es s).map (fun l => { l with codes := cs })
  | [], s => rfl
  | (i, node) :: es, s => by
    simp only [place, Option.bind_eq_bind]
    cases hb : s.bv.set (((h0 + i + code) % 2 ^ 64 + 2 ^ 64 - h1) % 2 ^ 64) false with
    | none => rfl
    | some bv =>
      simp only [Option.bind_some]
      exact place_codes h0 h1 c code cs es
        { s with bv := bv, mh := max s.mh (((h0 + i + code) % 2 ^ 64 + 2 ^ 64 - h1) % 2 ^ 64 + 1), map := s.map ++ [((h0 + i + code) % 2 ^ 64, c)],
                 queue := if c ≠ 0 then s.queue ++ [((h0 + i + code) % 2 ^ 64, node)] else s.queue }

theorem place_keeps (h0 h1 : Nat) (c : Byte) (code : Nat) : ∀ (es : List (Nat × List Key)) (s l : Lv),
    place h0 h1 c code es s = some l → l.codes = s.codes
  | [], s, l, h => by cases h; rfl
  | (i, node) :: es, s, l, h => by
    simp only [place, Option.bind_eq_bind, Option.bind_eq_some_iff] at h
    obtain ⟨bv, _, h⟩ := h
    have := place_keeps h0 h1 c code es _ l h
    exact this

/-- One character: the narrow type only cuts the code that is kept. -/
theorem charStep_cut {W : Nat} (legacy : Bool) {h0 h1 : Nat} (hlt : h0 ≤ h1) (es : List Edge) (c : Nat) (s : Lv) :
    charStep W legacy h0 h1 es c { s with codes := cut W s.codes } =
      (charStep 64 legacy h0 h1 es c s).map (fun l => { l with codes := cut W l.codes }) := by
  simp only [charStep, codeSub_le hlt]
  split
  · rfl
  · simp only [Option.bind_eq_bind]
    generalize (es.filter (fun e => e.1.toNat = c)).map Prod.snd = g
    cases grow s.bv (s.mh + (1 + lmax (g.map Prod.fst) - lmin (g.map Prod.fst))) with
    | none => rfl
    | some bv =>
      simp only [Option.bind_some]
      cases yFront legacy (g.map Prod.fst) bv with
      | none => rfl
      | some y =>
        simp only [Option.bind_some]
        generalize hcd : (((h1 - h0 : Nat) + y) % 2 ^ 64 : Int).toNat = code
        have hcode : code < 2 ^ 64 := by
          rw [← hcd]
          have a1 : (0 : Int) ≤ (((h1 - h0 : Nat) : Int) + y) % 2 ^ 64 := Int.emod_nonneg _ (by decide)
          have a2 : (((h1 - h0 : Nat) : Int) + y) % 2 ^ 64 < 2 ^ 64 := Int.emod_lt_of_pos _ (by decide)
          omega
        rw [Nat.mod_eq_of_lt hcode]
        have hl : (cut W s.codes).length = s.codes.length := by simp [cut]
        unfold wr
        rw [hl]
        by_cases hc : c < s.codes.length
        · rw [if_pos hc, if_pos hc]
          simp only [Option.bind_some]
          have hset : (cut W s.codes).set c (code % 2 ^ W) = cut W (s.codes.set c code) := by
            unfold cut
            rw [List.map_set]
          rw [hset]
          have := place_codes h0 h1 (BitVec.ofNat 8 c) code (cut W (s.codes.set c code)) g { s with bv := bv, codes := s.codes.set c code }
          rw [show ({ s with bv := bv, codes := cut W (s.codes.set c code) } : Lv) =
            { ({ s with bv := bv, codes := s.codes.set c code } : Lv) with codes := cut W (s.codes.set c code) } from rfl, this]
          cases hp : place h0 h1 (BitVec.ofNat 8 c) code g { s with bv := bv, codes := s.codes.set c code } with
          | none => rfl
          | some l =>
            simp only [Option.map_some]
            rw [place_keeps _ _ _ _ _ _ _ hp]
        · rw [if_neg hc, if_neg hc]
          rfl

theorem charLoop_cut {W : Nat} (legacy : Bool) {h0 h1 : Nat} (hlt : h0 ≤ h1) (es : List Edge) : ∀ (n c : Nat) (s : Lv),
    charLoop W legacy h0 h1 es n c { s with codes := cut W s.codes } =
      (charLoop 64 legacy h0 h1 es n c s).map (fun l => { l with codes := cut W l.codes })
  | 0, c, s => rfl
  | n + 1, c, s => by
    simp only [charLoop, Option.bind_eq_bind]
    rw [charStep_cut legacy hlt]
    cases charStep 64 legacy h0 h1 es c s with
    | none => rfl
    | some s1 =>
      simp only [Option.map_some, Option.bind_some]
      exact charLoop_cut legacy hlt es n (c + 1) s1

/-- The height of the level is that of a place taken. -/
def Att (h1 : Nat) (s : Lv) : Prop := s.mh = 0 ∨ ∃ p ∈ s.map, p.1 = (h1 + (s.mh - 1)) % 2 ^ 64

theorem place_att (h0 h1 : Nat) (c : Byte) (code : Nat) (hh : h1 < 2 ^ 64) : ∀ (es : List (Nat × List Key)) (s l : Lv),
    place h0 h1 c code es s = some l → Att h1 s → Att h1 l
  | [], s, l, h, ha => by cases h; exact ha
  | (i, node) :: es, s, l, h, ha => by
    simp only [place, Option.bind_eq_bind, Option.bind_eq_some_iff] at h
    obtain ⟨bv, _, h⟩ := h
    refine place_att h0 h1 c code hh es _ l h ?_
    generalize hI : (h0 + i + code) % 2 ^ 64 = I
    have hIlt : I < 2 ^ 64 := by rw [← hI]; exact Nat.mod_lt _ (by decide)
    generalize hJ : (I + 2 ^ 64 - h1) % 2 ^ 64 = J
    have hIJ : I = (h1 + J) % 2 ^ 64 := by omega
    right
    simp only
    rcases Nat.lt_or_ge J s.mh with hlt | hge
    · rw [Nat.max_eq_left (by omega)]
      rcases ha with h0 | ⟨p, hp, e⟩
      · omega
      · exact ⟨p, List.mem_append_left _ hp, e⟩
    · rw [Nat.max_eq_right (by omega), Nat.add_sub_cancel]
      exact ⟨_, List.mem_append_right _ (List.mem_singleton.2 rfl), hIJ⟩

theorem charStep_att {W : Nat} {legacy : Bool} {h0 h1 : Nat} (hh : h1 < 2 ^ 64) {es : List Edge} {c : Nat} {s l : Lv}
    (h : charStep W legacy h0 h1 es c s = some l) (ha : Att h1 s) : Att h1 l := by
  simp only [charStep] at h
  split at h
  · cases h; exact ha
  · simp only [Option.bind_eq_bind, Option.bind_eq_some_iff] at h
    obtain ⟨bv, _, y, _, cs, _, h⟩ := h
    exact place_att _ _ _ _ hh _ _ _ h ha

theorem charLoop_att {W : Nat} {legacy : Bool} {h0 h1 : Nat} (hh : h1 < 2 ^ 64) {es : List Edge} : ∀ (n c : Nat) (s l : Lv),
    charLoop W legacy h0 h1 es n c s = some l → Att h1 s → Att h1 l
  | 0, c, s, l, h, ha => by cases h; exact ha
  | n + 1, c, s, l, h, ha => by
    simp only [charLoop, Option.bind_eq_bind, Option.bind_eq_some_iff] at h
    obtain ⟨s1, e1, h⟩ := h
    exact charLoop_att hh n (c + 1) s1 l h (charStep_att hh e1 ha)

/-- Places taken are kept. -/
theorem place_map (h0 h1 : Nat) (c : Byte) (code : Nat) : ∀ (es : List (Nat × List Key)) (s l : Lv),
    place h0 h1 c code es s = some l → ∀ p ∈ s.map, p ∈ l.map
  | [], s, l, h => by cases h; exact fun _ hp => hp
  | (i, node) :: es, s, l, h => by
    simp only [place, Option.bind_eq_bind, Option.bind_eq_some_iff] at h
    obtain ⟨bv, _, h⟩ := h
    exact fun p hp => place_map h0 h1 c code es _ l h p (List.mem_append_left _ hp)

theorem charLoop_map {W : Nat} {legacy : Bool} {h0 h1 : Nat} {es : List Edge} : ∀ (n c : Nat) (s l : Lv),
    charLoop W legacy h0 h1 es n c s = some l → ∀ p ∈ s.map, p ∈ l.map
  | 0, c, s, l, h => by cases h; exact fun _ hp => hp
  | n + 1, c, s, l, h => by
    simp only [charLoop, Option.bind_eq_bind, Option.bind_eq_some_iff] at h
    obtain ⟨s1, e1, h⟩ := h
    intro p hp
    refine charLoop_map n (c + 1) s1 l h p ?_
    simp only [charStep] at e1
    split at e1
    · cases e1; exact hp
    · simp only [Option.bind_eq_bind, Option.bind_eq_some_iff] at e1
      obtain ⟨bv, _, y, _, cs, _, e1⟩ := e1
      exact place_map _ _ _ _ _ _ _ e1 p hp

/-- A level keeps the places, and its last head fits the code type. -/
theorem level_map {W : Nat} {legacy : Bool} {d : Nat} {s s' : St} (h : level W legacy d s = some s') :
    (∀ p ∈ s.map, p ∈ s'.map) ∧ ∃ x, s'.head.getLast? = some x ∧ x < 2 ^ W := by
  simp only [level, Option.bind_eq_bind, Option.bind_eq_some_iff, Option.pure_def, Option.some.injEq] at h
  obtain ⟨h0, _, h1, _, es, _, l, el, rfl⟩ := h
  exact ⟨charLoop_map _ _ _ _ el, (h1 + l.mh) % 2 ^ W, List.getLast?_concat .., Nat.mod_lt _ (Nat.two_pow_pos _)⟩

theorem levels_map {W : Nat} {legacy : Bool} : ∀ (n d : Nat) (s s' : St), levels W legacy n d s = some s' →
    (∃ x, s.head.getLast? = some x ∧ x < 2 ^ W) → (∀ p ∈ s.map, p ∈ s'.map) ∧ ∃ x, s'.head.getLast? = some x ∧ x < 2 ^ W
  | 0, d, s, s', h, _ => by simp [levels] at h
  | n + 1, d, s, s', h, hx => by
    simp only [levels] at h
    split at h
    · cases h; exact ⟨fun _ hp => hp, hx⟩
    · simp only [Option.bind_eq_bind, Option.bind_eq_some_iff] at h
      obtain ⟨s1, e1, h⟩ := h
      obtain ⟨a1, a2⟩ := level_map e1
      obtain ⟨b1, b2⟩ := levels_map n (d + 1) s1 s' h a2
      exact ⟨fun p hp => b1 p (a1 p hp), b2⟩

theorem levels_prefix {W : Nat} {legacy : Bool} : ∀ (n d : Nat) (s s' : St), levels W legacy n d s = some s' → s.head <+: s'.head
  | 0, d, s, s', h => by simp [levels] at h
  | n + 1, d, s, s', h => by
    simp only [levels] at h
    split at h
    · cases h; exact List.prefix_rfl
    · simp only [Option.bind_eq_bind, Option.bind_eq_some_iff] at h
      obtain ⟨s1, e1, h⟩ := h
      refine List.IsPrefix.trans ?_ (levels_prefix n (d + 1) s1 s' h)
      simp only [level, Option.bind_eq_bind, Option.bind_eq_some_iff, Option.pure_def, Option.some.injEq] at e1
      obtain ⟨h0, _, h1, _, es, _, l, el, rfl⟩ := e1
      exact List.prefix_append ..

/-- A place from the number of places on is written out of range. -/
theorem store_none : ∀ (ps : List (Nat × Byte)) (m : List Byte), (∃ p ∈ ps, m.length ≤ p.1) → store ps m = none
  | [], m, h => by obtain ⟨p, hp, _⟩ := h; simp at hp
  | (i, c) :: ps, m, ⟨p, hp, hl⟩ => by
    simp only [store, Option.bind_eq_bind]
    unfold wr
    split
    · rename_i hi
      simp only [Option.bind_some]
      refine store_none ps _ ⟨p, ?_, by rw [List.length_set]; exact hl⟩
      rcases List.mem_cons.1 hp with rfl | hp
      · simp only at hl; omega
      · exact hp
    · rfl

theorem store_length : ∀ (ps : List (Nat × Byte)) (m m' : List Byte), store ps m = some m' → m'.length = m.length
  | [], m, m', h => by cases h; rfl
  | (i, c) :: ps, m, m', h => by
    simp only [store, Option.bind_eq_bind, Option.bind_eq_some_iff] at h
    obtain ⟨m1, e1, h⟩ := h
    rw [store_length ps m1 m' h]
    unfold wr at e1
    split at e1
    · cases e1; exact List.length_set
    · simp at e1

/-- The state with the tables cut to `W` bits. -/
def St.cut (W : Nat) (s : St) : St := { s with code := s.code.map (Samc.cut W) }

/-- One level: the same, with the codes and the new head cut. -/
theorem level_cut {W : Nat} (hW : W ≤ 64) (legacy : Bool) {d : Nat} {s s' : St} (h64 : level 64 legacy d s = some s')
    (hm : s.head.getD d 0 ≤ s.head.getD (d + 1) 0) (hl : s.head.length = d + 2) (hs : s.head.getD (d + 1) 0 < 2 ^ 64) :
    level W legacy d (s.cut W) = some { s'.cut W with head := s.head ++ [s'.head.getD (d + 2) 0 % 2 ^ W] } ∧
    s'.head = s.head ++ [s'.head.getD (d + 2) 0] ∧
    (s.head.getD (d + 1) 0 < s'.head.getD (d + 2) 0 → ∃ p ∈ s'.map, p.1 + 1 = s'.head.getD (d + 2) 0) := by
  simp only [level, Option.bind_eq_bind, Option.bind_eq_some_iff, Option.pure_def, Option.some.injEq] at h64
  obtain ⟨h0, e0, h1, e1, es, ees, l, el, rfl⟩ := h64
  have g0 : s.head.getD d 0 = h0 := by rw [List.getD_eq_getElem?_getD, e0]; rfl
  have g1 : s.head.getD (d + 1) 0 = h1 := by rw [List.getD_eq_getElem?_getD, e1]; rfl
  have g2 : (s.head ++ [(h1 + l.mh) % 2 ^ 64]).getD (d + 2) 0 = (h1 + l.mh) % 2 ^ 64 := by
    rw [List.getD_eq_getElem?_getD, List.getElem?_append_right (by omega), hl]
    simp
  simp only [g0, g1, g2] at hm hs ⊢
  refine ⟨?_, trivial, ?_⟩
  · have hcl := charLoop_cut (W := W) legacy hm es 256 0 ⟨BV.empty, 0, List.replicate 256 0, s.map, []⟩
    rw [el, Option.map_some, show Samc.cut W (List.replicate 256 0) = List.replicate 256 0 from cut_id (by
      intro x hx
      rw [(List.mem_replicate.1 hx).2]
      exact Nat.two_pow_pos _)] at hcl
    simp only [level, St.cut, e0, e1, ees, Option.bind_eq_bind, Option.bind_some, hcl, Option.pure_def, List.map_append, List.map_cons, List.map_nil,
      Nat.mod_mod_of_dvd _ (Nat.pow_dvd_pow 2 hW)]
  · intro hpos
    rcases charLoop_att hs 256 0 _ _ el (Or.inl rfl) with h | ⟨p, hp, e⟩
    · omega
    · refine ⟨p, hp, ?_⟩
      rw [e]
      omega

theorem levels_cut {W : Nat} {legacy : Bool} {keys : List Key} (hW : W ≤ 64) (hnul : ∀ k ∈ keys, 0 ∉ k) (L : Nat)
    (hL : ∀ k ∈ keys, k.length ≤ L) (hmax : ∃ k ∈ keys, k.length = L)
    (hbig : (L + 2) * (1 + (L + 1) * (keys.length * keys.length)) < 2 ^ 64) : ∀ (n d : Nat) (s : St), n + d = L + 2 → 0 < n → GInv 64 keys d s →
    (∀ x ∈ s.head, x < 2 ^ W) →
    ∃ s', levels 64 legacy n d s = some s' ∧ GInv 64 keys (L + 1) s' ∧
      (s'.head.getD (L + 2) 0 < 2 ^ W → levels W legacy n d (s.cut W) = some (s'.cut W)) ∧
      (2 ^ W ≤ s'.head.getD (L + 2) 0 → ∀ r, levels W legacy n d (s.cut W) = some r →
        (∃ p ∈ r.map, 2 ^ W ≤ p.1 + 1) ∧ ∃ x, r.head.getLast? = some x ∧ x < 2 ^ W)
  | 0, _, _, _, hn, _, _ => absurd hn (by simp)
  | n + 1, d, s, hnd, _, h, hhd => by
    simp only [levels]
    obtain ⟨km, hkm, hkL⟩ := hmax
    have hqc : (s.cut W).queue = s.queue := rfl
    rw [hqc]
    by_cases hq : s.queue = []
    · simp only [if_pos hq]
      have hd : ¬ d ≤ L := by
        intro hd
        obtain ⟨p, hp, _⟩ := h.queueC km hkm (by omega)
        rw [hq] at hp
        simp at hp
      obtain rfl : d = L + 1 := by omega
      refine ⟨s, rfl, h, fun _ => rfl, ?_⟩
      intro hge
      have : s.head.getD (L + 2) 0 ∈ s.head := by
        rw [List.getD_eq_getElem?_getD, List.getElem?_eq_getElem (by rw [h.hlen]; omega)]
        exact List.getElem_mem _
      have := hhd _ this
      omega
    · simp only [if_neg hq]
      have hd : d ≤ L := by
        obtain ⟨p, hp⟩ := List.exists_mem_of_ne_nil _ hq
        obtain ⟨a1, w, a2, a3, a4⟩ := h.queueS p hp
        obtain ⟨k, hk⟩ := List.exists_mem_of_ne_nil _ a1
        have := (a4 k hk).2.length_le
        have := hL k (a4 k hk).1
        omega
      have hb : (d + 2) * (1 + (d + 1) * (keys.length * keys.length)) < 2 ^ 64 :=
        Nat.lt_of_le_of_lt (Nat.mul_le_mul (by omega) (Nat.add_le_add_left (Nat.mul_le_mul_right _ (by omega)) _)) hbig
      obtain ⟨s1, e1, h1⟩ := level_inv (legacy := legacy) (Nat.le_refl 64) hnul hb h hq
      have hmem : s.head.getD (d + 1) 0 ∈ s.head := by
        rw [List.getD_eq_getElem?_getD, List.getElem?_eq_getElem (by rw [h.hlen]; omega)]
        exact List.getElem_mem _
      obtain ⟨c1, c2, c3⟩ := level_cut hW legacy e1 (Nat.le_of_lt (h.mono d (Nat.le_refl _))) h.hlen (h.hsmall _ hmem)
      simp only [e1, c1, Option.bind_eq_bind, Option.bind_some]
      have hnext : n + (d + 1) = L + 2 := by omega
      have hmono1 := h1.mono (d + 1) (Nat.le_refl _)
      have hsame : s1.head.getD (d + 1) 0 = s.head.getD (d + 1) 0 := by
        rw [c2, getD_append_left (by rw [h.hlen]; omega)]
      rw [hsame] at hmono1
      obtain ⟨pm, hpm, epm⟩ := c3 hmono1
      by_cases hfit : s1.head.getD (d + 2) 0 < 2 ^ W
      · obtain ⟨s', f1, f2, f5, f6⟩ := levels_cut (legacy := legacy) hW hnul L hL ⟨km, hkm, hkL⟩ hbig n (d + 1) s1 hnext (by omega) h1 (by
          intro x hx
          rw [c2] at hx
          rcases List.mem_append.1 hx with hx | hx
          · exact hhd x hx
          · rw [List.mem_singleton.1 hx]; exact hfit)
        have hst : ({ s1.cut W with head := s.head ++ [s1.head.getD (d + 2) 0 % 2 ^ W] } : St) = s1.cut W := by
          rw [Nat.mod_eq_of_lt hfit, ← c2]
          rfl
        rw [hst]
        exact ⟨s', f1, f2, f5, f6⟩
      · obtain ⟨s', f1, f2⟩ := levels_spec (legacy := legacy) (Nat.le_refl 64) hnul L hL ⟨km, hkm, hkL⟩ hbig n (d + 1) s1 hnext (by omega) h1
        have f3 := levels_prefix n (d + 1) s1 s' f1
        have f4 : s'.head.getD (d + 2) 0 = s1.head.getD (d + 2) 0 := by
          obtain ⟨t, ht⟩ := f3
          rw [← ht, getD_append_left (by rw [h1.hlen]; omega)]
        have f5 := mono_le f2.mono (d + 2) (L + 2) (by omega) (by omega)
        refine ⟨s', f1, f2, fun hlt => by omega, ?_⟩
        intro _ r er
        obtain ⟨g1, g2⟩ := levels_map n (d + 1) _ r er ⟨_, List.getLast?_concat .., Nat.mod_lt _ (Nat.two_pow_pos _)⟩
        exact ⟨⟨pm, g1 pm hpm, by omega⟩, g2⟩

/-- Every code is below the number of places. -/
theorem Ok.code_lt {W : Nat} {keys : List Key} {L : Nat} {s : Samc} (h : Ok W keys L s) (hL : ∀ k ∈ keys, k.length ≤ L) :
    ∀ row ∈ s.code, ∀ x ∈ row, x < s.storage.length := by
  intro row hrow x hx
  obtain ⟨i, hi, rfl⟩ := List.getElem_of_mem hrow
  obtain ⟨j, hj, rfl⟩ := List.getElem_of_mem hx
  have hi' : i ≤ L := by rw [h.clen] at hi; omega
  have hj' : j < 256 := by rw [h.rows _ hrow] at hj; exact hj
  have hg : (s.code.getD i []).getD j 0 = s.code[i][j] := by
    rw [List.getD_eq_getElem?_getD (l := s.code), List.getElem?_eq_getElem hi, Option.getD_some, List.getD_eq_getElem?_getD (l := s.code[i]),
      List.getElem?_eq_getElem hj, Option.getD_some]
  have h0 : 0 < s.storage.length := by
    have := mono_le h.mono 1 (L + 2) (by omega) (by omega)
    rw [h.start.2, ← h.slen] at this
    omega
  by_cases hex : ∃ w, w.length = i ∧ Path keys (w ++ [BitVec.ofNat 8 j])
  · obtain ⟨w, hw, hp⟩ := hex
    have hin := (h.inside _ hp).2
    have hle := mono_le h.mono ((w ++ [BitVec.ofNat 8 j]).length + 1) (L + 2) (by have := hp.length_le hL; omega) (by omega)
    have hpos : s.code[i][j] ≤ pos s.code (w ++ [BitVec.ofNat 8 j]) := by
      have := pos_append (s.code.take i) w (s.code.getD i []) (BitVec.ofNat 8 j) (by rw [List.length_take]; omega)
      have h2 := pos_extend (s.code.take i ++ [s.code.getD i []]) (w ++ [BitVec.ofNat 8 j]) (s.code.drop (i + 1)) (by simp; omega)
      have h3 : s.code.take i ++ [s.code.getD i []] ++ s.code.drop (i + 1) = s.code := by
        rw [List.getD_eq_getElem?_getD, List.getElem?_eq_getElem hi, Option.getD_some, List.append_assoc, List.singleton_append,
          ← List.drop_eq_getElem_cons hi, List.take_append_drop]
      rw [h3] at h2
      rw [h2, this, BitVec.toNat_ofNat, show j % 2 ^ 8 = j by omega, hg]
      omega
    rw [h.slen]
    omega
  · have := h.zero i hi' (BitVec.ofNat 8 j) (fun w hw hp => hex ⟨w, hw, hp⟩)
    rw [BitVec.toNat_ofNat, show j % 2 ^ 8 = j by omega, hg] at this
    omega

/-- The narrow construction is the wide one when the places fit, and runs out of range when they do not. -/
theorem build_fits {W : Nat} {legacy : Bool} {keys : List Key} (hne : keys ≠ []) (hnul : ∀ k ∈ keys, 0 ∉ k) (hW1 : 1 ≤ W) (hW : W ≤ 64)
    {L : Nat} (hL : ∀ k ∈ keys, k.length ≤ L) (hbig : (L + 2) * (1 + (L + 1) * (keys.length * keys.length)) < 2 ^ 64) :
    ∃ L' s, L' ≤ L ∧ build 64 legacy keys = some s ∧ Ok 64 keys L' s ∧ (∀ k ∈ keys, k.length ≤ L') ∧
      build W legacy keys = if s.storage.length < 2 ^ W then some s else none := by
  obtain ⟨L', s, hle, es, ok, hL'⟩ := build_ok (legacy := legacy) (W := 64) hne hnul (Nat.le_refl _) hL hbig
  refine ⟨L', s, hle, es, ok, hL', ?_⟩
  obtain ⟨l1, l2⟩ := lmax_spec keys hne
  have hle2 : lmax (keys.map List.length) ≤ L := by
    obtain ⟨k, hk, e⟩ := l2
    rw [← e]; exact hL k hk
  have h2W : 2 ≤ 2 ^ W := by
    have := Nat.pow_le_pow_right (n := 2) (by decide) hW1
    omega
  obtain ⟨s', f1, f2, f3, f4⟩ := levels_cut (legacy := legacy) hW hnul (lmax (keys.map List.length)) l1 l2
    (Nat.lt_of_le_of_lt (poly_mono hle2) hbig) (lmax (keys.map List.length) + 2) 0 _ (by omega) (by omega) (ginv_start (W := 64) (by decide) keys hne) (by
      intro x hx
      simp at hx
      omega)
  have hlast : s'.head.getLast? = some (s'.head.getD (lmax (keys.map List.length) + 2) 0) := by
    rw [List.getLast?_eq_getElem?, f2.hlen, List.getD_eq_getElem?_getD,
      show lmax (keys.map List.length) + 1 + 2 - 1 = lmax (keys.map List.length) + 2 by omega, List.getElem?_eq_getElem (by rw [f2.hlen]; omega)]
    rfl
  have es' := es
  simp only [build, f1, hlast, Option.bind_eq_bind, Option.bind_some, Option.bind_eq_some_iff, Option.pure_def, Option.some.injEq] at es'
  obtain ⟨m, em, rfl⟩ := es'
  have hml : m.length = s'.head.getD (lmax (keys.map List.length) + 2) 0 := by
    rw [store_length _ _ _ em, List.length_replicate]
  simp only
  have hstart : (St.cut W ⟨[(0, 94)], [(0, keys)], [], [0, 1]⟩) = ⟨[(0, 94)], [(0, keys)], [], [0, 1]⟩ := rfl
  rw [hstart] at f3 f4
  split
  · rename_i hlt
    have hcut : s'.cut W = s' := by
      have : s'.code.map (Samc.cut W) = s'.code := by
        conv => rhs; rw [← List.map_id s'.code]
        exact List.map_congr_left fun row hrow => cut_id fun x hx => Nat.lt_trans (ok.code_lt hL' row hrow x hx) hlt
      unfold St.cut
      rw [this]
    rw [hcut] at f3
    simp only [build, f3 (by omega), hlast, em, Option.bind_eq_bind, Option.bind_some, Option.pure_def]
  · rename_i hge
    unfold build
    cases hr : levels W legacy (lmax (keys.map List.length) + 2) 0 ⟨[(0, 94)], [(0, keys)], [], [0, 1]⟩ with
    | none => rfl
    | some r =>
      obtain ⟨⟨p, hp, hp1⟩, x, hx, hxW⟩ := f4 (by omega) r hr
      simp only [Option.bind_eq_bind, Option.bind_some, hx]
      rw [store_none _ _ ⟨p, hp, by rw [List.length_replicate]; omega⟩]
      rfl

end Verif.Samc
