/-
The construction: each prefix of a terminated key has its own place, the sum of the codes of its characters.
-/
import Verif.Samc.Level
import Verif.Samc.Edges
import Mathlib.Tactic.Ring

namespace Verif.Samc
open Verif.BV Verif.Serial

/-- The sum of the codes of the characters. -/
def pos : List (List Nat) → List Byte → Nat
  | row :: rows, c :: w => row.getD c.toNat 0 + pos rows w
  | _, _ => 0

theorem pos_append : ∀ (rows : List (List Nat)) (w : List Byte) (row : List Nat) (c : Byte), w.length = rows.length →
    pos (rows ++ [row]) (w ++ [c]) = pos rows w + row.getD c.toNat 0
  | [], [], row, c, _ => by simp [pos]
  | r :: rows, b :: w, row, c, h => by
    simp only [List.cons_append, pos]
    rw [pos_append rows w row c (by simpa using h)]
    omega

theorem pos_extend : ∀ (rows : List (List Nat)) (w : List Byte) (more : List (List Nat)), w.length ≤ rows.length →
    pos (rows ++ more) w = pos rows w
  | [], [], more, _ => by cases more <;> simp [pos]
  | r :: rows, [], more, _ => by simp [pos]
  | r :: rows, b :: w, more, h => by
    simp only [List.cons_append, pos]
    rw [pos_extend rows w more (by simpa using h)]

/-- A prefix of a terminated key. -/
def Path (keys : List Key) (w : List Byte) : Prop := ∃ k ∈ keys, w <+: ext k

theorem Path.init {keys : List Key} {w : List Byte} {c : Byte} (h : Path keys (w ++ [c])) : Path keys w := by
  obtain ⟨k, hk, h⟩ := h
  exact ⟨k, hk, (List.prefix_append _ _).trans h⟩

theorem path_get {k : Key} {w : List Byte} {c : Byte} (h : w ++ [c] <+: ext k) : (ext k)[w.length]? = some c ∧ w <+: k := by
  obtain ⟨t, ht⟩ := h
  refine ⟨?_, ?_⟩
  · rw [← ht]; simp
  · have hl := congrArg List.length ht
    simp only [ext, List.length_append, List.length_singleton] at hl
    have : w = k.take w.length := by
      have h2 := congrArg (List.take w.length) ht
      rw [ext, List.append_assoc, List.take_left, List.take_append_of_le_length (by omega)] at h2
      exact h2
    rw [this]
    exact List.take_prefix ..

theorem get_path {k : Key} {w : List Byte} {c : Byte} (h : (ext k)[w.length]? = some c) (hw : w <+: k) : w ++ [c] <+: ext k := by
  have h1 : w = (ext k).take w.length := by
    have := hw.length_le
    rw [ext, List.take_append_of_le_length this]
    exact List.prefix_iff_eq_take.1 hw
  obtain ⟨hl, e⟩ := List.getElem?_eq_some_iff.1 h
  have : w ++ [c] = (ext k).take (w.length + 1) := by
    rw [List.take_add_one, ← h1, h]
    rfl
  rw [this]
  exact List.take_prefix ..

/-- State after `d` levels. -/
structure GInv (W : Nat) (keys : List Key) (d : Nat) (s : St) : Prop where
  clen : s.code.length = d
  rows : ∀ row ∈ s.code, row.length = 256
  small : ∀ t, t < d → ∀ c, s.head.getD (t + 1) 0 + (s.code.getD t []).getD c 0 < 2 ^ W
  hlen : s.head.length = d + 2
  hsmall : ∀ x ∈ s.head, x < 2 ^ W
  mono : ∀ t, t ≤ d → s.head.getD t 0 < s.head.getD (t + 1) 0
  start : s.head.getD 0 0 = 0 ∧ s.head.getD 1 0 = 1
  inside : ∀ w, Path keys w → w.length ≤ d → s.head.getD w.length 0 ≤ pos s.code w ∧ pos s.code w < s.head.getD (w.length + 1) 0
  inj : ∀ w w', Path keys w → Path keys w' → w.length = w'.length → w.length ≤ d → pos s.code w = pos s.code w' → w = w'
  zero : ∀ t, t < d → ∀ c : Byte, (∀ w, w.length = t → ¬ Path keys (w ++ [c])) → (s.code.getD t []).getD c.toNat 0 = 0
  mapC : ∀ w c, Path keys (w ++ [c]) → w.length < d → (pos s.code (w ++ [c]), c) ∈ s.map
  mapS : ∀ p ∈ s.map, p = (0, 94) ∨ ∃ w c, Path keys (w ++ [c]) ∧ w.length < d ∧ p = (pos s.code (w ++ [c]), c)
  queueS : ∀ p ∈ s.queue, p.2 ≠ [] ∧ ∃ w, w.length = d ∧ p.1 = pos s.code w ∧ ∀ k ∈ p.2, k ∈ keys ∧ w <+: k
  queueC : ∀ k ∈ keys, d ≤ k.length → ∃ p ∈ s.queue, k ∈ p.2
  queueN : (s.queue.map (fun p => p.2.length)).sum ≤ keys.length
  height : s.head.getD (d + 1) 0 ≤ s.head.getD d 0 + 1 + d * (keys.length * keys.length)
  total : s.head.getD (d + 1) 0 ≤ (d + 1) * (1 + d * (keys.length * keys.length))

theorem getD_append_left {l m : List Nat} {i : Nat} (h : i < l.length) : (l ++ m).getD i 0 = l.getD i 0 := by
  rw [List.getD_eq_getElem?_getD, List.getElem?_append_left h, List.getD_eq_getElem?_getD]

theorem level_inv {W : Nat} {legacy : Bool} {keys : List Key} {d : Nat} {s : St} (hW : W ≤ 64) (hnul : ∀ k ∈ keys, 0 ∉ k)
    (hbig : (d + 2) * (1 + (d + 1) * (keys.length * keys.length)) < 2 ^ W) (h : GInv W keys d s) (hq : s.queue ≠ []) :
    ∃ s', level W legacy d s = some s' ∧ GInv W keys (d + 1) s' := by
  have hW64 : 2 ^ W ≤ 2 ^ 64 := Nat.pow_le_pow_right (by decide) hW
  have eh0 : s.head[d]? = some (s.head.getD d 0) := by
    rw [List.getD_eq_getElem?_getD, List.getElem?_eq_getElem (by rw [h.hlen]; omega)]; rfl
  have eh1 : s.head[d + 1]? = some (s.head.getD (d + 1) 0) := by
    rw [List.getD_eq_getElem?_getD, List.getElem?_eq_getElem (by rw [h.hlen]; omega)]; rfl
  have hlt := h.mono d (Nat.le_refl _)
  have hheight := h.height
  have htotal := h.total
  have hh1W : s.head.getD (d + 1) 0 < 2 ^ W := h.hsmall _ (List.mem_of_getElem? eh1)
  generalize hH0 : s.head.getD d 0 = h0 at eh0 hlt hheight
  generalize hH1 : s.head.getD (d + 1) 0 = h1 at eh1 hlt hheight htotal hh1W
  have hqok : ∀ p ∈ s.queue, p.2 ≠ [] ∧ h0 ≤ p.1 ∧ p.1 < 2 ^ 64 ∧ ∀ k ∈ p.2, d ≤ k.length := by
    intro p hp
    obtain ⟨a1, w, a2, a3, a4⟩ := h.queueS p hp
    obtain ⟨k, hk⟩ := List.exists_mem_of_ne_nil _ a1
    have hpath : Path keys w := ⟨k, (a4 k hk).1, (a4 k hk).2.trans (List.prefix_append _ _)⟩
    have hin := h.inside w hpath (by omega)
    rw [a2, hH0, hH1] at hin
    refine ⟨a1, by omega, by omega, ?_⟩
    intro k hk
    have := (a4 k hk).2.length_le
    omega
  obtain ⟨es, ees, c1, c2, c3, c4, c5⟩ := collect_spec d h0 s.queue hqok
  have hqn := h.queueN
  -- edges and paths
  have hE : ∀ e ∈ es, ∃ w, w.length = d ∧ Path keys (w ++ [e.1]) ∧ pos s.code w = h0 + e.2.1 := by
    intro e he
    obtain ⟨p, hp, h2, k, hk, h3⟩ := c1 e he
    obtain ⟨_, w, a2, a3, a4⟩ := h.queueS p hp
    refine ⟨w, a2, ⟨k, (a4 k hk).1, get_path (by rw [a2]; exact h3) (a4 k hk).2⟩, by omega⟩
  have hP : ∀ w c, Path keys (w ++ [c]) → w.length = d → ∃ e ∈ es, e.1 = c ∧ pos s.code w = h0 + e.2.1 := by
    rintro w c ⟨k, hk, hw⟩ hl
    obtain ⟨h2, h3⟩ := path_get hw
    rw [hl] at h2
    obtain ⟨p, hp, hkp⟩ := h.queueC k hk (by have := h3.length_le; omega)
    obtain ⟨e, he, h4, h5, _⟩ := c3 p hp k hkp c h2
    obtain ⟨_, w', a2, a3, a4⟩ := h.queueS p hp
    have : w = w' := by
      rw [List.prefix_iff_eq_take.1 h3, List.prefix_iff_eq_take.1 (a4 k hkp).2, hl, a2]
    exact ⟨e, he, h4, by rw [this]; omega⟩
  have hidx : ∀ e ∈ es, e.2.1 < h1 - h0 := by
    intro e he
    obtain ⟨w, h2, h3, h4⟩ := hE e he
    have hin := h.inside w h3.init (by omega)
    rw [h2, hH0, hH1] at hin
    omega
  have hn2 : es.length * es.length ≤ keys.length * keys.length := Nat.mul_le_mul (by omega) (by omega)
  generalize hm : keys.length * keys.length = m at hn2 hbig hheight htotal
  have hB : (d + 2) * (1 + (d + 1) * m) = (d + 1) * (1 + d * m) + (d + 1) * m + (1 + d * m) + m := by ring
  have hbig' : h1 + (h1 - h0) + es.length * es.length < 2 ^ W := by
    have : 0 ≤ (d + 1) * m := Nat.zero_le _
    omega
  obtain ⟨l, el, li⟩ := charLoop_inv (legacy := legacy) (map0 := s.map) hlt hW hbig' hidx 256 0 _ rfl (linv_start h0 (h1 - h0) es s.map)
  have hmh := li.mhb
  have hnewW : (h1 + l.mh) % 2 ^ W = h1 + l.mh := Nat.mod_eq_of_lt (by omega)
  have hmhpos : 0 < l.mh := by
    obtain ⟨p, hp⟩ := List.exists_mem_of_ne_nil _ hq
    obtain ⟨k, hk⟩ := List.exists_mem_of_ne_nil _ (hqok p hp).1
    obtain ⟨c, hc⟩ := ext_get ((hqok p hp).2.2.2 k hk)
    obtain ⟨e, he, _⟩ := c3 p hp k hk c hc
    have := (li.pos e he e.1.isLt).2
    omega
  refine ⟨⟨l.map, l.queue, s.code ++ [l.codes], s.head ++ [h1 + l.mh]⟩, ?_, ?_⟩
  · simp only [level, eh0, eh1, ees, el, hnewW, Option.bind_eq_bind, Option.bind_some, Option.pure_def]
  have hcl := h.clen
  have hhl := h.hlen
  have hd : ∀ t, t ≤ d + 1 → (s.head ++ [h1 + l.mh]).getD t 0 = s.head.getD t 0 := fun t ht => getD_append_left (by omega)
  have hdn : (s.head ++ [h1 + l.mh]).getD (d + 2) 0 = h1 + l.mh := by
    rw [List.getD_eq_getElem?_getD, List.getElem?_append_right (by omega), hhl]
    simp
  have hpo : ∀ w, w.length ≤ d → pos (s.code ++ [l.codes]) w = pos s.code w := fun w hw => pos_extend _ _ _ (by omega)
  have hpn : ∀ w c, w.length = d → pos (s.code ++ [l.codes]) (w ++ [c]) = pos s.code w + l.codes.getD c.toNat 0 :=
    fun w c hw => pos_append _ _ _ _ (by omega)
  have hpe : ∀ w c, Path keys (w ++ [c]) → w.length = d →
      ∃ e ∈ es, e.1 = c ∧ pos s.code w = h0 + e.2.1 ∧ pos (s.code ++ [l.codes]) (w ++ [c]) = h0 + e.2.1 + l.codes.getD e.1.toNat 0 := by
    intro w c hw hl
    obtain ⟨e, he, h2, h3⟩ := hP w c hw hl
    exact ⟨e, he, h2, h3, by rw [hpn w c hl, h2, h3]⟩
  have hsnoc : ∀ w : List Byte, w.length = d + 1 → ∃ w' c, w = w' ++ [c] ∧ w'.length = d := by
    intro w hw
    have hne : w ≠ [] := by rintro rfl; simp at hw
    exact ⟨w.dropLast, w.getLast hne, (List.dropLast_append_getLast hne).symm, by simp [hw]⟩
  constructor
  · simp [hcl]
  · intro row hrow
    rcases List.mem_append.1 hrow with hr | hr
    · exact h.rows row hr
    · rw [List.mem_singleton.1 hr]; exact li.len
  · intro t ht c
    simp only
    rw [hd (t + 1) (by omega)]
    by_cases htd : t < d
    · rw [show (s.code ++ [l.codes]).getD t [] = s.code.getD t [] from by
        rw [List.getD_eq_getElem?_getD, List.getElem?_append_left (by omega), ← List.getD_eq_getElem?_getD]]
      exact h.small t htd c
    · rw [show (s.code ++ [l.codes]).getD t [] = l.codes from by
        rw [List.getD_eq_getElem?_getD, List.getElem?_append_right (by omega), show t - s.code.length = 0 by omega]
        rfl]
      have := li.small c
      rw [show t = d by omega, hH1]
      omega
  · simp [hhl]
  · intro x hx
    rcases List.mem_append.1 hx with hx | hx
    · exact h.hsmall x hx
    · rw [List.mem_singleton.1 hx]
      omega
  · intro t ht
    simp only
    by_cases htd : t ≤ d
    · rw [hd t (by omega), hd (t + 1) (by omega)]
      exact h.mono t htd
    · rw [show t = d + 1 by omega, hd (d + 1) (Nat.le_refl _), hdn, hH1]
      omega
  · simp only
    rw [hd 0 (by omega), hd 1 (by omega)]
    exact h.start
  · intro w hw hl
    simp only
    by_cases hwd : w.length ≤ d
    · rw [hd _ (by omega), hd _ (by omega), hpo w hwd]
      exact h.inside w hw hwd
    · obtain ⟨w', c, rfl, hl'⟩ := hsnoc w (by omega)
      obtain ⟨e, he, h2, h3, h4⟩ := hpe w' c hw hl'
      have := li.pos e he e.1.isLt
      rw [show (w' ++ [c]).length = d + 1 by simp [hl'], hd _ (Nat.le_refl _), hdn, hH1, h4]
      omega
  · intro w w' hw hw' hll hl heq
    simp only at heq
    by_cases hwd : w.length ≤ d
    · rw [hpo w hwd, hpo w' (by omega)] at heq
      exact h.inj w w' hw hw' hll hwd heq
    · obtain ⟨w1, c, rfl, hl1⟩ := hsnoc w (by omega)
      obtain ⟨w2, c', rfl, hl2⟩ := hsnoc w' (by omega)
      obtain ⟨e, he, h2, h3, h4⟩ := hpe w1 c hw hl1
      obtain ⟨e', he', h2', h3', h4'⟩ := hpe w2 c' hw' hl2
      rw [h4, h4'] at heq
      have hcc := li.inj e he e' he' e.1.isLt e'.1.isLt (by omega)
      rw [hcc] at heq
      have : w1 = w2 := h.inj w1 w2 hw.init hw'.init (by omega) (by omega) (by omega)
      rw [this, ← h2, ← h2', hcc]
  · intro t ht c hc
    simp only
    by_cases htd : t < d
    · rw [show (s.code ++ [l.codes]).getD t [] = s.code.getD t [] from by
        rw [List.getD_eq_getElem?_getD, List.getElem?_append_left (by omega), ← List.getD_eq_getElem?_getD]]
      exact h.zero t htd c hc
    · rw [show (s.code ++ [l.codes]).getD t [] = l.codes from by
        rw [List.getD_eq_getElem?_getD, List.getElem?_append_right (by omega), show t - s.code.length = 0 by omega]
        rfl]
      refine li.zero c.toNat (Or.inr ?_)
      intro e he hec
      obtain ⟨w, h2, h3, _⟩ := hE e he
      rw [BitVec.toNat_inj.1 hec] at h3
      exact hc w (by omega) h3
  · intro w c hw hl
    simp only
    obtain ⟨M, e1, e2⟩ := li.map
    rw [e1]
    by_cases hwd : w.length < d
    · rw [hpo _ (by simp; omega)]
      exact List.mem_append_left _ (h.mapC w c hw hwd)
    · obtain ⟨e, he, h2, h3, h4⟩ := hpe w c hw (by omega)
      refine List.mem_append_right _ ((e2 _).2 ⟨e, he, e.1.isLt, ?_⟩)
      rw [h4, h2]
  · intro p hp
    simp only at hp ⊢
    obtain ⟨M, e1, e2⟩ := li.map
    rw [e1] at hp
    rcases List.mem_append.1 hp with hp | hp
    · rcases h.mapS p hp with hp | ⟨w, c, hw, hl, hp⟩
      · exact Or.inl hp
      · exact Or.inr ⟨w, c, hw, by omega, by rw [hpo _ (by simp; omega)]; exact hp⟩
    · obtain ⟨e, he, _, hp⟩ := (e2 p).1 hp
      obtain ⟨w, h2, h3, h4⟩ := hE e he
      exact Or.inr ⟨w, e.1, h3, by omega, by rw [hpn w e.1 h2, h4]; exact hp⟩
  · intro p hp
    obtain ⟨e, he, _, hnz, rfl⟩ := (li.queue p).1 hp
    obtain ⟨p, hp, h2, h3, h4⟩ := c2 e he hnz
    obtain ⟨_, w, a2, a3, a4⟩ := h.queueS p hp
    refine ⟨h3, w ++ [e.1], by simp [a2], ?_, ?_⟩
    · simp only
      rw [hpn w e.1 a2, ← a3, h2]
    · intro k hk
      obtain ⟨hk1, hk2⟩ := h4 k hk
      refine ⟨(a4 k hk1).1, ?_⟩
      have hk3 := ext_ne_zero hk2 hnz
      have hw := (a4 k hk1).2
      have : w ++ [e.1] = k.take (w.length + 1) := by
        rw [List.take_add_one, ← List.prefix_iff_eq_take.1 hw, a2, hk3]
        rfl
      rw [this]
      exact List.take_prefix ..
  · intro k hk hl
    obtain ⟨p, hp, hkp⟩ := h.queueC k hk (by omega)
    have hk2 : (ext k)[d]? = some (k[d]'(by omega)) := by
      rw [ext, List.getElem?_append_left (by omega), List.getElem?_eq_getElem]
    have hnz : k[d]'(by omega) ≠ 0 := fun h => hnul k hk (h ▸ List.getElem_mem _)
    obtain ⟨e, he, h2, h3, h4⟩ := c3 p hp k hkp _ hk2
    exact ⟨_, (li.queue _).2 ⟨e, he, e.1.isLt, by rw [h2]; exact hnz, rfl⟩, h4 hnz⟩
  · exact Nat.le_trans (Nat.le_trans (Nat.le_add_right _ _) li.qsum) (Nat.le_trans c5 hqn)
  · simp only
    rw [hdn, hd (d + 1) (Nat.le_refl _), hH1, hm, show (d + 1) * m = d * m + m by ring]
    omega
  · simp only
    rw [hdn, hm, show d + 1 + 1 = d + 2 by omega, hB]
    have : 0 ≤ (d + 1) * m := Nat.zero_le _
    omega

theorem ginv_start {W : Nat} (hW : 1 < 2 ^ W) (keys : List Key) (hne : keys ≠ []) : GInv W keys 0 ⟨[(0, 94)], [(0, keys)], [], [0, 1]⟩ := by
  have hnil : ∀ w : List Byte, w.length ≤ 0 → w = [] := fun w h => List.eq_nil_of_length_eq_zero (by omega)
  constructor
  · rfl
  · simp
  · simp
  · rfl
  · intro x hx
    simp at hx
    omega
  · intro t ht
    rw [show t = 0 by omega]
    exact Nat.zero_lt_one
  · exact ⟨rfl, rfl⟩
  · intro w _ hw
    rw [hnil w hw]
    simp [pos]
  · intro w w' _ _ h1 h2 _
    rw [hnil w h2, hnil w' (by omega)]
  · intro t ht; omega
  · intro w c _ h; omega
  · intro p hp
    exact Or.inl (List.mem_singleton.1 hp)
  · intro p hp
    rw [List.mem_singleton.1 hp]
    exact ⟨hne, [], rfl, rfl, fun k hk => ⟨hk, List.nil_prefix⟩⟩
  · intro k hk _
    exact ⟨_, List.mem_singleton.2 rfl, hk⟩
  · simp
  · simp
  · simp

theorem levels_spec {W : Nat} {legacy : Bool} {keys : List Key} (hW : W ≤ 64) (hnul : ∀ k ∈ keys, 0 ∉ k) (L : Nat)
    (hL : ∀ k ∈ keys, k.length ≤ L) (hmax : ∃ k ∈ keys, k.length = L)
    (hbig : (L + 2) * (1 + (L + 1) * (keys.length * keys.length)) < 2 ^ W) : ∀ (n d : Nat) (s : St), n + d = L + 2 → 0 < n → GInv W keys d s →
    ∃ s', levels W legacy n d s = some s' ∧ GInv W keys (L + 1) s'
  | 0, _, _, _, hn, _ => absurd hn (by simp)
  | n + 1, d, s, hnd, _, h => by
    simp only [levels]
    obtain ⟨km, hkm, hkL⟩ := hmax
    by_cases hq : s.queue = []
    · rw [if_pos hq]
      have hd : ¬ d ≤ L := by
        intro hd
        obtain ⟨p, hp, _⟩ := h.queueC km hkm (by omega)
        rw [hq] at hp
        simp at hp
      rw [show d = L + 1 by omega] at h
      exact ⟨s, rfl, h⟩
    · rw [if_neg hq]
      have hd : d ≤ L := by
        obtain ⟨p, hp⟩ := List.exists_mem_of_ne_nil _ hq
        obtain ⟨a1, w, a2, a3, a4⟩ := h.queueS p hp
        obtain ⟨k, hk⟩ := List.exists_mem_of_ne_nil _ a1
        have := (a4 k hk).2.length_le
        have := hL k (a4 k hk).1
        omega
      have hb : (d + 2) * (1 + (d + 1) * (keys.length * keys.length)) < 2 ^ W :=
        Nat.lt_of_le_of_lt (Nat.mul_le_mul (by omega) (Nat.add_le_add_left (Nat.mul_le_mul_right _ (by omega)) _)) hbig
      obtain ⟨s1, e1, h1⟩ := level_inv (legacy := legacy) hW hnul hb h hq
      simp only [e1, Option.bind_eq_bind, Option.bind_some]
      exact levels_spec hW hnul L hL ⟨km, hkm, hkL⟩ hbig n (d + 1) s1 (by omega) (by omega) h1

theorem store_spec : ∀ (ps : List (Nat × Byte)) (m : List Byte), (∀ p ∈ ps, p.1 < m.length) →
    (∀ p ∈ ps, ∀ p' ∈ ps, p.1 = p'.1 → p.2 = p'.2) →
    ∃ m', store ps m = some m' ∧ m'.length = m.length ∧ (∀ p ∈ ps, m'[p.1]? = some p.2) ∧
      ∀ i, (∀ p ∈ ps, p.1 ≠ i) → m'[i]? = m[i]?
  | [], m, _, _ => ⟨m, rfl, rfl, by simp, fun _ _ => rfl⟩
  | (i, c) :: ps, m, hb, hf => by
    have hi := hb (i, c) (List.mem_cons_self ..)
    obtain ⟨m', e, l, a1, a2⟩ := store_spec ps (m.set i c) (fun p hp => by
      rw [List.length_set]
      exact hb p (List.mem_cons_of_mem _ hp)) (fun p hp p' hp' => hf p (List.mem_cons_of_mem _ hp) p' (List.mem_cons_of_mem _ hp'))
    refine ⟨m', by simp only [store, wr_eq m i c hi, Option.bind_eq_bind, Option.bind_some, e], by rw [l, List.length_set], ?_, ?_⟩
    · intro p hp
      rcases List.mem_cons.1 hp with rfl | hp
      · by_cases hex : ∃ p ∈ ps, p.1 = i
        · obtain ⟨p, hp, hpi⟩ := hex
          have h1 := a1 p hp
          have h2 := hf p (List.mem_cons_of_mem _ hp) (i, c) (List.mem_cons_self ..) hpi
          rw [hpi, h2] at h1
          exact h1
        · rw [a2 i (fun p hp h => hex ⟨p, hp, h⟩)]
          simp only [List.getElem?_set_self hi]
      · exact a1 p hp
    · intro j hj
      rw [a2 j (fun p hp => hj p (List.mem_cons_of_mem _ hp)), List.getElem?_set_ne (hj (i, c) (List.mem_cons_self ..))]

/-- What the object represents. -/
structure Ok (W : Nat) (keys : List Key) (L : Nat) (s : Samc) : Prop where
  clen : s.code.length = L + 1
  rows : ∀ row ∈ s.code, row.length = 256
  small : ∀ t, t ≤ L → ∀ c, s.head.getD (t + 1) 0 + (s.code.getD t []).getD c 0 < 2 ^ W
  hlen : s.head.length = L + 3
  hsmall : ∀ x ∈ s.head, x < 2 ^ W
  slen : s.storage.length = s.head.getD (L + 2) 0
  total : s.storage.length ≤ (L + 2) * (1 + (L + 1) * (keys.length * keys.length))
  mono : ∀ t, t ≤ L + 1 → s.head.getD t 0 < s.head.getD (t + 1) 0
  start : s.head.getD 0 0 = 0 ∧ s.head.getD 1 0 = 1
  inside : ∀ w, Path keys w → s.head.getD w.length 0 ≤ pos s.code w ∧ pos s.code w < s.head.getD (w.length + 1) 0
  inj : ∀ w w', Path keys w → Path keys w' → w.length = w'.length → pos s.code w = pos s.code w' → w = w'
  zero : ∀ t, t ≤ L → ∀ c : Byte, (∀ w, w.length = t → ¬ Path keys (w ++ [c])) → (s.code.getD t []).getD c.toNat 0 = 0
  label : ∀ w c, Path keys (w ++ [c]) → s.storage[pos s.code (w ++ [c])]? = some c
  only : ∀ x c, 0 < x → s.storage[x]? = some c → c = 0xff ∨ ∃ w, Path keys (w ++ [c]) ∧ x = pos s.code (w ++ [c])

theorem mono_le {h : List Nat} {L : Nat} (hm : ∀ t, t ≤ L → h.getD t 0 < h.getD (t + 1) 0) : ∀ a b, a ≤ b → b ≤ L + 1 → h.getD a 0 ≤ h.getD b 0 := by
  intro a b hab
  induction b with
  | zero => intro _; rw [show a = 0 by omega]
  | succ b ih =>
    intro hb
    by_cases hc : a = b + 1
    · rw [hc]
    · have := ih (by omega) (by omega)
      have := hm b (by omega)
      omega

/-- The block of a place determines the depth. -/
theorem depth_unique {h : List Nat} {L : Nat} (hm : ∀ t, t ≤ L → h.getD t 0 < h.getD (t + 1) 0) {x a b : Nat} (ha : a ≤ L) (hb : b ≤ L)
    (h1 : h.getD a 0 ≤ x) (h2 : x < h.getD (a + 1) 0) (h3 : h.getD b 0 ≤ x) (h4 : x < h.getD (b + 1) 0) : a = b := by
  rcases Nat.lt_trichotomy a b with hlt | heq | hlt
  · have := mono_le hm (a + 1) b (by omega) (by omega)
    omega
  · exact heq
  · have := mono_le hm (b + 1) a (by omega) (by omega)
    omega

theorem Path.length_le {keys : List Key} {L : Nat} (hL : ∀ k ∈ keys, k.length ≤ L) {w : List Byte} (h : Path keys w) : w.length ≤ L + 1 := by
  obtain ⟨k, hk, hw⟩ := h
  have := hw.length_le
  have := hL k hk
  simp only [ext, List.length_append, List.length_singleton] at *
  omega

theorem lmax_spec (keys : List Key) (hne : keys ≠ []) :
    (∀ k ∈ keys, k.length ≤ lmax (keys.map List.length)) ∧ ∃ k ∈ keys, k.length = lmax (keys.map List.length) := by
  constructor
  · intro k hk
    exact le_lmax _ _ (List.mem_map.2 ⟨k, hk, rfl⟩)
  · have := lmax_mem (keys.map List.length) (by simpa using hne)
    obtain ⟨k, hk, e⟩ := List.mem_map.1 this
    exact ⟨k, hk, e⟩

theorem build_spec {W : Nat} {legacy : Bool} {keys : List Key} (hne : keys ≠ []) (hnul : ∀ k ∈ keys, 0 ∉ k) (hW : W ≤ 64)
    {L : Nat} (hL : L = lmax (keys.map List.length)) (hbig : (L + 2) * (1 + (L + 1) * (keys.length * keys.length)) < 2 ^ W) :
    ∃ s, build W legacy keys = some s ∧ Ok W keys L s := by
  obtain ⟨l1, l2⟩ := lmax_spec keys hne
  rw [← hL] at l1 l2
  have hW1 : 1 < 2 ^ W := by
    have : 1 < (L + 2) * (1 + (L + 1) * (keys.length * keys.length)) := by
      have : (L + 2) * 1 ≤ (L + 2) * (1 + (L + 1) * (keys.length * keys.length)) := Nat.mul_le_mul_left _ (by omega)
      omega
    omega
  obtain ⟨s, es, h⟩ := levels_spec (legacy := legacy) hW hnul L l1 l2 hbig (L + 2) 0 _ (by omega) (by omega) (ginv_start hW1 keys hne)
  have hlast : s.head.getLast? = some (s.head.getD (L + 2) 0) := by
    rw [List.getLast?_eq_getElem?, h.hlen, List.getD_eq_getElem?_getD, show L + 1 + 2 - 1 = L + 2 by omega,
      List.getElem?_eq_getElem (by rw [h.hlen]; omega)]
    rfl
  have hin : ∀ w, Path keys w → s.head.getD w.length 0 ≤ pos s.code w ∧ pos s.code w < s.head.getD (w.length + 1) 0 :=
    fun w hw => h.inside w hw (hw.length_le l1)
  have hpos1 : ∀ w c, Path keys (w ++ [c]) → 0 < pos s.code (w ++ [c]) := by
    intro w c hw
    have h1 := (hin _ hw).1
    have h2 := mono_le h.mono 1 (w ++ [c]).length (by simp) (by have := hw.length_le l1; omega)
    rw [h.start.2] at h2
    omega
  have hinj : ∀ w w', Path keys w → Path keys w' → pos s.code w = pos s.code w' → w = w' := by
    intro w w' hw hw' he
    have h1 := hin w hw
    have h2 := hin w' hw'
    rw [← he] at h2
    have := depth_unique h.mono (hw.length_le l1) (hw'.length_le l1) h1.1 h1.2 h2.1 h2.2
    exact h.inj w w' hw hw' this (hw.length_le l1) he
  obtain ⟨m, em, ml, m1, m2⟩ := store_spec s.map (List.replicate (s.head.getD (L + 2) 0) 0xff) (by
      intro p hp
      rw [List.length_replicate]
      rcases h.mapS p hp with rfl | ⟨w, c, hw, _, rfl⟩
      · have := mono_le h.mono 1 (L + 2) (by omega) (by omega)
        rw [h.start.2] at this
        simp only; omega
      · have h1 := (hin _ hw).2
        have := mono_le h.mono ((w ++ [c]).length + 1) (L + 2) (by have := hw.length_le l1; omega) (by omega)
        simp only; omega) (by
      intro p hp p' hp' he
      rcases h.mapS p hp with rfl | ⟨w, c, hw, _, rfl⟩ <;> rcases h.mapS p' hp' with rfl | ⟨w', c', hw', _, rfl⟩
      · rfl
      · have := hpos1 w' c' hw'
        simp only at he; omega
      · have := hpos1 w c hw
        simp only at he; omega
      · have := hinj _ _ hw hw' he
        exact (List.append_inj' this rfl).2 |> List.singleton_inj.1)
  refine ⟨⟨m, s.code, s.head⟩, ?_, ?_⟩
  · simp only [build, ← hL, es, hlast, em, Option.bind_eq_bind, Option.bind_some, Option.pure_def]
  · refine ⟨h.clen, h.rows, fun t ht => h.small t (by omega), h.hlen, h.hsmall, by simp [ml], by simpa [ml] using h.total, h.mono, h.start, hin, fun w w' hw hw' _ => hinj w w' hw hw',
      fun t ht => h.zero t (by omega), ?_, ?_⟩
    · intro w c hw
      exact m1 _ (h.mapC w c hw (by have := hw.length_le l1; simp at this; omega))
    · intro x c hx hc
      simp only at hc ⊢
      by_cases hex : ∃ p ∈ s.map, p.1 = x
      · obtain ⟨p, hp, rfl⟩ := hex
        rw [m1 p hp] at hc
        rcases h.mapS p hp with rfl | ⟨w, c', hw, _, rfl⟩
        · simp at hx
        · simp only [Option.some.injEq] at hc
          subst hc
          exact Or.inr ⟨w, hw, rfl⟩
      · rw [m2 x (fun p hp he => hex ⟨p, hp, he⟩), List.getElem?_replicate] at hc
        split at hc
        · exact Or.inl (Option.some.inj hc).symm
        · simp at hc

end Verif.Samc
