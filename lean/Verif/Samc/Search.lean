/-
The search for a key.
-/
import Verif.Samc.Build

namespace Verif.Samc
open Verif.BV Verif.Serial

theorem codeOf_eq {W : Nat} {keys : List Key} {L : Nat} {s : Samc} (h : Ok W keys L s) {d : Nat} (hd : d ≤ L) (c : Byte) :
    s.codeOf d c = some ((s.code.getD d []).getD c.toNat 0) := by
  have hl := h.clen
  have hd' : d < s.code.length := by omega
  have hrow := h.rows _ (List.getElem_mem hd')
  have hc := c.isLt
  unfold Samc.codeOf
  simp only [List.getElem?_eq_getElem hd', Option.bind_eq_bind, Option.bind_some, List.getD_eq_getElem?_getD, Option.getD_some]
  rw [List.getElem?_eq_getElem (by omega)]
  rfl

theorem head_eq {W : Nat} {keys : List Key} {L : Nat} {s : Samc} (h : Ok W keys L s) {d : Nat} (hd : d ≤ L + 2) :
    s.head[d]? = some (s.head.getD d 0) := by
  rw [List.getD_eq_getElem?_getD, List.getElem?_eq_getElem (by rw [h.hlen]; omega)]
  rfl

theorem inRange_eq {W : Nat} {keys : List Key} {L : Nat} {s : Samc} (h : Ok W keys L s) {d : Nat} (hd : d ≤ L + 1) (x : Nat) :
    s.inRange x d = some (decide (s.head.getD d 0 ≤ x ∧ x < s.head.getD (d + 1) 0)) := by
  unfold Samc.inRange
  simp only [head_eq h (show d ≤ L + 2 by omega), head_eq h (show d + 1 ≤ L + 2 by omega), Option.bind_eq_bind, Option.bind_some, Option.pure_def]
  split
  · rename_i hle
    simp only [hle, true_and]
  · rename_i hle
    simp only [hle, false_and, decide_false]

theorem pos_step {code : List (List Nat)} {w : List Byte} (hl : w.length < code.length) (c : Byte) :
    pos code (w ++ [c]) = pos code w + (code.getD w.length []).getD c.toNat 0 := by
  have e : code = code.take w.length ++ [code[w.length]] ++ code.drop (w.length + 1) := by
    rw [List.append_assoc, List.singleton_append, List.getElem_cons_drop, List.take_append_drop]
  have hlen : (code.take w.length).length = w.length := by rw [List.length_take]; omega
  have e1 : pos code (w ++ [c]) = pos (code.take w.length ++ [code[w.length]]) (w ++ [c]) := by
    conv_lhs => rw [e]
    exact pos_extend _ _ _ (by simp; omega)
  have e2 : pos code w = pos (code.take w.length) w := by
    conv_lhs => rw [← List.take_append_drop w.length code]
    exact pos_extend _ _ _ (by omega)
  rw [e1, pos_append _ _ _ _ (by omega), e2, show code.getD w.length [] = code[w.length] by
    rw [List.getD_eq_getElem?_getD, List.getElem?_eq_getElem hl]; rfl]

/-- A step from any place of a block: it is taken to a place of the next block that holds the character, which is either the child of the prefix at the place or empty. -/
theorem step_spec {W : Nat} {keys : List Key} {L : Nat} {s : Samc} (h : Ok W keys L s) (hW : W ≤ 64) (hL : ∀ k ∈ keys, k.length ≤ L)
    {x d : Nat} (hd : d ≤ L) (h2 : x < s.head.getD (d + 1) 0) (c : Byte) :
    ∃ z, s.codeOf d c = some z ∧ (x + z) % 2 ^ 64 = x + z ∧ z = (s.code.getD d []).getD c.toNat 0 ∧
      ∃ r, s.follows (x + z) d c = some r ∧
        (r = true ↔ (s.head.getD (d + 1) 0 ≤ x + z ∧ x + z < s.head.getD (d + 2) 0) ∧ s.storage[x + z]? = some c) ∧
        (r = true → c = 0xff ∨ ∃ w, w.length = d ∧ Path keys (w ++ [c]) ∧ x = pos s.code w) := by
  have hW64 : 2 ^ W ≤ 2 ^ 64 := Nat.pow_le_pow_right (by decide) hW
  have hmono := h.mono
  have hsm := h.small d hd c.toNat
  refine ⟨_, codeOf_eq h hd c, Nat.mod_eq_of_lt (by omega), rfl, ?_⟩
  generalize hz : (s.code.getD d []).getD c.toNat 0 = z at hsm
  unfold Samc.follows
  simp only [inRange_eq h (show d + 1 ≤ L + 1 by omega), Option.bind_eq_bind, Option.bind_some, Option.pure_def]
  by_cases hr : s.head.getD (d + 1) 0 ≤ x + z ∧ x + z < s.head.getD (d + 1 + 1) 0
  · simp only [hr, and_self, decide_true, if_true]
    have hx0 : 0 < x + z := by
      have := mono_le h.mono 1 (d + 1) (by omega) (by omega)
      rw [h.start.2] at this
      omega
    have hxl : x + z < s.storage.length := by
      have := mono_le h.mono (d + 1 + 1) (L + 2) (by omega) (by omega)
      rw [h.slen]
      exact Nat.lt_of_lt_of_le hr.2 this
    obtain ⟨b, hb⟩ : ∃ b, s.storage[x + z]? = some b := ⟨_, List.getElem?_eq_getElem hxl⟩
    rw [hb]
    simp only [Option.bind_some]
    refine ⟨_, rfl, by simp, ?_⟩
    simp only [decide_eq_true_eq]
    rintro rfl
    rcases h.only _ _ hx0 hb with hc | ⟨w', hw', hx⟩
    · exact .inl hc
    · have hin' := h.inside _ hw'
      have hll : (w' ++ [b]).length = d + 1 := by
        rw [← hx] at hin'
        exact depth_unique h.mono (hw'.length_le hL) (by omega) hin'.1 hin'.2 hr.1 hr.2
      have hll' : w'.length = d := by simpa using hll
      have hpn' := pos_step (code := s.code) (w := w') (by rw [h.clen]; omega) b
      rw [hll', hz] at hpn'
      exact .inr ⟨w', hll', hw', by omega⟩
  · rw [decide_eq_false hr]
    simp only [Bool.false_eq_true, if_false]
    exact ⟨_, rfl, by simp only [Bool.false_eq_true, false_iff]; exact fun hc => hr hc.1, by simp⟩

/-- An empty place of a block. -/
def Hole (keys : List Key) (s : Samc) (x d : Nat) : Prop :=
  s.head.getD d 0 ≤ x ∧ x < s.head.getD (d + 1) 0 ∧ ∀ w, w.length = d → Path keys w → x ≠ pos s.code w

/-- A path that goes on with a character is a proper prefix of a key. -/
theorem path_snoc {keys : List Key} {w : List Byte} {c : Byte} (hc0 : c ≠ 0) (h : Path keys (w ++ [c])) : ∃ k ∈ keys, w ++ [c] <+: k := by
  obtain ⟨k', hk', hpre⟩ := h
  obtain ⟨g1, g2⟩ := path_get hpre
  have g3 := ext_ne_zero g1 hc0
  refine ⟨k', hk', ?_⟩
  have : w ++ [c] = k'.take (w.length + 1) := by
    rw [List.take_add_one, ← List.prefix_iff_eq_take.1 g2, g3]
    rfl
  rw [this]
  exact List.take_prefix ..

/-- A step that is taken and does not lead to the child of the prefix at the place leads to an empty place, with the character 255. -/
theorem step_hole {W : Nat} {keys : List Key} {L : Nat} {s : Samc} (h : Ok W keys L s) (hW : W ≤ 64) (hL : ∀ k ∈ keys, k.length ≤ L)
    {x d : Nat} (hd : d ≤ L) (h2 : x < s.head.getD (d + 1) 0) {c : Byte}
    (hno : ∀ w, w.length = d → Path keys (w ++ [c]) → x ≠ pos s.code w) {z : Nat} (hz : s.codeOf d c = some z) (hf : s.follows (x + z) d c = some true) :
    c = 0xff ∧ d + 1 ≤ L ∧ Hole keys s (x + z) (d + 1) := by
  obtain ⟨z', ez, _, hzc, r, er, hr, hor⟩ := step_spec h hW hL hd h2 c
  obtain rfl : z' = z := Option.some.inj (ez.symm.trans hz)
  obtain rfl : r = true := Option.some.inj (er.symm.trans hf)
  obtain ⟨⟨h3, h4⟩, h5⟩ := hr.1 rfl
  have hc : c = 0xff := (hor rfl).resolve_right (fun ⟨w, a, b, e⟩ => hno w a b e)
  refine ⟨hc, ?_, h3, h4, ?_⟩
  · by_contra hlt
    have := h.zero d hd c (fun w hw hp => by
      obtain ⟨k, hk, hpre⟩ := path_snoc (by rw [hc]; decide) hp
      have := hpre.length_le
      have := hL k hk
      simp at *
      omega)
    omega
  · intro w hw hp he
    have hne : w ≠ [] := by rintro rfl; simp at hw
    obtain ⟨w', c', rfl⟩ : ∃ w' c', w = w' ++ [c'] := ⟨_, _, (List.dropLast_append_getLast hne).symm⟩
    have hl' : w'.length = d := by simpa using hw
    have hlab := h.label w' c' hp
    rw [← he, h5] at hlab
    obtain rfl := Option.some.inj hlab
    have := pos_step (code := s.code) (w := w') (by rw [h.clen]; omega) c
    rw [hl'] at this
    exact hno w' hl' hp (by omega)

/-- From an empty place nothing is found. -/
theorem find_hole {W : Nat} {keys : List Key} {L : Nat} {s : Samc} (h : Ok W keys L s) (hW : W ≤ 64) (hL : ∀ k ∈ keys, k.length ≤ L) : ∀ (key : List Byte) (x d : Nat),
    d ≤ L → Hole keys s x d → s.find key x d = some none
  | [], x, d, hd, ⟨h1, h2, h3⟩ => by
    obtain ⟨z, ez, em, hzc, r, er, hr, hor⟩ := step_spec h hW hL hd h2 0
    simp only [Samc.find, ez, em, er, Option.bind_eq_bind, Option.bind_some, Option.pure_def]
    cases r with
    | false => rfl
    | true => exact absurd (step_hole h hW hL hd h2 (fun w a b => h3 w a b.init) ez er).1 (by decide)
  | c :: key, x, d, hd, ⟨h1, h2, h3⟩ => by
    obtain ⟨z, ez, em, hzc, r, er, hr, hor⟩ := step_spec h hW hL hd h2 c
    simp only [Samc.find, ez, em, er, Option.bind_eq_bind, Option.bind_some, Option.pure_def]
    cases r with
    | false => rfl
    | true =>
      obtain ⟨_, hl, hh⟩ := step_hole h hW hL hd h2 (fun w a b => h3 w a b.init) ez er
      exact find_hole h hW hL key _ _ hl hh

/-- A step from the place of a prefix. -/
theorem follows_spec {W : Nat} {keys : List Key} {L : Nat} {s : Samc} (h : Ok W keys L s) (hW : W ≤ 64) (hL : ∀ k ∈ keys, k.length ≤ L)
    {w : List Byte} (hw : Path keys w) (hl : w.length ≤ L) (c : Byte) :
    ∃ x, s.codeOf w.length c = some x ∧ (pos s.code w + x) % 2 ^ 64 = pos s.code w + x ∧ ∃ r, s.follows (pos s.code w + x) w.length c = some r ∧
      (Path keys (w ++ [c]) → r = true ∧ pos s.code w + x = pos s.code (w ++ [c])) ∧
      (¬ Path keys (w ++ [c]) → r = true → c = 0xff ∧ w.length + 1 ≤ L ∧ Hole keys s (pos s.code w + x) (w.length + 1)) := by
  have hin := h.inside w hw
  obtain ⟨z, ez, em, hzc, r, er, hr, hor⟩ := step_spec h hW hL hl hin.2 c
  have hpn := pos_step (code := s.code) (w := w) (by rw [h.clen]; omega) c
  rw [← hzc] at hpn
  refine ⟨z, ez, em, r, er, ?_, ?_⟩
  · intro hp
    have hin' := h.inside _ hp
    rw [show (w ++ [c]).length = w.length + 1 by simp] at hin'
    exact ⟨hr.2 ⟨by rw [← hpn]; exact hin', by rw [← hpn]; exact h.label w c hp⟩, hpn.symm⟩
  · intro hp hrt
    rw [hrt] at er
    refine step_hole h hW hL hl hin.2 ?_ ez er
    intro w' hl' hw' he
    exact hp (h.inj w w' hw hw'.init hl'.symm he ▸ hw')

theorem find_spec {W : Nat} {keys : List Key} {L : Nat} {s : Samc} (h : Ok W keys L s) (hW : W ≤ 64) (hL : ∀ k ∈ keys, k.length ≤ L) : ∀ (key w : List Byte),
    (0 : Byte) ∉ key → (∃ k ∈ keys, w <+: k) →
    ∃ r, s.find key (pos s.code w) w.length = some r ∧ (r.isSome = true ↔ Path keys (w ++ key ++ [0])) ∧ ∀ i, r = some i → i = pos s.code (w ++ key ++ [0])
  | [], w, h0, ⟨k, hk, hwk⟩ => by
    have hw : Path keys w := ⟨k, hk, hwk.trans (List.prefix_append _ _)⟩
    have hl : w.length ≤ L := Nat.le_trans hwk.length_le (hL k hk)
    obtain ⟨x, ex, em, r, er, h1, h2⟩ := follows_spec h hW hL hw hl 0
    simp only [Samc.find, ex, em, er, Option.bind_eq_bind, Option.bind_some, Option.pure_def]
    refine ⟨_, rfl, ?_⟩
    rw [List.append_nil]
    by_cases hp : Path keys (w ++ [0])
    · obtain ⟨rfl, e⟩ := h1 hp
      simp only [hp, e, if_true, Option.isSome_some, true_and, Option.some.injEq]
      exact fun i hi => hi.symm
    · cases r with
      | false => simp only [hp, Bool.false_eq_true, if_false, Option.isSome_none, true_and, reduceCtorEq, false_imp_iff, implies_true]
      | true => exact absurd (h2 hp rfl).1 (by decide)
  | c :: key, w, h0, ⟨k, hk, hwk⟩ => by
    have hw : Path keys w := ⟨k, hk, hwk.trans (List.prefix_append _ _)⟩
    have hl : w.length ≤ L := Nat.le_trans hwk.length_le (hL k hk)
    have hc0 : c ≠ 0 := fun hc => h0 (hc ▸ List.mem_cons_self ..)
    obtain ⟨x, ex, em, r, er, h1, h2⟩ := follows_spec h hW hL hw hl c
    simp only [Samc.find, ex, em, er, Option.bind_eq_bind, Option.bind_some, Option.pure_def]
    by_cases hp : Path keys (w ++ [c])
    · obtain ⟨rfl, e⟩ := h1 hp
      obtain ⟨r', er', h3, h4⟩ := find_spec h hW hL key (w ++ [c]) (fun hc => h0 (List.mem_cons_of_mem _ hc)) (path_snoc hc0 hp)
      rw [if_pos rfl, e, show w.length + 1 = (w ++ [c]).length by simp]
      refine ⟨r', er', ?_, ?_⟩
      · rw [h3]; simp
      · intro i hi
        rw [h4 i hi]; simp
    · have hnp : ¬ Path keys (w ++ c :: key ++ [0]) := by
        rintro ⟨k', hk', hpre⟩
        refine hp ⟨k', hk', List.IsPrefix.trans ?_ hpre⟩
        rw [show w ++ c :: key ++ [0] = w ++ [c] ++ (key ++ [0]) by simp]
        exact List.prefix_append _ _
      refine ⟨none, ?_, by simp only [hnp, Option.isSome_none, Bool.false_eq_true], by simp⟩
      cases r with
      | false => rfl
      | true =>
        obtain ⟨_, hl', hh⟩ := h2 hp rfl
        exact find_hole h hW hL key _ _ hl' hh

theorem path_ext {keys : List Key} (hnul : ∀ k ∈ keys, 0 ∉ k) {key : Key} : Path keys (key ++ [0]) ↔ key ∈ keys := by
  constructor
  · rintro ⟨k, hk, hpre⟩
    obtain ⟨h1, h2⟩ := path_get hpre
    have hl : ¬ key.length < k.length := by
      intro hlt
      rw [ext, List.getElem?_append_left hlt] at h1
      exact hnul k hk (List.mem_of_getElem? h1)
    have := h2.eq_of_length_le (by omega)
    rw [this]
    exact hk
  · intro hk
    exact ⟨key, hk, List.prefix_rfl⟩

theorem find_root {W : Nat} {keys : List Key} {L : Nat} {s : Samc} (h : Ok W keys L s) (hW : W ≤ 64) (hL : ∀ k ∈ keys, k.length ≤ L) (hne : keys ≠ [])
    (hnul : ∀ k ∈ keys, 0 ∉ k) (key : Key) (h0 : (0 : Byte) ∉ key) :
    s.find key 0 0 = some (if key ∈ keys then some (pos s.code (ext key)) else none) := by
  obtain ⟨k, hk⟩ := List.exists_mem_of_ne_nil _ hne
  obtain ⟨r, er, h1, h2⟩ := find_spec h hW hL key [] h0 ⟨k, hk, List.nil_prefix⟩
  have hp : pos s.code [] = 0 := by cases s.code <;> simp [pos]
  rw [hp] at er
  rw [show s.find key 0 0 = some r from er]
  simp only [List.nil_append, path_ext hnul] at h1 h2
  split
  · rename_i hin
    obtain ⟨i, hi⟩ := Option.isSome_iff_exists.1 (h1.2 hin)
    rw [hi, h2 i hi]
    rfl
  · rename_i hin
    cases r with
    | none => rfl
    | some i => exact absurd (h1.1 rfl) hin

end Verif.Samc
