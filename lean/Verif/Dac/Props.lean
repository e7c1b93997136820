/-
Property theorems C32 and C33 (DacVector).
-/
import Verif.Dac.Lemmas

namespace Verif.Dac
open Verif.Bits Verif.Serial

/-- Layer widths the constructor accepts for a list: widths 1..63, wide enough in total for every value,
and every layer starts below the bit length of some value. -/
structure UnitsOk (list units : List Nat) : Prop where
  ne : units ≠ []
  width : ∀ u ∈ units, 1 ≤ u ∧ u ≤ 63
  cover : ∀ v ∈ list, v < 2 ^ units.sum
  start : ∃ v ∈ list, ∀ i, i < units.length → (units.take i).sum < Nat.log2 v + 1

/-- What the user sees: size, elements, the exception of `at`. -/
def Shows (d : Dac) (list : List Nat) : Prop :=
  d.size = some list.length ∧ (∀ i, i < list.length → d.get i = list[i]?) ∧
  ∀ i, d.at i = some (if i < list.length then list[i]? else none)

theorem shows_of_ok {units list : List Nat} {d : Dac} (h : Ok units list d) (hune : units ≠ [])
    (hl : ∀ v ∈ list, v < 2 ^ 63 ∧ v < 2 ^ units.sum) : Shows d list := by
  have hlp := List.length_pos_iff.2 hune
  obtain ⟨L, hL, hLo⟩ := h.lay 0 _ (List.getElem?_eq_getElem hlp)
  have hsz : d.size = some list.length := by
    unfold Dac.size
    simp only [hL, Option.bind_eq_bind, Option.bind_some, Option.pure_def]
    rw [hLo.size, List.length_map]
    rfl
  have hg := get_spec h hune hl
  refine ⟨hsz, hg, ?_⟩
  intro i
  unfold Dac.at
  simp only [hsz, Option.bind_eq_bind, Option.bind_some, Option.pure_def]
  by_cases hi : i < list.length
  · rw [if_neg (by omega), if_pos hi, hg i hi, List.getElem?_eq_getElem hi]; rfl
  · rw [if_pos (by omega), if_neg hi]

theorem ok_of_units (split : List Nat → Option (List Nat)) (list units : List Nat) (hne : list ≠ []) (hl : ∀ v ∈ list, v < 2 ^ 63)
    (hn : list.length < 2 ^ 31) (hu : UnitsOk list units) : ∃ d, make split list units = some d ∧ Ok units list d := by
  obtain ⟨cf, e, h1, h2, _⟩ := Calc.C14_cumulative list hl hn
  obtain ⟨v, hv, hst⟩ := hu.start
  have hres : reserveLoop cf units 0 = some () := by
    rw [← reserveLoop_spec]
    intro i hi
    have h3 := h1 v hv
    have h4 := hst i hi
    unfold sh
    omega
  obtain ⟨d, ed, hok⟩ := ofUnits_spec list units hne hu.ne hu.width hl cf e hres
  refine ⟨d, ?_, hok⟩
  unfold make
  rw [if_neg hne, if_neg hu.ne]
  exact ed

/-- C32. With given layer widths: size, elements and the bounds check are those of the list. -/
theorem C32_values (split : List Nat → Option (List Nat)) (list units : List Nat) (hne : list ≠ []) (hl : ∀ v ∈ list, v < 2 ^ 63)
    (hn : list.length < 2 ^ 31) (hu : UnitsOk list units) :
    ∃ d, make split list units = some d ∧ Shows d list := by
  obtain ⟨d, e, hok⟩ := ok_of_units split list units hne hl hn hu
  exact ⟨d, e, shows_of_ok hok hu.ne (fun v hv => ⟨hl v hv, hu.cover v hv⟩)⟩

example := C32_values (fun _ => none) [3, 700, 0, 66000, 5] [4, 5, 8] (by decide) (by decide) (by decide) ⟨by decide, by decide, by decide, 66000, by decide, by decide +kernel⟩

theorem lt_two_pow_of_log2 (v n : Nat) (h : Nat.log2 v + 1 ≤ n) : v < 2 ^ n :=
  Nat.lt_of_lt_of_le Nat.lt_log2_self (Nat.pow_le_pow_right (by decide) h)

theorem mem_le_sum : ∀ (l : List Nat) (u : Nat), u ∈ l → u ≤ l.sum := by
  intro l
  induction l with
  | nil => intro u h; simp at h
  | cons a l ih =>
    intro u h
    rw [List.sum_cons]
    rcases List.mem_cons.1 h with rfl | h
    · omega
    · have := ih u h; omega

/-- The computed widths satisfy the conditions on given ones. -/
theorem units_of_split (srt : List (Nat × Nat) → List (Nat × Nat)) (hsrt : ∀ l, (srt l).Perm l)
    (cost : Nat → Nat) (maxLevels : Nat) (list : List Nat) (hne : list ≠ []) (hl : ∀ v ∈ list, v < 2 ^ 63)
    (hn : list.length < 2 ^ 31) (r : List Nat) (er : Calc.splitPositions srt cost maxLevels list = some r) : UnitsOk list r := by
  obtain ⟨r', er', h1, h2, ⟨v, hv, h3⟩, _⟩ := Calc.C15_split_partial srt hsrt cost maxLevels list hne hl hn
  rw [er] at er'
  obtain rfl := Option.some.inj er'
  have hlog : ∀ v ∈ list, Nat.log2 v + 1 ≤ 63 := by
    intro v hv
    have hv63 := hl v hv
    by_cases h0 : v = 0
    · subst h0; decide
    · have := (Nat.log2_lt h0).2 hv63
      omega
  have hrne : r ≠ [] := by
    rintro rfl
    simp at h3
  have hsum : r.sum ≤ 63 := by rw [← h3]; exact hlog v hv
  have hle : ∀ u ∈ r, u ≤ r.sum := fun u hu => mem_le_sum r u hu
  refine ⟨hrne, fun u hu => ⟨h1 u hu, Nat.le_trans (hle u hu) hsum⟩, fun v hv => lt_two_pow_of_log2 v _ (h2 v hv), v, hv, ?_⟩
  intro i hi
  rw [h3]
  have hsplit : (r.take i).sum + (r.drop i).sum = r.sum := by
    rw [← List.sum_append, List.take_append_drop]
  have : 0 < (r.drop i).sum := by
    rw [List.drop_eq_getElem_cons hi, List.sum_cons]
    have := h1 _ (List.getElem_mem hi)
    omega
  omega

/-- C32. With the widths computed by `split_positions_optimized_for_dac` (whatever the rank cost function and
the unstable sort), if its out of bounds accesses are taken as harmless. -/
theorem C32_values_optimized (srt : List (Nat × Nat) → List (Nat × Nat)) (hsrt : ∀ l, (srt l).Perm l)
    (cost : Nat → Nat) (maxLevels : Nat) (list : List Nat) (hne : list ≠ []) (hl : ∀ v ∈ list, v < 2 ^ 63)
    (hn : list.length < 2 ^ 31) :
    ∃ d, make (Calc.splitPositions srt cost maxLevels) list [] = some d ∧ Shows d list := by
  obtain ⟨r, er, _⟩ := Calc.C15_split_partial srt hsrt cost maxLevels list hne hl hn
  have hu := units_of_split srt hsrt cost maxLevels list hne hl hn r er
  obtain ⟨d, ed, hs⟩ := C32_values (Calc.splitPositions srt cost maxLevels) list r hne hl hn hu
  refine ⟨d, ?_, hs⟩
  unfold make at ed ⊢
  rw [if_neg hne, if_neg hu.ne] at ed
  rw [if_neg hne, if_pos rfl, er]
  exact ed

example := C32_values_optimized id (fun _ => List.Perm.refl _) (fun k => k / 4) 8 [3, 700, 0, 66000, 5] (by decide) (by decide) (by decide)

/-- C32 is false as the code stands when no widths are given: computing them always accesses a table out of
bounds (C15). -/
theorem C32_optimized_oob (srt : List (Nat × Nat) → List (Nat × Nat)) (cost : Nat → Nat) (maxLevels : Nat)
    (list : List Nat) (hne : list ≠ []) : make (Calc.splitPositionsStrict srt cost maxLevels) list [] = none := by
  unfold make
  rw [if_neg hne, if_pos rfl, Calc.C15_split_refuted srt cost maxLevels list hne]
  rfl

example := C32_optimized_oob id (fun k => k / 4) 8 [3, 700] (by decide)

/-- C32, the domain: widths whose layers do not all start below the longest bit length make the constructor read
outside of the table of cumulative frequencies. -/
theorem C32_start_oob (split : List Nat → Option (List Nat)) (list units : List Nat) (hne : list ≠ []) (hl : ∀ v ∈ list, v < 2 ^ 63)
    (hn : list.length < 2 ^ 31) (hune : units ≠ []) (i : Nat) (hi : i < units.length)
    (h : ∀ v ∈ list, Nat.log2 v + 1 ≤ (units.take i).sum) : make split list units = none := by
  obtain ⟨cf, e, _, h2, _⟩ := Calc.C14_cumulative list hl hn
  have hres : reserveLoop cf units 0 = none := by
    cases hr : reserveLoop cf units 0 with
    | none => rfl
    | some x =>
      have hr' := (reserveLoop_spec cf units 0).2 hr i hi
      unfold sh at hr'
      rcases h2 with h2 | ⟨v, hv, h2⟩
      · omega
      · have := h v hv
        omega
  unfold make ofUnits
  rw [if_neg hne, if_neg hune, if_neg hne, e]
  cases newLayers units <;> simp [hres]

example := C32_start_oob (fun _ => none) [3, 7] [8, 8] (by decide) (by decide) (by decide) (by decide) 1 (by decide) (by decide +kernel)

example : UnitsOk [3, 700, 0, 66000, 5] [4, 5, 8] := by
  refine ⟨by decide, by decide, by decide, 66000, by decide, ?_⟩
  decide +kernel
example : (make (fun _ => none) [3, 700, 0, 66000, 5] [4, 5, 8]).map (fun d => (List.range 5).map d.get) =
    some [some 3, some 700, some 0, some 66000, some 5] := by decide +kernel
example : make (fun _ => none) [3, 7] [8, 8] = none ∧ ∀ v ∈ [3, 7], Nat.log2 v + 1 ≤ ([8, 8].take 1).sum := by decide +kernel

/-- C32. An empty list leaves an object whose `size()` accesses a missing layer. -/
theorem C32_empty (split : List Nat → Option (List Nat)) (units : List Nat) :
    ∃ d, make split [] units = some d ∧ d.size = none := ⟨_, rfl, rfl⟩

/-- C33. `depth(i)` is the number of additional layers the value needs: the least `r` such that the first `r + 1`
layers are wide enough. -/
theorem C33_depth (split : List Nat → Option (List Nat)) (list units : List Nat) (hne : list ≠ []) (hl : ∀ v ∈ list, v < 2 ^ 63)
    (hn : list.length < 2 ^ 31) (hu : UnitsOk list units) :
    ∃ d, make split list units = some d ∧ ∀ (i x : Nat), list[i]? = some x →
      ∃ r, d.depth i = some r ∧ x < 2 ^ (units.take (r + 1)).sum ∧ ∀ j, x < 2 ^ (units.take (j + 1)).sum → r ≤ j := by
  obtain ⟨d, e, hok⟩ := ok_of_units split list units hne hl hn hu
  refine ⟨d, e, ?_⟩
  intro i x hx
  have hlp := List.length_pos_iff.2 hu.ne
  obtain ⟨r, er, _, h2, h3, h4⟩ := depthLoop_spec hok x (units.length - 1) 0 i (by omega) (by simpa [arr, sh_zero] using hx)
  refine ⟨r, ?_, ?_, ?_⟩
  · unfold Dac.depth
    simp only [hok.num, Option.bind_eq_bind, Option.bind_some]
    rw [if_neg (by omega)]
    exact er
  · by_cases hr : r + 1 < units.length
    · exact h3 hr
    · have := hu.cover x (List.mem_of_getElem? hx)
      rw [List.take_of_length_le (by omega)]
      exact this
  · intro j hj
    rcases Nat.lt_or_ge j r with hjr | hjr
    · have h5 := h4 (by omega)
      have h6 : 2 ^ (units.take (j + 1)).sum ≤ 2 ^ sh units r :=
        Nat.pow_le_pow_right (by decide) (sh_mono units (j + 1) r (by omega))
      omega
    · exact hjr

example : (make (fun _ => none) [3, 700, 0, 66000, 5] [4, 5, 8]).map (fun d => (List.range 5).map d.depth) =
    some [some 0, some 2, some 0, some 2, some 0] := by decide +kernel

/-! ### Serialisation -/

theorem readMany_spec {α : Type} (rd : Stream → Option (α × Stream)) (wrt : α → Stream) :
    ∀ (l : List α) (s : Stream), (∀ a ∈ l, ∀ s, rd (wrt a ++ s) = some (a, s)) →
      readMany rd l.length ((l.map wrt).flatten ++ s) = some (l, s) := by
  intro l
  induction l with
  | nil => intro s _; rfl
  | cons a l ih =>
    intro s h
    rw [List.length_cons, readMany, List.map_cons, List.flatten_cons, List.append_assoc, h a (by simp)]
    simp only [Option.bind_eq_bind, Option.bind_some]
    rw [ih s (fun b hb => h b (by simp [hb]))]
    rfl

theorem LayOk.roundtrip {u : Nat} {L : Fit.FVec} {l : List Nat} (h : LayOk u L l) (hl : l.length < 2 ^ 31) (s : Stream) :
    Fit.read (L.write ++ s) = some (L, s) ∧ L.write.length = L.sizeInBytes := by
  have hm : widthMask u = some L.mask := by
    obtain ⟨m, hm, hb⟩ := C09_widthMask u (by have := h.wf.le; omega)
    rw [hm]; congr 1
    apply BitVec.eq_of_getLsbD_eq
    intro j _
    rw [hb, h.wf.mask]
  have hs := h.size
  refine ⟨Fit.read_write L u h.wf.le h.wf.width hm (by omega) ?_ s, ?_⟩
  · rw [h.wf.len]
    unfold Fit.need
    have h63 := h.wf.le
    have : L.size * u ≤ L.size * 63 := Nat.mul_le_mul_left _ h63
    split <;> omega
  · simp [Fit.FVec.write, Fit.FVec.sizeInBytes, writeVal_length, C47_size_vec]; omega

theorem arr_length (units : List Nat) (d : Nat) (xs : List Nat) : (arr units d xs).length ≤ xs.length := by
  unfold arr
  split
  · exact Nat.le_refl _
  · exact Nat.le_trans (List.length_filter_le _ _) (Nat.le_of_eq (List.length_map _))

/-- C33. `Read` restores a written DacVector from its bytes, whatever follows, and consumes exactly these bytes;
`size_in_bytes()` is 8 more than their number. -/
theorem C33_roundtrip (split : List Nat → Option (List Nat)) (list units : List Nat) (hne : list ≠ []) (hl : ∀ v ∈ list, v < 2 ^ 63)
    (hn : list.length < 2 ^ 31) (hu : UnitsOk list units) (hun : units.length < 2 ^ 64) (st : Stream) :
    ∃ d b, make split list units = some d ∧ d.write = some b ∧ read (b ++ st) = some (d, st) ∧
      d.sizeInBytes = some (b.length + 8) := by
  obtain ⟨d, e, hok⟩ := ok_of_units split list units hne hl hn hu
  have hlay : ∀ L ∈ d.layers, ∀ s, Fit.read (L.write ++ s) = some (L, s) ∧ L.write.length = L.sizeInBytes := by
    intro L hL s
    obtain ⟨i, hi, rfl⟩ := List.getElem_of_mem hL
    rw [hok.llen] at hi
    obtain ⟨M, hM, hMo⟩ := hok.lay i _ (List.getElem?_eq_getElem hi)
    rw [List.getElem?_eq_getElem (by rw [hok.llen]; exact hi)] at hM
    rw [Option.some.inj hM]
    apply hMo.roundtrip
    rw [List.length_map]
    exact Nat.lt_of_le_of_lt (arr_length _ _ _) hn
  have hpth : ∀ p ∈ d.paths, ∀ s, Succ.read false (p.write false ++ s) = some (p, s) ∧ (p.write false).length = p.sizeInBytes false := by
    intro p hp s
    obtain ⟨i, hi, rfl⟩ := List.getElem_of_mem hp
    have hi2 := hi
    rw [hok.plen] at hi
    obtain ⟨q, t, ht, hb, hbl⟩ := hok.pth i _ (by omega) (List.getElem?_eq_getElem (by omega))
    rw [List.getElem?_eq_getElem hi2] at ht
    rw [Option.some.inj ht]
    obtain ⟨t', et, h1, h2⟩ := Succ.C23_roundtrip false q _ hbl (by
      unfold flags
      rw [List.length_map]
      have := arr_length units i list
      omega) s
    rw [hb] at et
    obtain rfl := Option.some.inj et
    exact ⟨h1, h2⟩
  have hrd : ∀ s, readMany (readVal 8) units.length ((units.map (writeVal 8)).flatten ++ s) = some (units, s) := by
    intro s
    apply readMany_spec
    intro a ha s
    exact readVal_writeVal 8 a (Nat.lt_of_le_of_lt (hu.width a ha).2 (by decide)) s
  have hdw : d.write = some (writeVal 8 units.length ++ (units.map (writeVal 8)).flatten ++ (d.layers.map Fit.FVec.write).flatten ++
      (d.paths.map (Succ.SBV.write false)).flatten) := by
    unfold Dac.write
    rw [hok.num, hok.us]
    rfl
  refine ⟨d, _, e, hdw, ?_, ?_⟩
  · unfold read
    rw [List.append_assoc, List.append_assoc, List.append_assoc, readVal_writeVal 8 _ (Nat.lt_of_lt_of_le hun (by decide))]
    simp only [Option.bind_eq_bind, Option.bind_some, Option.pure_def]
    rw [hrd]
    simp only [Option.bind_some]
    have h1 := readMany_spec Fit.read Fit.FVec.write d.layers ((d.paths.map (Succ.SBV.write false)).flatten ++ st)
      (fun L hL s => (hlay L hL s).1)
    rw [hok.llen] at h1
    rw [h1]
    simp only [Option.bind_some]
    have h2 := readMany_spec (Succ.read false) (Succ.SBV.write false) d.paths st (fun p hp s => (hpth p hp s).1)
    rw [hok.plen] at h2
    rw [h2]
    simp only [Option.bind_some]
    have h3 := hok.num
    have h4 := hok.us
    cases d
    simp only at h3 h4
    subst h3
    subst h4
    rfl
  · unfold Dac.sizeInBytes
    simp only [hok.num, hok.us, Option.bind_eq_bind, Option.bind_some, Option.pure_def]
    rw [List.take_of_length_le (Nat.le_of_eq hok.llen), List.take_of_length_le (Nat.le_of_eq hok.plen)]
    simp only [List.length_append, writeVal_length, List.length_flatten, List.map_map, sizeVec]
    have h1 : List.map (List.length ∘ Fit.FVec.write) d.layers = List.map Fit.FVec.sizeInBytes d.layers :=
      List.map_congr_left (fun L hL => (hlay L hL []).2)
    have h2 : List.map (List.length ∘ Succ.SBV.write false) d.paths = List.map (Succ.SBV.sizeInBytes false) d.paths :=
      List.map_congr_left (fun p hp => (hpth p hp []).2)
    have h3 : ∀ us : List Nat, (List.map (List.length ∘ writeVal 8) us).sum = 8 * us.length := by
      intro us
      induction us with
      | nil => rfl
      | cons a us ih =>
        rw [List.map_cons, List.sum_cons, ih, List.length_cons]
        simp only [Function.comp, writeVal_length]; omega
    rw [h1, h2, h3]
    congr 1
    omega

example : (make (fun _ => none) [3, 700, 0, 66000, 5] [4, 5, 8]).bind (fun d => d.write.bind (fun b =>
    (read (b ++ [9#8])).map (fun r => (decide (r.1 = d), r.2)))) = some (true, [9#8]) := by decide +kernel

/-- C33. A default constructed object does not survive: its layers are written but not read back. -/
theorem C33_default : (default.bind fun d => d.write.bind fun b => (read b).map fun r => (decide (r.1 = d), decide (r.2 = []))) =
    some (false, false) := by decide +kernel

end Verif.Dac
