/-
Property theorems C96 (the public tables of the matchers).
-/
import Verif.PM.Tables

namespace Verif.PM

/-- C96 (`Kmp::next`): `next(pos)` is the length of the longest proper border of the first `pos` characters that is not followed by the
character that follows them, and -1 as a `size_t` if there is none. For `pos` equal to the size of the key it is the longest border. -/
theorem C96_next (key : List Byte) (hl : key.length < 2 ^ 63) (pos : Nat) (hp : pos ≤ key.length) :
    ∃ v, kmpNext key pos = some v ∧
      (((v.toNat = 2 ^ 64 - 1) ∧ ∀ k, k < pos → key.take k <:+ key.take pos → key[k]? = key[pos]?) ∨
        (v.toNat < pos ∧ key.take v.toNat <:+ key.take pos ∧ key[v.toNat]? ≠ key[pos]? ∧
          ∀ k, v.toNat < k → k < pos → key.take k <:+ key.take pos → key[k]? = key[pos]?)) := by
  obtain ⟨t, et, hlen, h⟩ := kmpBuild_spec key
  obtain ⟨p, ep, h1, h2, h3, h4⟩ := h pos hp
  refine ⟨BitVec.ofInt 64 p, ?_, ?_⟩
  · unfold kmpNext
    simp [et, ep]
  by_cases hneg : p = -1
  · left
    subst hneg
    refine ⟨by decide, fun k hk hb => ?_⟩
    exact h3 k ((Bd_iff key pos k hp).2 ⟨hk, hb⟩) (by omega)
  · right
    obtain ⟨n, rfl⟩ := Int.eq_ofNat_of_zero_le (show 0 ≤ p by omega)
    have hv : (BitVec.ofInt 64 (n : Int)).toNat = n := by
      rw [BitVec.ofInt_natCast, BitVec.toNat_ofNat]
      apply Nat.mod_eq_of_lt
      have : n < key.length := by omega
      omega
    rw [hv]
    rcases h4 with h4 | ⟨h5, h6⟩
    · omega
    rw [Int.toNat_natCast] at h5 h6
    have h7 := (Bd_iff key pos n hp).1 h5
    refine ⟨h7.1, h7.2, h6, fun k hk hkp hb => ?_⟩
    exact h3 k ((Bd_iff key pos k hp).2 ⟨hkp, hb⟩) (by omega)

/-- C96: `next` is read out of range after the entry for the whole key. -/
theorem C96_next_oob (key : List Byte) (pos : Nat) (hp : key.length < pos) : kmpNext key pos = none := by
  obtain ⟨t, et, hlen, -⟩ := kmpBuild_spec key
  unfold kmpNext
  simp [et, List.getElem?_eq_none (show t.length ≤ pos by omega)]

example := C96_next_oob [97#8, 98#8] 3 (by decide)

/-- C96 (`Bm::skip`): the distance from the last character of the key to the last earlier place with this character, and the size of the
key if there is none. -/
theorem C96_skip (key : List Byte) (hne : key ≠ []) (ha : ∀ c ∈ key, c.toNat < 128) (c : Byte) (hc : c ≠ 255#8) :
    ∃ d, bmSkip key c = some d ∧ 1 ≤ d ∧ d ≤ key.length ∧ (d = key.length ∨ key[key.length - 1 - d]? = some c) ∧
      ∀ e, 1 ≤ e → e < d → key[key.length - 1 - e]? ≠ some c := by
  have hpos : 0 < key.length := List.length_pos_iff.2 hne
  obtain ⟨s, es, hsl, hs⟩ := bmBuildLoop_spec key ha _ 0 (List.replicate 255 key.length) rfl List.length_replicate (by
    intro x d hx
    rw [List.getElem?_replicate] at hx
    split at hx
    · have := Option.some.inj hx
      exact ⟨by omega, by omega, fun j c h => by omega⟩
    · simp at hx)
  have hcl : c.toNat < 255 := by
    have h1 : c.toNat < 256 := c.isLt
    have h2 : c.toNat ≠ 255 := fun h => hc (BitVec.eq_of_toNat_eq (by simpa using h))
    omega
  have hd : s[c.toNat]? = some (s[c.toNat]'(by omega)) := List.getElem?_eq_getElem _
  generalize s[c.toNat]'(by omega) = d at hd
  obtain ⟨h1, h2, h3⟩ := hs c.toNat d hd
  refine ⟨d, ?_, h1, h2, ?_, ?_⟩
  · unfold bmSkip bmBuild
    rw [if_neg hne, es]
    exact hd
  · rcases bmBuildLoop_val key _ 0 _ s (Nat.le_refl _) es _ d hd with h | ⟨j, b, hj, hb, hbe, hde⟩
    · left
      rw [List.getElem?_replicate, if_pos hcl] at h
      exact (Option.some.inj h).symm
    · right
      rw [show key.length - 1 - d = j by omega, hb, BitVec.eq_of_toNat_eq hbe]
  · intro e he1 he2 hk
    have := h3 (key.length - 1 - e) c (by omega) hk rfl
    omega

/-- C96: the tables have 255 entries, so the character 255 is out of range. -/
theorem C96_skip_oob (key : List Byte) (ha : ∀ c ∈ key, c.toNat < 128) : bmSkip key 255#8 = none ∧ delta1 key 255#8 = none := by
  constructor
  · unfold bmSkip bmBuild
    by_cases hne : key = []
    · rw [if_pos hne]; rfl
    · have hpos : 0 < key.length := List.length_pos_iff.2 hne
      obtain ⟨s, es, hsl, -⟩ := bmBuildLoop_spec key ha _ 0 (List.replicate 255 key.length) rfl List.length_replicate (by
        intro x d hx
        rw [List.getElem?_replicate] at hx
        split at hx
        · have := Option.some.inj hx
          exact ⟨by omega, by omega, fun j c h => by omega⟩
        · simp at hx)
      rw [if_neg hne, es]
      show s[(255#8).toNat]? = none
      exact List.getElem?_eq_none (by rw [hsl]; decide)
  · obtain ⟨s, es, hsl, -⟩ := qsBuild_spec key ha
    unfold delta1
    rw [es]
    show s[(255#8).toNat]? = none
    exact List.getElem?_eq_none (by rw [hsl]; decide)

example := C96_skip_oob [97#8, 98#8] (by decide)

/-- C96 (`SundayQS::delta1`): the distance from the place after the key to the last place with this character, and one more than the size
of the key if there is none. -/
theorem C96_delta1 (key : List Byte) (ha : ∀ c ∈ key, c.toNat < 128) (c : Byte) (hc : c ≠ 255#8) :
    ∃ d, delta1 key c = some d ∧ 1 ≤ d ∧ d ≤ key.length + 1 ∧ (d = key.length + 1 ∨ key[key.length - d]? = some c) ∧
      ∀ e, 1 ≤ e → e < d → key[key.length - e]? ≠ some c := by
  obtain ⟨s, es, hsl, hs⟩ := qsBuild_spec key ha
  have hcl : c.toNat < 255 := by
    have h1 : c.toNat < 256 := c.isLt
    have h2 : c.toNat ≠ 255 := fun h => hc (BitVec.eq_of_toNat_eq (by simpa using h))
    omega
  have hd : s[c.toNat]? = some (s[c.toNat]'(by omega)) := List.getElem?_eq_getElem _
  generalize s[c.toNat]'(by omega) = d at hd
  obtain ⟨h1, h2, h3⟩ := hs c.toNat d hd
  refine ⟨d, ?_, h1, h2, ?_, ?_⟩
  · unfold delta1
    rw [es]
    exact hd
  · rcases qsBuildLoop_val key _ 0 _ s (Nat.le_refl _) es _ d hd with h | ⟨j, b, hb, hbe, hde⟩
    · left
      rw [List.getElem?_replicate, if_pos hcl] at h
      exact (Option.some.inj h).symm
    · right
      have hjl : j < key.length := (List.getElem?_eq_some_iff.1 hb).1
      rw [show key.length - d = j by omega, hb, BitVec.eq_of_toNat_eq hbe]
  · intro e he1 he2 hk
    have := h3 (key.length - e) c hk rfl
    omega

example := C96_delta1 [97#8, 98#8, 97#8] (by decide) 98#8 (by decide)

/-- C96 (`Sunday::ordered_pattern`): every position of the key once with its character, by increasing distance to the last equal character
before it (one more than the position if there is none), and by position if the distances are equal. -/
theorem C96_pattern (key : List Byte) :
    ∃ pat : List (Nat × Byte), (∀ num, orderedPattern key num = pat[num]?) ∧ pat.Perm (key.zipIdx.map Prod.swap) ∧
      pat.Pairwise (fun l r => ∃ dl dr, PrevDist key l.1 dl ∧ PrevDist key r.1 dr ∧ (dl < dr ∨ (dl = dr ∧ l.1 < r.1))) := by
  have hms : ∃ ms, minShift key = some ms := mapM_all (fun i => minShiftLoop key i i) (List.range key.length)
    (fun x hx => minShiftLoop_some key x (List.mem_range.1 hx) x (Nat.le_refl _))
  obtain ⟨ms, hms⟩ := hms
  have hget : ∀ i, i < key.length → ∃ d, ms.getD i 0 = d ∧ PrevDist key i d := by
    intro i hi
    obtain ⟨d, ed, hd⟩ := minShiftLoop_spec key i hi i (Nat.le_refl _) (fun t h1 h2 => by omega)
    have := mapM_get _ _ _ hms i i (by simp [hi])
    rw [ed] at this
    exact ⟨d, by rw [List.getD_eq_getElem?_getD, this]; rfl, hd⟩
  have h2 := mapM_eq (fun i => (key[i]?).bind (fun c => some (i, c))) (fun i => (i, key.getD i 0#8)) (List.range key.length) (by
    intro x hx
    have := List.mem_range.1 hx
    simp [List.getElem?_eq_getElem this, List.getD_eq_getElem?_getD])
  refine ⟨((List.range key.length).map (fun i => (i, key.getD i 0#8))).foldr (insertBy (maxshiftComp ms)) [], ?_, ?_, ?_⟩
  · intro num
    unfold orderedPattern pattern
    simp only [hms, Option.bind_eq_bind, Option.bind_some, Option.pure_def]
    rw [h2]
    simp
  · refine (sort_perm _ _).trans (.of_eq ?_)
    apply List.ext_getElem
    · simp
    · intro i h1 h3
      have : i < key.length := by simpa using h1
      simp [List.getD_eq_getElem?_getD, List.getElem?_eq_getElem this]
  · have hs := sort_sorted (maxshiftComp ms) (fun _ => True) (by
        intro a b c _ _ _ hab hbc
        unfold maxshiftComp at *
        dsimp only at *
        generalize ms.getD a.1 0 = x at *
        generalize ms.getD b.1 0 = y at *
        generalize ms.getD c.1 0 = z at *
        split at hab <;> split at hbc <;> split <;> simp only [decide_eq_true_eq] at * <;> omega)
      ((List.range key.length).map (fun i => (i, key.getD i 0#8))) (fun _ _ => trivial) (by
        rw [List.pairwise_map]
        refine List.pairwise_lt_range.imp ?_
        intro a b hab
        unfold maxshiftComp
        dsimp only
        split <;> split <;> simp only [decide_eq_true_eq] <;> omega)
    refine List.Pairwise.imp_of_mem ?_ hs
    intro a b hma hmb hab
    have hin : ∀ q ∈ ((List.range key.length).map (fun i => (i, key.getD i 0#8))).foldr (insertBy (maxshiftComp ms)) [], q.1 < key.length := by
      intro q hq
      rw [(sort_perm _ _).mem_iff, List.mem_map] at hq
      obtain ⟨i, hi, rfl⟩ := hq
      exact List.mem_range.1 hi
    obtain ⟨dl, el, hl⟩ := hget a.1 (hin a hma)
    obtain ⟨dr, er, hr⟩ := hget b.1 (hin b hmb)
    refine ⟨dl, dr, hl, hr, ?_⟩
    unfold maxshiftComp at hab
    dsimp only at hab
    rw [el, er] at hab
    split at hab <;> simp only [decide_eq_true_eq] at hab <;> omega

/-- C96 (`SundayMS::delta2`): when the first `pos` entries of the ordered pattern agree with the text and the next does not, `delta2(pos)` is
the least shift with which the moved key agrees with the characters known to be equal and has another character at the place that differs,
and the size of the key if there is none. -/
theorem C96_delta2 (key : List Byte) (hne : key ≠ []) (ha : ∀ c ∈ key, c.toNat < 128) (pos : Nat) (hp : pos ≤ key.length) :
    ∃ d, delta2 key pos = some d ∧ 1 ≤ d ∧ d ≤ key.length ∧
      let good := fun s => (∀ t q, t < pos → orderedPattern key t = some q → s ≤ q.1 → key[q.1 - s]? = some q.2) ∧
        (∀ q, orderedPattern key pos = some q → s ≤ q.1 → key[q.1 - s]? ≠ some q.2)
      (d = key.length ∨ good d) ∧ ∀ e, 1 ≤ e → e < d → ¬ good e := by
  obtain ⟨pat, ep, hpat⟩ := pattern_spec key
  obtain ⟨td, etd, -⟩ := qsBuild_spec key ha
  obtain ⟨t, et, h⟩ := msBuild_exact key (List.length_pos_iff.2 hne) ha pat hpat
  obtain ⟨d, ed, ⟨h1, h2, h3, h4⟩, h5⟩ := h pos hp
  have ho : ∀ num, orderedPattern key num = pat[num]? := by
    intro num; unfold orderedPattern; rw [ep]; rfl
  refine ⟨d, ?_, h1, h2, ?_, ?_⟩
  · unfold delta2
    simp only [ep, etd, et, Option.bind_eq_bind, Option.bind_some]
    exact ed
  · by_cases hd : d = key.length
    · exact .inl hd
    · refine .inr ⟨fun t q ht hq => ?_, fun q hq => ?_⟩
      · rw [ho] at hq; exact h4.resolve_left hd t q ht hq
      · rw [ho] at hq; exact h5.resolve_left hd q hq
  · rintro e he1 he2 ⟨g1, g2⟩
    obtain ⟨q, hq, hqe, hk⟩ := h3 e he1 he2 (fun t q ht hq => g1 t q ht (by rw [ho]; exact hq))
    exact g2 q (by rw [ho]; exact hq) hqe hk

example := C96_delta2 [97#8, 98#8, 97#8, 98#8] (by decide) (by decide) 4 (by decide)
example := C96_next [97#8, 98#8, 97#8, 98#8, 97#8, 99#8] (by decide) 5 (by decide)
example := C96_skip [97#8, 98#8, 97#8] (by decide) (by decide) 98#8 (by decide)

/-- C96: the tables are not those of the name: the pattern is scanned with the smallest distance first, so with "aab" the first character
compared is the one at position 0 and the last the one at position 2. -/
theorem C96_pattern_smallest_first :
    (List.range 3).map (orderedPattern [97#8, 97#8, 98#8]) = [some (0, 97#8), some (1, 97#8), some (2, 98#8)] := by
  decide +kernel

/-! ### The hypotheses can be met -/

example : (([97#8, 98#8, 97#8, 98#8, 97#8, 99#8] : List Byte) ≠ []) ∧
    (∀ c ∈ ([97#8, 98#8, 97#8, 98#8, 97#8, 99#8] : List Byte), c.toNat < 128) ∧ (97#8 : Byte) ≠ 255#8 := by decide

example : bmSkip [97#8, 98#8, 97#8, 98#8, 97#8, 99#8] 98#8 = some 2 ∧ delta1 [97#8, 98#8, 97#8, 98#8, 97#8, 99#8] 98#8 = some 3 := by
  decide +kernel

example : kmpNext [97#8, 98#8, 97#8, 98#8, 97#8, 99#8] 5 = some 3#64 ∧ kmpNext [97#8, 98#8, 97#8, 98#8, 97#8, 99#8] 4 = some (BitVec.allOnes 64) ∧
    delta2 [97#8, 98#8, 97#8, 98#8] 4 = some 2 := by
  decide +kernel

end Verif.PM
