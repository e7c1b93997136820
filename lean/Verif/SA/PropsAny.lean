/-
Property theorems C62 and C64 (SuffixArray.hpp), continued: texts of any bytes.
-/
import Verif.SA.Props
import Verif.SA.TimeLemmas

namespace Verif.SA
open Verif.Serial

theorem putLms_length {str lms : List Nat} : ∀ {is : List Nat} {bs bs' : List Bucket} {sa sa' poss poss' : List Nat},
    putLms str lms is (bs, sa, poss) = some (bs', sa', poss') → sa'.length = sa.length
  | [], _, _, _, _, _, _, h => by cases h; rfl
  | i :: is, bs, bs', sa, sa', poss, poss', h => by
    unfold putLms at h
    simp only [Option.bind_eq_bind, Option.bind_eq_some_iff] at h
    obtain ⟨id, _, c, _, ⟨bs1, sa1, pos⟩, h1, poss1, _, h2⟩ := h
    rw [putLms_length h2, (putBucket_length h1).2]

theorem scanL_length {str : List Nat} {ty : List Bool} : ∀ {r i : Nat} {st st' : List Bucket × List Nat},
    scanL str ty r i st = some st' → st'.2.length = st.2.length
  | 0, _, _, _, h => by cases h; rfl
  | r + 1, i, st, st', h => by
    unfold scanL at h
    simp only [Option.bind_eq_bind, Option.bind_eq_some_iff] at h
    obtain ⟨st1, h1, h2⟩ := h
    rw [scanL_length h2, (scanStep_length h1).2]

theorem scanS_length {str : List Nat} {ty : List Bool} : ∀ {i : Nat} {st st' : List Bucket × List Nat},
    scanS str ty i st = some st' → st'.2.length = st.2.length
  | 0, _, _, h => by cases h; rfl
  | i + 1, st, st', h => by
    unfold scanS at h
    simp only [Option.bind_eq_bind, Option.bind_eq_some_iff] at h
    obtain ⟨st1, h1, h2⟩ := h
    rw [scanS_length h2, (scanStep_length h1).2]

theorem removeLms_length : ∀ {ps sa sa' : List Nat}, removeLms ps sa = some sa' → sa'.length = sa.length
  | [], _, _, h => by cases h; rfl
  | p :: ps, sa, sa', h => by
    unfold removeLms at h
    split at h
    · exact removeLms_length h
    · simp only [Option.bind_eq_bind, Option.bind_eq_some_iff] at h
      obtain ⟨sa1, h1, h2⟩ := h
      rw [removeLms_length h2, wr_length h1]

theorem induce_length {mx : Nat} {str : List Nat} {ty : List Bool} {lms : List Nat} {order : Option (List Nat)} {sa : List Nat}
    (h : induce mx str ty lms order = some sa) : sa.length = str.length := by
  unfold induce at h
  simp only [Option.bind_eq_bind, Option.bind_eq_some_iff, Option.pure_def, Option.some.injEq] at h
  obtain ⟨bs, _, ⟨bs1, sa1, poss⟩, h1, ⟨bs2, sa2⟩, h2, sa3, h3, ⟨bs4, sa4⟩, h4, rfl⟩ := h
  have e1 := putLms_length h1
  have e2 := scanL_length h2
  have e3 := removeLms_length h3
  have e4 := scanS_length h4
  simp only [List.length_replicate] at e1 e2 e3 e4
  rw [e4, e3, e2, e1]

theorem sais_length {mx : Nat} {str sa : List Nat} (h : sais str mx = some sa) : sa.length = str.length := by
  rw [sais] at h
  simp only [Option.bind_eq_bind, Option.bind_eq_some_iff, Option.pure_def] at h
  obtain ⟨ty, _, ⟨sa1, sub, shared⟩, h1, h⟩ := h
  split at h
  · cases h
    unfold inducedSort at h1
    simp only [Option.bind_eq_bind, Option.bind_eq_some_iff, Option.pure_def] at h1
    obtain ⟨ind, h2, ⟨sub1, ch⟩, _, h3⟩ := h1
    split at h3
    · cases h3
      exact induce_length h2
    · cases h3
  · split at h
    · simp only [Option.bind_eq_some_iff] at h
      obtain ⟨subSa, _, h⟩ := h
      exact induce_length h
    · cases h

theorem lcpLoop_length {str : List Byte} {sa : Fit.FVec} {ps : List Nat} : ∀ {r i : Nat} {la la' : List Nat} {prev : Nat},
    lcpLoop str sa ps r i la prev = some la' → la'.length = la.length
  | 0, _, _, _, _, h => by cases h; rfl
  | r + 1, i, la, la', prev, h => by
    unfold lcpLoop at h
    simp only [Option.bind_eq_bind, Option.bind_eq_some_iff] at h
    obtain ⟨pos, _, lcp, _, la1, h1, h2⟩ := h
    rw [lcpLoop_length h2, wr_length h1]

theorem ofVector_bound {l : List Nat} {v : Fit.FVec} (e : Fit.ofVector l = some v) : ∀ x ∈ l, x < 2 ^ 63 := fun x hx =>
  Nat.lt_of_not_le fun h => by rw [Fit.C26_too_large l x hx h] at e; cases e

theorem ofVector_size {l : List Nat} {v : Fit.FVec} (hl : l ≠ []) (e : Fit.ofVector l = some v) : v.size = l.length := by
  obtain ⟨v', e', h, _⟩ := Fit.C26_ofVector l hl (ofVector_bound e)
  rw [e] at e'
  cases e'
  exact h

/-- C64: every object that the constructor makes, from whatever bytes, is read back as written, and what follows in the stream is left. -/
theorem C64_any (str : List Byte) (hmax : str.length + 1 < 2 ^ 31) (o : SufArr) (hb : build str = some o) (s : Stream) :
    read (o.write ++ s) = some (o, s) ∧ o.str = str ∧ o.sa.size = str.length ∧ o.lcp.size = str.length := by
  have h0 : str ≠ [] := by rintro rfl; rw [C62_empty_ub] at hb; cases hb
  have hpos : 0 < str.length := List.length_pos_iff.2 h0
  unfold build at hb
  simp only [Option.bind_eq_bind, Option.bind_eq_some_iff, Option.pure_def, Option.some.injEq] at hb
  obtain ⟨v, h1, w, h2, rfl⟩ := hb
  unfold buildSA at h1
  simp only [Option.bind_eq_bind, Option.bind_eq_some_iff] at h1
  obtain ⟨sa, h3, h1⟩ := h1
  have hl := sais_length h3
  rw [saisStr_length] at hl
  cases sa with
  | nil => simp at hl
  | cons a p =>
    simp only at h1
    simp only [List.length_cons] at hl
    have hpne : p ≠ [] := by rintro rfl; simp only [List.length_nil] at hl; omega
    have hr1 := ofVector_read hpne (by omega) (ofVector_bound h1) h1
    have hs1 := ofVector_size hpne h1
    unfold buildLCP at h2
    simp only [Option.bind_eq_bind, Option.bind_eq_some_iff, Option.pure_def, Option.some.injEq] at h2
    obtain ⟨ps, _, la, h5, w', h6, _, _, _, _, rfl⟩ := h2
    have hla := lcpLoop_length h5
    rw [List.length_replicate, hs1] at hla
    have hlne : la ≠ [] := by rintro rfl; simp only [List.length_nil] at hla; omega
    have hr2 := ofVector_read hlne (by omega) (ofVector_bound h6) h6
    have hs2 := ofVector_size hlne h6
    refine ⟨?_, rfl, by simp only; omega, by simp only; omega⟩
    simp only [read, SufArr.write, List.append_assoc]
    rw [readString_writeString str (by have : (2 : Nat) ^ 31 < 256 ^ 8 := by decide
                                       omega)]
    simp only [Option.bind_eq_bind, Option.bind_some, hr1, hr2, Option.pure_def]

/-- "a\\0b\\0a": an object is made and, though its array is wrong, read back. -/
example : ∃ o, build [97, 0, 98, 0, 97] = some o ∧ ([97, 0, 98, 0, 97] : List Byte).length + 1 < 2 ^ 31 :=
  ⟨_, (Option.some_get (x := build [97, 0, 98, 0, 97]) (by decide +kernel)).symm, by decide⟩

/-- C62: the sentinel of the construction is a 0, so that a NUL in the text can make it undefined. -/
theorem C62_nul_ub : build [97, 0, 98] = none := by decide +kernel

/-- C62: or the array gets wrong: the suffix "a\\0b\\0a" stands before the suffix "a". -/
theorem C62_nul_domain : ∃ o p, build [97, 0, 98, 0, 97] = some o ∧ Holds o.sa p ∧ ¬ IsSuffixArray [97, 0, 98, 0, 97] p := by
  refine ⟨_, [3, 1, 0, 4, 2], (Option.some_get (x := build [97, 0, 98, 0, 97]) (by decide +kernel)).symm, ⟨by decide +kernel, ?_⟩, ?_⟩
  · have : ∀ i < 5, (Option.get (build [97, 0, 98, 0, 97]) (by decide +kernel)).sa.get i = ([3, 1, 0, 4, 2] : List Nat)[i]? := by
      decide +kernel
    exact this
  · unfold IsSuffixArray
    decide

end Verif.SA
