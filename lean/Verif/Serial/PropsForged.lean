/-
Property theorems C125 (files that the library did not write): what the loaders check, and what the
queries then touch.
-/
import Verif.Serial.PropsCanon
import Verif.Bits.Props
import Verif.Mult.Lemmas
import Verif.Fit.Lemmas

namespace Verif.Serial

/-- The `k`-th number of 8 bytes in a file. -/
def num (s : Stream) (k : Nat) : Nat := leVal ((s.drop (8 * k)).take 8)

theorem readVal_num {s r : Stream} {n : Nat} (e : readVal 8 s = some (n, r)) : n = num s 0 ∧ r = s.drop 8 := by
  unfold readVal at e
  by_cases h : 8 ≤ s.length
  · rw [if_pos h] at e
    simp only [Option.some.injEq, Prod.mk.injEq] at e
    exact ⟨by rw [← e.1]; simp [num], e.2.symm⟩
  · rw [if_neg h] at e; cases e

theorem num_drop (s : Stream) (j k : Nat) : num (s.drop (8 * j)) k = num s (j + k) := by
  simp only [num, List.drop_drop]
  rw [show 8 * j + 8 * k = 8 * (j + k) from by omega]

theorem readElems_len (k : Nat) : ∀ (n : Nat) (s r : Stream) (l : List Nat), readElems k n s = some (l, r) → l.length = n ∧ r = s.drop (k * n) := by
  intro n
  induction n with
  | zero => intro s r l e; simp only [readElems, Option.some.injEq, Prod.mk.injEq] at e; obtain ⟨rfl, rfl⟩ := e; simp
  | succ n ih =>
    intro s r l e
    unfold readElems at e
    cases e1 : readVal k s with
    | none => simp [e1] at e
    | some x =>
      obtain ⟨v, s1⟩ := x
      cases e2 : readElems k n s1 with
      | none => simp [e1, e2] at e
      | some y =>
        obtain ⟨t, s2⟩ := y
        simp only [e1, e2, Option.bind_eq_bind, Option.bind_some, Option.pure_def, Option.some.injEq, Prod.mk.injEq] at e
        obtain ⟨rfl, rfl⟩ := e
        obtain ⟨h1, h2⟩ := ih s1 s2 t e2
        unfold readVal at e1
        split at e1
        · simp only [Option.some.injEq, Prod.mk.injEq] at e1
          refine ⟨by simp [h1], ?_⟩
          rw [h2, ← e1.2, List.drop_drop, Nat.mul_succ, Nat.add_comm]
        · cases e1

theorem readVec_num {k : Nat} {s r : Stream} {l : List Nat} (e : readVec k s = some (l, r)) : l.length = num s 0 ∧ r = (s.drop 8).drop (k * l.length) := by
  unfold readVec at e
  cases e1 : readVal 8 s with
  | none => simp [e1] at e
  | some x =>
    obtain ⟨n, s1⟩ := x
    simp only [e1, Option.bind_eq_bind, Option.bind_some] at e
    obtain ⟨h1, h2⟩ := readVal_num e1
    obtain ⟨h3, h4⟩ := readElems_len k n s1 r l e
    exact ⟨by rw [h3, h1], by rw [h4, h2, h3]⟩

/-- What `BitVector::Read` takes from a file. -/
theorem bv_read_num {s r : Stream} {v : BV.BVec} (e : BV.read s = some (v, r)) :
    v.size = num s 0 ∧ v.words.length = num s 1 ∧ r = s.drop (8 * (2 + num s 1)) := by
  unfold BV.read at e
  cases e1 : readVal 8 s with
  | none => simp [e1] at e
  | some x =>
    obtain ⟨n, s1⟩ := x
    cases e2 : readVec 8 s1 with
    | none => simp [e1, e2] at e
    | some y =>
      obtain ⟨ws, t⟩ := y
      simp only [e1, e2, Option.bind_eq_bind, Option.bind_some, Option.pure_def, Option.some.injEq, Prod.mk.injEq] at e
      obtain ⟨rfl, rfl⟩ := e
      obtain ⟨h1, h2⟩ := readVal_num e1
      obtain ⟨h3, h4⟩ := readVec_num e2
      have hn : num (s.drop 8) 0 = num s 1 := num_drop s 1 0
      rw [h2] at h3 h4
      refine ⟨h1, by rw [List.length_map, h3]; exact hn, ?_⟩
      rw [h4, List.drop_drop, List.drop_drop, h3, hn]
      congr 1; omega

theorem get_isSome_iff (v : BV.BVec) (i : Nat) : (v.get i).isSome ↔ i / 64 < v.words.length := by
  unfold BV.BVec.get
  have hm : Bits.offsetMask (i % 64) = some (1#64 <<< (i % 64)) := by unfold Bits.offsetMask; rw [if_pos (by omega)]
  by_cases h : i / 64 < v.words.length
  · simp [h, hm]
  · simp [h]

/-- C125 for `BitVector` (weaker than C125: a condition on the file is needed). From whatever bytes the
object was read: reading any bit below its size stays inside its words exactly when the number in the
first 8 bytes of the file is at most 64 times the number in the next 8. `Read` does not check this. -/
theorem C125_bit_vector_partial (s r : Stream) (v : BV.BVec) (e : BV.read s = some (v, r)) :
    (∀ i, i < v.size → (v.get i).isSome) ↔ num s 0 ≤ 64 * num s 1 := by
  obtain ⟨h1, h2, _⟩ := bv_read_num e
  rw [← h1, ← h2]
  constructor
  · intro h
    rcases Nat.eq_zero_or_pos v.size with h0 | h0
    · omega
    · have := (get_isSome_iff v (v.size - 1)).mp (h _ (by omega))
      omega
  · intro h i hi
    rw [get_isSome_iff]; omega

example : BV.read (writeVal 8 70 ++ writeVec 8 [5, 6] ++ [1#8]) = some (⟨70, [5#64, 6#64]⟩, [1#8]) := by decide +kernel

/-- C125 is false for `BitVector`: these 16 bytes are read without complaint, and give a vector of size 1
without a single word. -/
theorem C125_bit_vector_refuted : ∃ v, BV.read (writeVal 8 1 ++ writeVal 8 0) = some (v, []) ∧ v.size = 1 ∧ v.get 0 = none :=
  ⟨⟨1, []⟩, by decide +kernel, rfl, by decide +kernel⟩

/-- C125 for `SuccinctBitVector` (weaker than C125: a condition on the file is needed): `rank_1` at the
positions below the size stays inside words and directory exactly when the words suffice for the bits and
the directory has two entries for every 512 bits begun. -/
theorem C125_succinct_partial (us : Bool) (s r : Stream) (v : Succ.SBV) (e : Succ.read us s = some (v, r)) :
    (∀ i, i < v.bits.size → (v.rank1 i).isSome) ↔
      num s 0 ≤ 64 * num s 1 ∧ 2 * ((num s 0 + 511) / 512) ≤ num s (2 + num s 1) := by
  have key : v.bits.size = num s 0 ∧ v.bits.words.length = num s 1 ∧ v.blk.length = num s (2 + num s 1) := by
    unfold Succ.read at e
    cases e1 : BV.read s with
    | none => simp [e1] at e
    | some x =>
      obtain ⟨b, s1⟩ := x
      cases e2 : readVec 8 s1 with
      | none => simp [e1, e2] at e
      | some y =>
        obtain ⟨blk, s2⟩ := y
        obtain ⟨h1, h2, h3⟩ := bv_read_num e1
        obtain ⟨h4, _⟩ := readVec_num e2
        have hb : v.bits = b ∧ v.blk = blk := by
          cases us with
          | false =>
            simp only [e1, e2, Option.bind_eq_bind, Option.bind_some, Option.pure_def, Bool.false_eq_true, if_false, Option.some.injEq, Prod.mk.injEq] at e
            rw [← e.1]; exact ⟨rfl, rfl⟩
          | true =>
            cases e3 : readVec 4 s2 with
            | none => simp [e1, e2, e3] at e
            | some z =>
              obtain ⟨tp, s3⟩ := z
              simp only [e1, e2, e3, Option.bind_eq_bind, Option.bind_some, Option.pure_def, if_true, Option.some.injEq, Prod.mk.injEq] at e
              rw [← e.1]; exact ⟨rfl, rfl⟩
        rw [hb.1, hb.2]
        refine ⟨h1, h2, ?_⟩
        rw [h4, h3]
        exact num_drop s (2 + num s 1) 0
  obtain ⟨h1, h2, h3⟩ := key
  rw [← h2] at h3 ⊢
  rw [← h1, ← h3]
  have iff1 : ∀ i, (v.rank1 i).isSome ↔ i / 512 * 2 + 1 < v.blk.length ∧ i / 64 < v.bits.words.length := by
    intro i
    unfold Succ.SBV.rank1 Bits.cnt
    have hm : Bits.widthMask (i % 64) = some ((1#64 <<< (i % 64)) - 1#64) := by unfold Bits.widthMask; rw [if_pos (by omega)]
    by_cases ha : i / 512 * 2 + 1 < v.blk.length
    · have ha' : i / 512 * 2 < v.blk.length := by omega
      by_cases hb : i / 64 < v.bits.words.length
      · simp [ha, ha', hb, hm]
      · simp [ha, ha', hb]
    · by_cases ha' : i / 512 * 2 < v.blk.length <;> simp [ha, ha']
  constructor
  · intro h
    rcases Nat.eq_zero_or_pos v.bits.size with h0 | h0
    · rw [h0]; exact ⟨by omega, by omega⟩
    · have := (iff1 (v.bits.size - 1)).mp (h _ (by omega))
      omega
  · intro h i hi
    rw [iff1]; omega

example : (Succ.read false (writeVal 8 70 ++ writeVec 8 [5, 6] ++ writeVec 8 [0, 2])).isSome = true := by decide +kernel

/-- C125 is false for `SuccinctBitVector`: a file with a bit vector that is in order and an empty directory
is read, and `rank_1(0)` reads outside the directory. -/
theorem C125_succinct_refuted : ∃ v, Succ.read false (writeVal 8 1 ++ writeVec 8 [1] ++ writeVal 8 0) = some (v, []) ∧
    v.bits.size = 1 ∧ v.get 0 = some true ∧ v.rank1 0 = none :=
  ⟨⟨⟨1, [1#64]⟩, [], []⟩, by decide +kernel, rfl, by decide +kernel, by decide +kernel⟩

/-- C125 for `FitVector` (weaker than C125: a condition on the file is needed). A file holds the width, the
number of elements and the number of words. If the number of bits is below 2^64, reading any element below
the size stays inside the words exactly when there are no elements, or there is a word and the words have
room for all bits. -/
theorem C125_fit_vector_partial (s r : Stream) (v : Fit.FVec) (e : Fit.read s = some (v, r)) (_hbits : num s 1 * num s 0 < 2 ^ 64) :
    (∀ i, i < v.size → (v.get i).isSome) ↔ num s 1 = 0 ∨ (num s 2 ≠ 0 ∧ num s 1 * num s 0 ≤ 64 * num s 2) := by
  have key : v.width = num s 0 ∧ v.size = num s 1 ∧ v.words.length = num s 2 ∧ num s 0 < 64 := by
    unfold Fit.read Fit.new at e
    cases e1 : readVal 8 s with
    | none => simp [e1] at e
    | some x =>
      obtain ⟨w, s1⟩ := x
      cases em : Bits.widthMask w with
      | none => simp [e1, em] at e
      | some m =>
        cases e2 : readVal 8 s1 with
        | none => simp [e1, em, e2] at e
        | some y =>
          obtain ⟨n, s2⟩ := y
          cases e3 : readVec 8 s2 with
          | none => simp [e1, em, e2, e3] at e
          | some z =>
            obtain ⟨ws, s3⟩ := z
            simp only [e1, em, e2, e3, Option.bind_eq_bind, Option.bind_some, Option.pure_def, Option.some.injEq, Prod.mk.injEq] at e
            obtain ⟨h1, h2⟩ := readVal_num e1
            obtain ⟨h3, h4⟩ := readVal_num e2
            obtain ⟨h5, _⟩ := readVec_num e3
            have hw : w < 64 := by
              rcases Nat.lt_or_ge w 64 with h | h
              · exact h
              · rw [Bits.C09_widthMask_overflow w h] at em; cases em
            rw [← e.1]
            refine ⟨h1, ?_, ?_, h1 ▸ hw⟩
            · show n = num s 1
              rw [h3, h2]; exact num_drop s 1 0
            · show (ws.map (BitVec.ofNat 64)).length = num s 2
              rw [List.length_map, h5, h4, h2, List.drop_drop]; exact num_drop s 2 0
  obtain ⟨h1, h2, h3, h4⟩ := key
  rw [← h1, ← h2, ← h3]
  rw [← h1] at h4
  have iff1 : ∀ i, (v.get i).isSome ↔ i * v.width / 64 < v.words.length ∧ (v.width + i * v.width % 64 ≤ 64 ∨ i * v.width / 64 + 1 < v.words.length) := by
    intro i
    unfold Fit.FVec.get Fit.rdBits
    by_cases ha : i * v.width / 64 < v.words.length
    · by_cases hb : v.width + i * v.width % 64 ≤ 64
      · simp [ha, hb]
      · by_cases hc : i * v.width / 64 + 1 < v.words.length
        · simp [ha, hb, hc]
        · simp [ha, hb, hc]
    · simp [ha]
  constructor
  · intro h
    rcases Nat.eq_zero_or_pos v.size with h0 | h0
    · exact Or.inl h0
    · right
      have := (iff1 (v.size - 1)).mp (h _ (by omega))
      have hs : (v.size - 1) * v.width + v.width = v.size * v.width := by
        rw [← Nat.succ_mul]; congr 1; omega
      omega
  · intro h i hi
    rw [iff1]
    rcases h with h | ⟨h5, h6⟩
    · omega
    · have := Fit.slot_le v.width hi
      rcases Nat.eq_zero_or_pos v.width with h0 | h0
      · rw [h0]; simp; omega
      · omega

example : ∃ v, Fit.read (writeVal 8 7 ++ writeVal 8 10 ++ writeVec 8 [5, 6]) = some (v, []) ∧ v.width = 7 ∧ v.size = 10 := by
  exact ⟨⟨7, 127#64, 10, [5#64, 6#64]⟩, by decide +kernel, rfl, rfl⟩

/-- C125 is false for `FitVector`. -/
theorem C125_fit_vector_refuted : ∃ v, Fit.read (writeVal 8 7 ++ writeVal 8 10 ++ writeVec 8 [5]) = some (v, []) ∧ v.size = 10 ∧
    v.get 8 = some 0 ∧ v.get 9 = none :=
  ⟨⟨7, 127#64, 10, [5#64]⟩, by decide +kernel, rfl, by decide +kernel, by decide +kernel⟩

/-- C125 for `MultiBitVector`, reading elements: whatever the file, all elements that fit into the words
that were read can be read. (The number of elements is not stored.) -/
theorem C125_multi_bit_vector_get (S : Nat) (hS : 1 ≤ S ∧ S ≤ 3) (s r : Stream) (v : MBit.MBV) (e : MBit.read S s = some (v, r)) (i : Nat)
    (hi : i < 64 / S * num s 0) : (v.get S i).isSome := by
  have key : v.words.length = num s 0 := by
    unfold MBit.read at e
    cases e1 : readVec 8 s with
    | none => simp [e1] at e
    | some x =>
      obtain ⟨ws, s1⟩ := x
      cases e2 : MBit.readMany (MBit.readTips S) (2 ^ S) s1 with
      | none => simp [e1, e2] at e
      | some y =>
        obtain ⟨ts, s2⟩ := y
        simp only [e1, e2, Option.bind_eq_bind, Option.bind_some, Option.pure_def, Option.some.injEq, Prod.mk.injEq] at e
        rw [← e.1]
        show (ws.map (BitVec.ofNat 64)).length = num s 0
        rw [List.length_map]; exact (readVec_num e1).1
  have ha : MBit.absI S i < v.words.length := by
    rw [key]
    have h3 : S = 1 ∨ S = 2 ∨ S = 3 := by omega
    rcases h3 with rfl | rfl | rfl
    · show i / 64 < num s 0
      have : i < 64 * num s 0 := hi
      omega
    · show i / 32 < num s 0
      have : i < 32 * num s 0 := hi
      omega
    · show i / 21 < num s 0
      have : i < 21 * num s 0 := hi
      omega
  unfold MBit.MBV.get
  simp [ha]

example : (MBit.read 2 (writeVec 8 [5, 6] ++ writeVal 8 0 ++ writeVal 8 0 ++ writeVal 8 0 ++ writeVal 8 0)).isSome = true := by decide +kernel

/-- C125 is false for `rank` of `MultiBitVector`: the words hold a 1 at position 0, but the file has no
directory for the ones. -/
theorem C125_multi_bit_vector_refuted : ∃ v, MBit.read 1 (writeVec 8 [1] ++ writeVal 8 0 ++ writeVal 8 0) = some (v, []) ∧
    v.get 1 0 = some 1 ∧ v.rank 1 0 = none :=
  ⟨⟨[1#64], [[], []]⟩, by decide +kernel, by decide +kernel, by decide +kernel⟩

/-- A file whose first number is 64 or more makes the constructor of `FitVector` shift by that much, which
is undefined: no file of this kind is refused in a defined way. -/
theorem C125_fit_vector_width_ub (s : Stream) (h : 64 ≤ num s 0) : Fit.read s = none := by
  unfold Fit.read Fit.new
  cases e1 : readVal 8 s with
  | none => rfl
  | some x =>
    obtain ⟨w, s1⟩ := x
    obtain ⟨h1, _⟩ := readVal_num e1
    simp [Bits.C09_widthMask_overflow w (h1 ▸ h)]

example : 64 ≤ num (writeVal 8 64 ++ writeVal 8 0 ++ writeVal 8 0) 0 := by decide +kernel

/-- Reading `n` bytes from byte `i` of a value on is defined exactly when the bytes exist and the value has
at most 8 of them. -/
theorem getB_isSome (bs : List Byte) (off : Nat) : ∀ (n i value : Nat), i ≤ 8 →
    ((Mult.getB bs off n i value).isSome ↔ n = 0 ∨ (n + i ≤ 8 ∧ off + i + n ≤ bs.length)) := by
  intro n
  induction n with
  | zero => intro i value _; simp [Mult.getB]
  | succ n ih =>
    intro i value hi
    unfold Mult.getB
    by_cases h : 64 ≤ i * 8
    · rw [if_pos h]; simp; omega
    · rw [if_neg h]
      by_cases hb : off + i < bs.length
      · simp only [List.getElem?_eq_getElem hb, Option.bind_eq_bind, Option.bind_some]
        rw [ih (i + 1) _ (by omega)]
        omega
      · simp only [List.getElem?_eq_none (by omega : bs.length ≤ off + i), Option.bind_eq_bind, Option.bind_none, Option.isSome_none, Bool.false_eq_true, false_iff]
        omega

/-- C125 for `MultipleVector` (weaker than C125: a condition on the file is needed). If an object read from
whatever bytes into a new vector reports a size, and that is not 0, all fields of all its records can be
read exactly when no field is longer than 8 bytes. (The size is then at least 1, so the sum of the lengths
of the fields is at most the number of bytes.) -/
theorem C125_multiple_vector_partial (s r : Stream) (v : Mult.MVec) (e : (Mult.new []).load s = some (v, r)) (n : Nat) (hn : v.size = some n)
    (h0 : 0 < n) : (∀ i, i < n → ∀ f, f < v.table.length → (v.get i f).isSome) ↔ ∀ x ∈ v.table, x.2 ≤ 8 := by
  obtain ⟨sizes, bs, rfl⟩ : ∃ sizes bs, v = (⟨Mult.entries sizes 0, bs⟩ : Mult.MVec) := by
    unfold Mult.MVec.load at e
    cases e1 : readVec 1 s with
    | none => simp [e1] at e
    | some x =>
      obtain ⟨bs, s1⟩ := x
      cases e2 : readVec 8 s1 with
      | none => simp [e1, e2] at e
      | some y =>
        obtain ⟨sz, s2⟩ := y
        simp only [e1, e2, Option.bind_eq_bind, Option.bind_some, Option.pure_def, Option.some.injEq, Prod.mk.injEq] at e
        exact ⟨sz, bs.map (BitVec.ofNat 8), by rw [← e.1]; simp [Mult.MVec.setElementSizes, Mult.new, Mult.entries]⟩
  have hne : sizes ≠ [] := by
    rintro rfl
    simp [Mult.MVec.size, Mult.MVec.blockSize, Mult.entries] at hn
  have hb := Mult.blockSize_spec sizes hne bs
  have hsz : sizes.sum ≠ 0 ∧ n = bs.length / sizes.sum := by
    unfold Mult.MVec.size at hn
    rw [hb] at hn
    by_cases hz : sizes.sum = 0
    · simp [hz] at hn
    · simp [hz] at hn
      exact ⟨hz, hn.symm⟩
  obtain ⟨hz, hn'⟩ := hsz
  have iff1 : ∀ i, i < n → ∀ f (hf : f < sizes.length), (Mult.MVec.get ⟨Mult.entries sizes 0, bs⟩ i f).isSome ↔ sizes[f] ≤ 8 := by
    intro i hi f hf
    unfold Mult.MVec.get
    rw [hb, Mult.entries_getElem?, List.getElem?_eq_getElem hf]
    simp only [Option.map_some, Option.bind_eq_bind, Option.bind_some, Nat.zero_add]
    rw [getB_isSome _ _ _ _ _ (by omega)]
    have h1 := Mult.sum_take_succ sizes f hf
    have h2 := Mult.sum_take_mono sizes (show f + 1 ≤ sizes.length by omega)
    rw [List.take_length] at h2
    have h3 : (i + 1) * sizes.sum ≤ n * sizes.sum := Nat.mul_le_mul_right _ hi
    have h4 : n * sizes.sum ≤ bs.length := by rw [hn']; exact Nat.div_mul_le_self _ _
    rw [Nat.succ_mul] at h3
    omega
  constructor
  · intro h x hx
    obtain ⟨f, hf, rfl⟩ := List.mem_iff_getElem.mp hx
    have hl : f < sizes.length := by simpa [Mult.entries_length] using hf
    have hg : (Mult.entries sizes 0)[f] = (0 + (sizes.take f).sum, sizes[f]) := by
      have := Mult.entries_getElem? sizes 0 f
      rw [List.getElem?_eq_getElem hf, List.getElem?_eq_getElem hl] at this
      simpa using this
    show ((Mult.entries sizes 0)[f]).2 ≤ 8
    rw [hg]
    exact (iff1 0 h0 f hl).mp (h 0 h0 f hf)
  · intro h i hi f hf
    have hl : f < sizes.length := by simpa [Mult.entries_length] using hf
    rw [iff1 i hi f hl]
    have : sizes[f] ∈ (Mult.entries sizes 0).map (·.2) := by rw [Mult.entries_snd]; exact List.getElem_mem hl
    obtain ⟨x, hx, hxe⟩ := List.mem_map.mp this
    rw [← hxe]; exact h x hx

example : ∃ v, (Mult.new []).load (writeVec 1 [1, 2, 3, 4, 5, 6, 7] ++ writeVec 8 [1, 2]) = some (v, []) ∧ v.size = some 2 := by
  exact ⟨⟨[(0, 1), (1, 2)], [1, 2, 3, 4, 5, 6, 7]⟩, by decide +kernel, by decide +kernel⟩

/-- C125 is false for `MultipleVector`: with a field of 9 bytes in the file the reading shifts by 64, and
with no field in the file already `size()` is undefined. -/
theorem C125_multiple_vector_refuted :
    (∃ v, (Mult.new []).load (writeVec 1 (List.replicate 9 0) ++ writeVec 8 [9]) = some (v, []) ∧ v.size = some 1 ∧ v.get 0 0 = none) ∧
      ∃ v, (Mult.new []).load (writeVec 1 [1] ++ writeVec 8 []) = some (v, []) ∧ v.size = none :=
  ⟨⟨⟨[(0, 9)], List.replicate 9 0⟩, by decide +kernel, by decide +kernel, by decide +kernel⟩, ⟨⟨[], [1]⟩, by decide +kernel, by decide +kernel⟩⟩

/-- C125 is false for `DacVector`: a layer of one element without words; and, with layers that are in order,
a path that says the value goes on in a layer that is empty. -/
theorem C125_dac_vector_refuted :
    (∃ d, Dac.read (writeVal 8 1 ++ writeVal 8 4 ++ (writeVal 8 4 ++ writeVal 8 1 ++ writeVal 8 0)) = some (d, []) ∧ d.size = some 1 ∧
      d.get 0 = none) ∧
      ∃ d, Dac.read (writeVal 8 2 ++ writeVal 8 4 ++ writeVal 8 4 ++ (writeVal 8 4 ++ writeVal 8 1 ++ writeVec 8 [3]) ++
          (writeVal 8 4 ++ writeVal 8 0 ++ writeVal 8 0) ++ (writeVal 8 1 ++ writeVec 8 [1] ++ writeVec 8 [0, 0])) = some (d, []) ∧
        d.size = some 1 ∧ d.get 0 = none :=
  ⟨⟨⟨some 1, [4], [⟨4, 15#64, 1, []⟩], []⟩, by decide +kernel, by decide +kernel, by decide +kernel⟩,
    ⟨⟨some 2, [4, 4], [⟨4, 15#64, 1, [3#64]⟩, ⟨4, 15#64, 0, []⟩], [⟨⟨1, [1#64]⟩, [0, 0], []⟩]⟩, by decide +kernel, by decide +kernel, by decide +kernel⟩⟩

/-- C125 is false for `WaveletTree`: the height in the file is not compared with the number of nodes. The
tree that reads has the one node of the tree of a vector of zeros, the file says the height is 2. -/
theorem C125_wavelet_tree_refuted : ∃ old t, Wave.make [0, 0] = some old ∧
    old.read (writeVal 8 2 ++ writeVal 8 1 ++ writeVal 8 2 ++ (writeVal 8 2 ++ writeVec 8 [0] ++ writeVec 8 [0, 0])) = some (t, []) ∧
      t.size = 2 ∧ t.sizeOf = some 2 ∧ t.get 0 = none := by
  refine ⟨(Wave.make [0, 0]).getD ⟨0, 0, 0, []⟩, ⟨2, 1, 2, [⟨⟨2, [0#64]⟩, [0, 0], []⟩]⟩, by decide +kernel, by decide +kernel, by decide +kernel, by decide +kernel, by decide +kernel⟩

theorem readRows_len (k : Nat) : ∀ (n : Nat) (s r : Stream) (l : List (List Nat)), Samc.readRows k n s = some (l, r) →
    ∀ row ∈ l, row.length = 256 := by
  intro n
  induction n with
  | zero => intro s r l e; simp only [Samc.readRows, Option.some.injEq, Prod.mk.injEq] at e; obtain ⟨rfl, rfl⟩ := e; simp
  | succ n ih =>
    intro s r l e
    unfold Samc.readRows at e
    cases e1 : readElems k 256 s with
    | none => simp [e1] at e
    | some x =>
      obtain ⟨v, s1⟩ := x
      cases e2 : Samc.readRows k n s1 with
      | none => simp [e1, e2] at e
      | some y =>
        obtain ⟨t, s2⟩ := y
        simp only [e1, e2, Option.bind_eq_bind, Option.bind_some, Option.pure_def, Option.some.injEq, Prod.mk.injEq] at e
        obtain ⟨rfl, rfl⟩ := e
        intro row hrow
        rcases List.mem_cons.mp hrow with h | h
        · rw [h]; exact (readElems_len k 256 s s1 v e1).1
        · exact ih s1 s2 t e2 row h

/-- C125 for `Samc` (weaker than C125: conditions on the file and on the key are needed): if no entry of the
table of heads in the file exceeds the number of characters, the search for a key stays inside the tables
as long as the key is shorter than the table of codes and the table of heads has 3 entries more than the
key has characters. -/
theorem C125_samc_partial (W : Nat) (s r : Stream) (a : Samc.Samc) (e : Samc.read W s = some (a, r)) (hh : ∀ x ∈ a.head, x ≤ a.storage.length)
    (key : Samc.Key) (h1 : key.length < a.code.length) (h2 : key.length + 3 ≤ a.head.length) : (a.accept key).isSome := by
  have rows : ∀ row ∈ a.code, row.length = 256 := by
    unfold Samc.read at e
    cases e1 : readString s with
    | none => simp [e1] at e
    | some x =>
      obtain ⟨st, s1⟩ := x
      cases e2 : Samc.readTable (W / 8) s1 with
      | none => simp [e1, e2] at e
      | some y =>
        obtain ⟨cd, s2⟩ := y
        cases e3 : readVec (W / 8) s2 with
        | none => simp [e1, e2, e3] at e
        | some z =>
          obtain ⟨hd, s3⟩ := z
          simp only [e1, e2, e3, Option.bind_eq_bind, Option.bind_some, Option.pure_def, Option.some.injEq, Prod.mk.injEq] at e
          rw [← e.1]
          unfold Samc.readTable at e2
          cases e4 : readVal 8 s1 with
          | none => simp [e4] at e2
          | some w =>
            simp only [e4, Option.bind_eq_bind, Option.bind_some] at e2
            exact readRows_len (W / 8) w.1 w.2 s2 cd e2
  have code : ∀ d c, d < a.code.length → ∃ x, a.codeOf d c = some x := by
    intro d c hd
    have hr := rows a.code[d] (List.getElem_mem hd)
    have hc := c.isLt
    unfold Samc.Samc.codeOf
    rw [List.getElem?_eq_getElem hd]
    simp only [Option.bind_eq_bind, Option.bind_some]
    exact ⟨_, List.getElem?_eq_getElem (by rw [hr]; omega)⟩
  have fol : ∀ target d c, d + 3 ≤ a.head.length → ∃ b, a.follows target d c = some b := by
    intro target d c hd
    unfold Samc.Samc.follows Samc.Samc.inRange
    rw [List.getElem?_eq_getElem (by omega : d + 1 < a.head.length), List.getElem?_eq_getElem (by omega : d + 1 + 1 < a.head.length)]
    simp only [Option.bind_eq_bind, Option.bind_some, Option.pure_def]
    by_cases ha : a.head[d + 1] ≤ target
    · rw [if_pos ha]
      simp only [Option.bind_some]
      by_cases hb : target < a.head[d + 1 + 1]
      · have := hh _ (List.getElem_mem (by omega : d + 1 + 1 < a.head.length))
        simp only [hb, decide_true, if_true]
        rw [List.getElem?_eq_getElem (by omega : target < a.storage.length)]
        exact ⟨_, rfl⟩
      · simp [hb]
    · rw [if_neg ha]; simp
  have find : ∀ (key : Samc.Key) (node d : Nat), d + key.length < a.code.length → d + key.length + 3 ≤ a.head.length → ∃ x, a.find key node d = some x := by
    intro key
    induction key with
    | nil =>
      intro node d g1 g2
      simp only [List.length_nil, Nat.add_zero] at g1 g2
      obtain ⟨x, hx⟩ := code d 0 g1
      obtain ⟨b, hb⟩ := fol ((node + x) % 2 ^ 64) d 0 g2
      unfold Samc.Samc.find
      simp only [hx, hb, Option.bind_eq_bind, Option.bind_some, Option.pure_def]
      exact ⟨_, rfl⟩
    | cons c key ih =>
      intro node d g1 g2
      simp only [List.length_cons] at g1 g2
      obtain ⟨x, hx⟩ := code d c (by omega)
      obtain ⟨b, hb⟩ := fol ((node + x) % 2 ^ 64) d c (by omega)
      unfold Samc.Samc.find
      simp only [hx, hb, Option.bind_eq_bind, Option.bind_some, Option.pure_def]
      cases b with
      | false => exact ⟨_, rfl⟩
      | true => exact ih ((node + x) % 2 ^ 64) (d + 1) (by omega) (by omega)
  obtain ⟨x, hx⟩ := find key 0 0 (by omega) (by omega)
  unfold Samc.Samc.accept
  rw [hx]; rfl

example : ∃ a, Samc.read 8 (writeString [0#8, 97#8] ++ (writeVal 8 2 ++ List.replicate 512 1#8) ++ writeVec 1 [0, 1, 2, 2]) = some (a, []) ∧
    (∀ x ∈ a.head, x ≤ a.storage.length) ∧ ([97#8] : Samc.Key).length < a.code.length ∧ ([97#8] : Samc.Key).length + 3 ≤ a.head.length ∧
      a.accept [97#8] = some false :=
  ⟨⟨[0#8, 97#8], List.replicate 2 (List.replicate 256 1), [0, 1, 2, 2]⟩, by decide +kernel, by decide +kernel, by decide +kernel, by decide +kernel, by decide +kernel⟩

/-- C125 is false for `Samc`: 24 bytes that are all 0 are read, and the search for any key reads outside the
table of codes. -/
theorem C125_samc_refuted : ∃ a, Samc.read 32 (List.replicate 24 0#8) = some (a, []) ∧ ∀ key, a.accept key = none := by
  refine ⟨⟨[], [], []⟩, by decide +kernel, fun key => ?_⟩
  cases key <;> rfl

/-- C125 is false for `SuffixArray`: a text of one character with an array of one element and no words. -/
theorem C125_suffix_array_refuted : ∃ t, SA.read (writeString [97#8] ++ (writeVal 8 1 ++ writeVal 8 1 ++ writeVal 8 0) ++
    (writeVal 8 1 ++ writeVal 8 0 ++ writeVal 8 0)) = some (t, []) ∧ t.str.length = 1 ∧ t.sa.size = 1 ∧ t.sa.get 0 = none :=
  ⟨⟨[97#8], ⟨1, 1#64, 1, []⟩, ⟨1, 1#64, 0, []⟩⟩, by decide +kernel, by decide +kernel, rfl, by decide +kernel⟩

end Verif.Serial
