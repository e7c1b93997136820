/-
Property theorem C47 (stream helpers).
-/
import Verif.Serial.Model

namespace Verif.Serial

theorem writeVal_length (k v : Nat) : (writeVal k v).length = k := by simp [writeVal]

theorem leVal_writeVal (k v : Nat) (h : v < 256 ^ k) : leVal (writeVal k v) = v := by
  induction k generalizing v with
  | zero => simp [writeVal, leVal] at *; omega
  | succ k ih =>
    have e : writeVal (k + 1) v = BitVec.ofNat 8 v :: writeVal k (v / 256) := by
      unfold writeVal
      rw [List.range_succ_eq_map, List.map_cons, List.map_map]
      congr 1
      · simp
      · apply List.map_congr_left
        intro i _
        simp only [Function.comp]
        rw [Nat.div_div_eq_div_mul, Nat.pow_succ, Nat.mul_comm]
    rw [e, leVal, ih _ (by rw [Nat.pow_succ] at h; omega)]
    simp
    omega

theorem readVal_writeVal (k v : Nat) (h : v < 256 ^ k) (s : Stream) :
    readVal k (writeVal k v ++ s) = some (v, s) := by
  unfold readVal
  have hl := writeVal_length k v
  rw [if_pos (by simp [hl])]
  rw [List.take_append_of_le_length (by omega), List.drop_append_of_le_length (by omega)]
  rw [List.take_of_length_le (by omega), List.drop_of_length_le (by omega), leVal_writeVal k v h]
  simp

theorem readElems_write (k : Nat) (l : List Nat) (h : ∀ v ∈ l, v < 256 ^ k) (s : Stream) :
    readElems k l.length ((l.map (writeVal k)).flatten ++ s) = some (l, s) := by
  induction l with
  | nil => simp [readElems]
  | cons a l ih =>
    simp only [List.mem_cons, forall_eq_or_imp] at h
    simp only [List.length_cons, readElems, List.map_cons, List.flatten_cons, List.append_assoc]
    rw [readVal_writeVal k a h.1]
    simp only [Option.bind_eq_bind, Option.bind_some, Option.pure_def]
    rw [ih h.2]
    rfl

theorem readVec_writeVec (k : Nat) (l : List Nat) (h : ∀ v ∈ l, v < 256 ^ k) (hn : l.length < 256 ^ 8)
    (s : Stream) : readVec k (writeVec k l ++ s) = some (l, s) := by
  unfold readVec writeVec
  rw [List.append_assoc, readVal_writeVal 8 _ hn]
  simp only [Option.bind_eq_bind, Option.bind_some]
  exact readElems_write k l h s

theorem readString_writeString (str : List Byte) (hn : str.length < 256 ^ 8) (s : Stream) :
    readString (writeString str ++ s) = some (str, s) := by
  unfold readString writeString
  rw [List.append_assoc, readVal_writeVal 8 _ hn]
  simp

/-! ### C47: any sequence of writes is read back -/

/-- One object written with `write_val` (object size, value), `write_vec` (element size,
elements) or `write_string`. -/
inductive Item
  | val (k v : Nat)
  | vec (k : Nat) (l : List Nat)
  | str (s : List Byte)

/-- The object is representable: values fit their size, lengths fit `size_t`. -/
def Item.Ok : Item → Prop
  | .val k v => v < 256 ^ k
  | .vec k l => (∀ v ∈ l, v < 256 ^ k) ∧ l.length < 2 ^ 64
  | .str s => s.length < 2 ^ 64

/-- Append the object to the stream with the writer of its kind. -/
def Item.write : Item → Stream
  | .val k v => writeVal k v
  | .vec k l => writeVec k l
  | .str s => writeString s

/-- Read an object of the same kind and element size. -/
def Item.readLike : Item → Stream → Option (Item × Stream)
  | .val k _, s => (readVal k s).map (fun p => (.val k p.1, p.2))
  | .vec k _, s => (readVec k s).map (fun p => (.vec k p.1, p.2))
  | .str _, s => (readString s).map (fun p => (.str p.1, p.2))

/-- Read a sequence of objects of the given kinds. -/
def readAll : List Item → Stream → Option (List Item × Stream)
  | [], s => some ([], s)
  | i :: is, s => do
    let (x, s) ← i.readLike s
    let (xs, s) ← readAll is s
    pure (x :: xs, s)

theorem C47_item_roundtrip (i : Item) (h : i.Ok) (s : Stream) : i.readLike (i.write ++ s) = some (i, s) := by
  cases i with
  | val k v => simp [Item.readLike, Item.write, readVal_writeVal k v h]
  | vec k l => simp [Item.readLike, Item.write, readVec_writeVec k l h.1 h.2]
  | str t => simp [Item.readLike, Item.write, readString_writeString t h]

example := C47_item_roundtrip (.vec 4 [1, 70000, 0]) ⟨by decide, by decide⟩ [7#8]

/-- Whatever sequence of objects is written, reading objects of the same kinds gives back exactly
those objects and leaves exactly what followed them in the stream. -/
theorem C47_roundtrip (is : List Item) (h : ∀ i ∈ is, i.Ok) (s : Stream) :
    readAll is ((is.map Item.write).flatten ++ s) = some (is, s) := by
  induction is with
  | nil => simp [readAll]
  | cons i is ih =>
    simp only [List.mem_cons, forall_eq_or_imp] at h
    simp only [List.map_cons, List.flatten_cons, List.append_assoc, readAll]
    rw [C47_item_roundtrip i h.1]
    simp only [Option.bind_eq_bind, Option.bind_some]
    rw [ih h.2]
    rfl

example := C47_roundtrip [.vec 4 [1, 70000, 0], .val 8 300, .str [0x61#8, 0#8]] (by
  intro i h
  simp only [List.mem_cons, List.not_mem_nil, or_false] at h
  rcases h with rfl | rfl | rfl
  · exact ⟨by decide, by decide⟩
  · unfold Item.Ok; decide
  · unfold Item.Ok; decide) [7#8]

/-- `size_vec` is the number of bytes `write_vec` writes. -/
theorem C47_size_vec (k : Nat) (l : List Nat) : (writeVec k l).length = sizeVec k l := by
  have h : ((l.map (writeVal k)).flatten).length = k * l.length := by
    induction l with
    | nil => simp
    | cons a l ih =>
      simp only [List.map_cons, List.flatten_cons, List.length_append, writeVal_length, ih, List.length_cons,
        Nat.mul_succ]
      omega
  simp [writeVec, sizeVec, writeVal_length, h]
  omega

example : (Item.vec 4 [1, 70000, 0]).Ok ∧ (Item.val 8 300).Ok ∧ (Item.str [0x61#8, 0#8]).Ok := by
  refine ⟨⟨by decide, by decide⟩, by unfold Item.Ok; decide, by unfold Item.Ok; decide⟩

example : (writeVal 2 300) = [44#8, 1#8] := by decide

end Verif.Serial
