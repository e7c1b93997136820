/-
Model of the stream helpers of /repo/include/sim_ds/basic.hpp:81-123.

A stream is a list of bytes. Writing appends; reading takes from the front and returns the rest.
Objects are stored little-endian in `sizeof(T)` bytes (x86-64), so the model is parametrised by
the element size in bytes and represents an object by its unsigned value. A read past the end of
the stream leaves the C++ object uninitialised: here `none`. The formally out-of-range expression
`&vec[0]` for an empty vector in `write_vec` is not treated as a fault: no byte is accessed.
-/
namespace Verif.Serial

abbrev Byte := BitVec 8
abbrev Stream := List Byte

/-- The `k` bytes of an object with value `v` (little-endian): the memory read by
`os.write(reinterpret_cast<const char*>(&val), sizeof(val))`, basic.hpp:104-107. -/
def writeVal (k v : Nat) : Stream := (List.range k).map (fun i => BitVec.ofNat 8 (v / 256 ^ i))

/-- The value of a little-endian object. -/
def leVal : Stream → Nat
  | [] => 0
  | b :: s => b.toNat + 256 * leVal s

/-- `read_val`, basic.hpp:81-86. -/
def readVal (k : Nat) (s : Stream) : Option (Nat × Stream) :=
  if k ≤ s.length then some (leVal (s.take k), s.drop k) else none

/-- `write_vec`, basic.hpp:109-113 (`sizeof(size_t) = 8`). -/
def writeVec (k : Nat) (l : List Nat) : Stream := writeVal 8 l.length ++ (l.map (writeVal k)).flatten

/-- `is.read(vec.data(), sizeof(T) * n)`, basic.hpp:92. -/
def readElems (k : Nat) : Nat → Stream → Option (List Nat × Stream)
  | 0, s => some ([], s)
  | n + 1, s => do
    let (v, s) ← readVal k s
    let (l, s) ← readElems k n s
    pure (v :: l, s)

/-- `read_vec`, basic.hpp:88-93. -/
def readVec (k : Nat) (s : Stream) : Option (List Nat × Stream) := do
  let (n, s) ← readVal 8 s
  readElems k n s

/-- `write_string`, basic.hpp:115-118. -/
def writeString (str : List Byte) : Stream := writeVal 8 str.length ++ str

/-- `read_string`, basic.hpp:95-100. -/
def readString (s : Stream) : Option (List Byte × Stream) := do
  let (n, s) ← readVal 8 s
  if n ≤ s.length then some (s.take n, s.drop n) else none

/-- `size_vec`, basic.hpp:120-123. -/
def sizeVec (k : Nat) (l : List Nat) : Nat := k * l.length + 8

end Verif.Serial
