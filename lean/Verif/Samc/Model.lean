/-
Model of /repo/include/sim_ds/string_util/Samc.hpp.

`W` is the number of bits of `CodeType` (8, 16, 32 or 64). A string is the list of its bytes. A range of iterators into the array of strings is
the list of the strings in it. `std::map<size_t, char>` is the list of the assignments in the order they are made; it is only read to copy all of
it into `storage_`. Access out of range has the outcome `none`. The asserts are not part of the model (Release build).
-/
import Verif.BV.Model
import Verif.Bits.Model
import Verif.Succ.Model
import Verif.Serial.Model

namespace Verif.Samc
open Verif.BV Verif.Serial
open Verif.Bits (W64)

abbrev Key := List Byte

/-- `operator[]` of std::string: the terminating NUL may be read. -/
def charAt (k : Key) (d : Nat) : Option Byte := if d = k.length then some 0 else k[d]?

/-- The second loop of `for_each_edge`, Samc.hpp:45-52, with `cur` the strings from `it` to `endit` and `c` their character. -/
def runs (d : Nat) (c : Byte) : List Key → List Key → Option (List (Byte × List Key))
  | cur, [] => some [(c, cur)]
  | cur, k :: ks => do
    let c' ← charAt k d
    if c' = c then runs d c (cur ++ [k]) ks
    else do
      let es ← runs d c' [k] ks
      pure ((c, cur) :: es)

/-- The second loop of `for_each_edge`, Samc.hpp:45-52, from the start. -/
def runs0 (d : Nat) : List Key → Option (List (Byte × List Key))
  | [] => some []
  | k :: ks => do
    let c ← charAt k d
    runs d c [k] ks

/-- `for_each_edge`, Samc.hpp:37-53: the edges in the order of the calls of `action`. -/
def edges (d : Nat) : List Key → Option (List (Byte × List Key))
  | [] => none
  | k :: ks =>
    if k.length = d then do
      let es ← runs0 d (ks.dropWhile (fun k => k.length = d))
      pure ((0, []) :: es)
    else runs0 d (k :: ks)

/-- `field_bits`, Samc.hpp:221-224. -/
def fieldBits (e : BVec) (i : Nat) : Option W64 := if i < (e.size - 1) / 64 + 1 then e.words[i]? else some 0#64

/-- The 64 bits of the field `i` moved down by `id - heads`, Samc.hpp:231-237. -/
def window (e : BVec) (i off : Nat) : Option W64 :=
  if off % 64 = 0 then fieldBits e (off / 64 + i)
  else do
    let a ← fieldBits e (off / 64 + i)
    let b ← fieldBits e (off / 64 + i + 1)
    pure ((a >>> (off % 64)) ||| (b <<< (64 - off % 64)))

/-- The inner loop of `y_check_`, Samc.hpp:230-240. -/
def cands (e : BVec) (heads i : Nat) : List Nat → W64 → Option W64
  | [], c => some c
  | id :: ids, c => do
    let m ← window e i (id - heads)
    if c &&& m = 0#64 then pure 0#64 else cands e heads i ids (c &&& m)

/-- `*min_element`; the lists are not empty. -/
def lmin : List Nat → Nat
  | [] => 0
  | [x] => x
  | x :: xs => min x (lmin xs)

/-- `*max_element`. -/
def lmax : List Nat → Nat
  | [] => 0
  | x :: xs => max x (lmax xs)

/-- The outer loop of `y_check_`, Samc.hpp:228-244, with `n = field_size - i`. -/
def yLoop (e : BVec) (ids : List Nat) : (n i : Nat) → Option Int
  | 0, _ => some ((e.size : Int) + ids.headD 0 - ids.getLastD 0)
  | n + 1, i => do
    let c ← cands e (lmin ids) i ids (BitVec.allOnes 64)
    if c ≠ 0#64 then pure ((64 * i + Bits.ctz64 c : Nat) - (lmin ids : Int)) else yLoop e ids n (i + 1)

/-- `y_check_`, Samc.hpp:220-245. -/
def yCheck (ids : List Nat) (e : BVec) : Option Int := yLoop e ids ((e.size + ids.headD 0 - ids.getLastD 0) / 64 + 1) 0

/-- The inner loop of `y_check_legacy_`, Samc.hpp:251-257; `y` is `front + heads`. -/
def legacyFits (e : BVec) (heads y : Nat) : List Nat → Bool → Option Bool
  | [], found => some found
  | id :: ids, found => do
    let b ← e.get (y + (id - heads))
    legacyFits e heads y ids (found && b)

/-- The outer loop of `y_check_legacy_`, Samc.hpp:250-260. It has no end; after the whole of `e` the reads are out of range. -/
def legacyLoop (e : BVec) (ids : List Nat) : (n y : Nat) → Option Int
  | 0, _ => none
  | n + 1, y => do
    let found ← legacyFits e (lmin ids) y ids true
    if found then pure ((y : Int) - lmin ids) else legacyLoop e ids n (y + 1)

/-- `y_check_legacy_`, Samc.hpp:249-261. -/
def yCheckLegacy (ids : List Nat) (e : BVec) : Option Int := legacyLoop e ids (e.size + 64) 0

/-- The choice of the search, Samc.hpp:183. -/
def yFront (legacy : Bool) (ids : List Nat) (e : BVec) : Option Int := if legacy then yCheckLegacy ids e else yCheck ids e

/-- `a - b` for two values of `CodeType`, converted to `size_t`: types below 32 bits are computed as `int`. -/
def codeSub (W a b : Nat) : Nat := if b ≤ a then a - b else if W < 32 then 2 ^ 64 - (b - a) else 2 ^ W - (b - a)

/-- The variables changed by the loop over the characters, Samc.hpp:138-139, 165-167. -/
structure Lv where
  bv : BVec
  mh : Nat
  codes : List Nat
  map : List (Nat × Byte)
  queue : List (Nat × List Key)

/-- The loop over the indices of a character, Samc.hpp:187-200. -/
def place (h0 h1 : Nat) (c : Byte) (code : Nat) : List (Nat × List Key) → Lv → Option Lv
  | [], s => some s
  | (i, node) :: es, s => do
    let index := (h0 + i + code) % 2 ^ 64
    let inset := (index + 2 ^ 64 - h1) % 2 ^ 64
    let bv ← s.bv.set inset false
    place h0 h1 c code es
      { s with bv := bv, mh := max s.mh (inset + 1), map := s.map ++ [(index, c)],
               queue := if c ≠ 0 then s.queue ++ [(index, node)] else s.queue }

/-- The growth of `empty_bv`, Samc.hpp:181-182. -/
def grow (bv : BVec) (n : Nat) : Option BVec := if bv.size < n then bv.resize n true else some bv

/-- The body of the loop over the characters, Samc.hpp:172-200. The tables `indices_table` and `node_table`, 152-153, are given by the list `es` of
the edges of the level in the order they are pushed; the entries for `c` are those with label `c`. -/
def charStep (W : Nat) (legacy : Bool) (h0 h1 : Nat) (es : List (Byte × Nat × List Key)) (c : Nat) (s : Lv) : Option Lv :=
  let g := (es.filter (fun e => e.1.toNat = c)).map Prod.snd
  if g = [] then some s
  else do
    let ids := g.map Prod.fst
    let bv ← grow s.bv (s.mh + (1 + lmax ids - lmin ids))
    let y ← yFront legacy ids bv
    let code := (((codeSub W h1 h0 : Nat) + y) % 2 ^ 64 : Int).toNat
    let codes ← wr s.codes c (code % 2 ^ W)
    place h0 h1 (BitVec.ofNat 8 c) code g { s with bv := bv, codes := codes }

/-- The loop over the characters, Samc.hpp:171-201. -/
def charLoop (W : Nat) (legacy : Bool) (h0 h1 : Nat) (es : List (Byte × Nat × List Key)) : (n c : Nat) → Lv → Option Lv
  | 0, _, s => some s
  | n + 1, c, s => do
    let s ← charStep W legacy h0 h1 es c s
    charLoop W legacy h0 h1 es n (c + 1) s

/-- The loop over the queue, Samc.hpp:154-164. -/
def collect (d h0 : Nat) : List (Nat × List Key) → Option (List (Byte × Nat × List Key))
  | [] => some []
  | (index, node) :: q => do
    let es ← edges d node
    let rest ← collect d h0 q
    pure (es.map (fun e => (e.1, (index + 2 ^ 64 - h0) % 2 ^ 64, e.2)) ++ rest)

/-- The variables of the outer loop, Samc.hpp:138-143. -/
structure St where
  map : List (Nat × Byte)
  queue : List (Nat × List Key)
  code : List (List Nat)
  head : List Nat

/-- The body of the loop over the depths, Samc.hpp:152-208. -/
def level (W : Nat) (legacy : Bool) (d : Nat) (s : St) : Option St := do
  let h0 ← s.head[d]?
  let h1 ← s.head[d + 1]?
  let es ← collect d h0 s.queue
  let l ← charLoop W legacy h0 h1 es 256 0 ⟨BV.empty, 0, List.replicate 256 0, s.map, []⟩
  pure ⟨l.map, l.queue, s.code ++ [l.codes], s.head ++ [(h1 + l.mh) % 2 ^ W]⟩

/-- The loop over the depths, Samc.hpp:145-209. The loop of the code has no bound; here at most `n` rounds, and more are the outcome `none`. -/
def levels (W : Nat) (legacy : Bool) : (n d : Nat) → St → Option St
  | 0, _, _ => none
  | n + 1, d, s =>
    if s.queue = [] then some s
    else do
      let s ← level W legacy d s
      levels W legacy n (d + 1) s

/-- The copy into `storage_`, Samc.hpp:213-214. -/
def store : List (Nat × Byte) → List Byte → Option (List Byte)
  | [], m => some m
  | (i, c) :: ps, m => do
    let m ← wr m i c
    store ps m

/-- The members of `_SamcImpl`, Samc.hpp:78-80. -/
structure Samc where
  storage : List Byte
  code : List (List Nat)
  head : List Nat
deriving DecidableEq

/-- The constructor of `_SamcImpl`, Samc.hpp:115 and 137-216. The number of rounds allowed is two more than the greatest length. -/
def build (W : Nat) (legacy : Bool) (keys : List Key) : Option Samc := do
  let s ← levels W legacy (lmax (keys.map List.length) + 2) 0 ⟨[(0, 94)], [(0, keys)], [], [0, 1]⟩
  let n ← s.head.getLast?
  let st ← store s.map (List.replicate n 0xff)
  pure ⟨st, s.code, s.head⟩

/-- `code`, Samc.hpp:87. -/
def Samc.codeOf (s : Samc) (d : Nat) (c : Byte) : Option Nat := do
  let row ← s.code[d]?
  row[c.toNat]?

/-- `in_range`, Samc.hpp:308-311 and 430-433, with the short circuit. -/
def Samc.inRange (s : Samc) (index d : Nat) : Option Bool := do
  let a ← s.head[d]?
  if a ≤ index then do
    let b ← s.head[d + 1]?
    pure (decide (index < b))
  else pure false

/-- `in_range(target, depth+1) and check(target) == c`, Samc.hpp:325-326 and 332-333. -/
def Samc.follows (s : Samc) (target d : Nat) (c : Byte) : Option Bool := do
  let r ← s.inRange target (d + 1)
  if r then do
    let x ← s.storage[target]?
    pure (decide (x = c))
  else pure false

/-- The common part of `accept`, Samc.hpp:319-334, and `lookup`, 441-457: the index of the leaf, if any. `node + code` may exceed 64 bits only if `CodeType`
has 64. -/
def Samc.find (s : Samc) : (key : Key) → (node d : Nat) → Option (Option Nat)
  | [], node, d => do
    let x ← s.codeOf d 0
    let r ← s.follows ((node + x) % 2 ^ 64) d 0
    pure (if r then some ((node + x) % 2 ^ 64) else none)
  | c :: key, node, d => do
    let x ← s.codeOf d c
    let r ← s.follows ((node + x) % 2 ^ 64) d c
    if r then Samc.find s key ((node + x) % 2 ^ 64) (d + 1) else pure none

/-- `accept`, Samc.hpp:317-334. -/
def Samc.accept (s : Samc) (key : Key) : Option Bool := do
  let r ← s.find key 0 0
  pure r.isSome

/-- `write_vec` for the table of codes: the elements are arrays of 256 values. -/
def writeTable (k : Nat) (t : List (List Nat)) : Stream := writeVal 8 t.length ++ (t.map (fun row => (row.map (writeVal k)).flatten)).flatten

/-- `is.read` for the table of codes. -/
def readRows (k : Nat) : Nat → Stream → Option (List (List Nat) × Stream)
  | 0, s => some ([], s)
  | n + 1, s => do
    let (r, s) ← readElems k 256 s
    let (l, s) ← readRows k n s
    pure (r :: l, s)

/-- `read_vec` for the table of codes. -/
def readTable (k : Nat) (s : Stream) : Option (List (List Nat) × Stream) := do
  let (n, s) ← readVal 8 s
  readRows k n s

/-- `Write`, Samc.hpp:98-102; a vector of bytes is written like a string. -/
def Samc.write (W : Nat) (s : Samc) : Stream := writeString s.storage ++ writeTable (W / 8) s.code ++ writeVec (W / 8) s.head

/-- `Read`, Samc.hpp:104-108. -/
def read (W : Nat) (st : Stream) : Option (Samc × Stream) := do
  let (a, st) ← readString st
  let (b, st) ← readTable (W / 8) st
  let (c, st) ← readVec (W / 8) st
  pure (⟨a, b, c⟩, st)

/-- `size_in_bytes`, Samc.hpp:91-96. -/
def Samc.sizeInBytes (W : Nat) (s : Samc) : Nat := (s.storage.length + 8) + (256 * (W / 8) * s.code.length + 8) + sizeVec (W / 8) s.head

/-- The loop of `_setup_leaves`, Samc.hpp:368-371, with `n = storage_.size() - i`. -/
def leafLoop (st : List Byte) : (n i : Nat) → BVec → Option BVec
  | 0, _, v => some v
  | n + 1, i, v => do
    let x ← st[i]?
    if x = 0 then do
      let v ← v.set i true
      leafLoop st n (i + 1) v
    else leafLoop st n (i + 1) v

/-- `_SamcDictImpl`, Samc.hpp:340-349. -/
structure Dict where
  samc : Samc
  leaves : Succ.SBV

/-- `_setup_leaves`, Samc.hpp:366-373. -/
def setupLeaves (s : Samc) : Option Dict := do
  let v ← leafLoop s.storage (s.storage.length - 1) 1 (BV.ofSize s.storage.length)
  let l ← Succ.build true v
  pure ⟨s, l⟩

/-- The constructor, Samc.hpp:356-359 and 409-410. -/
def buildDict (W : Nat) (keys : List Key) : Option Dict := do
  let s ← build W false keys
  setupLeaves s

/-- `kSearchError`, Samc.hpp:405. -/
def searchError : Nat := 2 ^ 64 - 1

/-- `lookup`, Samc.hpp:439-459; `id`, 375-378. -/
def Dict.lookup (t : Dict) (key : Key) : Option Nat := do
  let r ← t.samc.find key 0 0
  match r with
  | none => pure searchError
  | some i => t.leaves.rank1 i

/-- `std::upper_bound(head_.begin(), head_.end(), node) - head_.begin()`: on a sorted sequence the number of elements up to the first one greater. -/
def upperBound (head : List Nat) (node : Nat) : Nat := (head.takeWhile (fun h => h ≤ node)).length

/-- The loop of `access`, Samc.hpp:467-472, with `text` reversed. -/
def accessLoop (s : Samc) : (d node : Nat) → Key → Option Key
  | 0, _, text => some text
  | d + 1, node, text => do
    let c ← s.storage[node]?
    let x ← s.codeOf d c
    accessLoop s d ((node + 2 ^ 64 - x) % 2 ^ 64) (c :: text)

/-- `access`, Samc.hpp:461-475; `leaf`, 380. `rend()-1` of an empty text is out of range. -/
def Dict.access (selF : W64 → Nat → Option Nat) (t : Dict) (value : Nat) : Option Key := do
  let node ← t.leaves.select selF value
  let text ← accessLoop t.samc (upperBound t.samc.head node - 1) node []
  if text = [] then none else pure text.dropLast

/-- `Write`, Samc.hpp:384-387. -/
def Dict.write (W : Nat) (t : Dict) : Stream := t.samc.write W ++ t.leaves.write true

/-- `Read`, Samc.hpp:389-392. -/
def readDict (W : Nat) (st : Stream) : Option (Dict × Stream) := do
  let (a, st) ← read W st
  let (b, st) ← Succ.read true st
  pure (⟨a, b⟩, st)

/-- `size_in_bytes`, Samc.hpp:382. -/
def Dict.sizeInBytes (W : Nat) (t : Dict) : Nat := t.samc.sizeInBytes W + t.leaves.sizeInBytes true

end Verif.Samc
