/-
Property theorems C16-C19 (BitVector, bit ranges, bit iterators, serialisation).
-/
import Verif.BV.Lemmas
import Verif.Serial.Props

namespace Verif.BV
open Verif.Bits Verif.Serial

/-! ### Specification: histories on a plain list of booleans -/

/-- Ways to construct a BitVector. -/
inductive Init
  | default
  | size (n : Nat)
  | sizeBit (n : Nat) (b : Bool)
  | bits (l : List Bool)

/-- Mutating operations. `fill b e bit` is `fill(begin() + b, begin() + e, bit)`. -/
inductive Op
  | set (i : Nat) (b : Bool)
  | pushBack (b : Bool)
  | resize (n : Nat) (b : Bool)
  | assign (n : Nat) (b : Bool)
  | fill (b e : Nat) (bit : Bool)
  | copy (i j : Nat)
  | reserve (n : Nat)

/-- The list a constructor should produce. -/
def specInit : Init → List Bool
  | .default => []
  | .size n => List.replicate n false
  | .sizeBit n b => List.replicate n b
  | .bits l => l

/-- Is the call allowed? Element writes must be inside, fills must end inside. -/
def specOk (l : List Bool) : Op → Prop
  | .set i _ => i < l.length
  | .fill _ e _ => e ≤ l.length
  | .copy i j => i < l.length ∧ j < l.length
  | _ => True

/-- The effect on the list. -/
def specStep (l : List Bool) : Op → List Bool
  | .set i b => l.set i b
  | .pushBack b => l ++ [b]
  | .resize n b => l.take n ++ List.replicate (n - l.length) b
  | .assign n b => List.replicate n b
  | .fill b e bit => l.mapIdx (fun i x => if b ≤ i ∧ i < e then bit else x)
  | .copy i j => l.set i (l.getD j false)
  | .reserve _ => l

/-- All calls of the history are allowed. -/
def specAllOk (l : List Bool) : List Op → Prop
  | [] => True
  | o :: os => specOk l o ∧ specAllOk (specStep l o) os

def specRun (l : List Bool) (os : List Op) : List Bool := os.foldl specStep l

/-! ### The same histories on the model -/

def runInit : Init → Option BVec
  | .default => some empty
  | .size n => some (ofSize n)
  | .sizeBit n b => ofSizeBit n b
  | .bits l => ofBits l

def runStep (v : BVec) : Op → Option BVec
  | .set i b => v.set i b
  | .pushBack b => v.pushBack b
  | .resize n b => v.resize n b
  | .assign n b => v.assign n b
  | .fill b e bit => v.fillRange b e bit
  | .copy i j => v.copyElem i j
  | .reserve n => v.reserve n

def runOps (v : BVec) : List Op → Option BVec
  | [] => some v
  | o :: os => do
    let v ← runStep v o
    runOps v os

/-- A BitVector is observed as `l`: its size, every element read, `at` on every index (inside: the
element; outside: the exception), and iteration. -/
def Shows (v : BVec) (l : List Bool) : Prop :=
  v.size = l.length ∧ (∀ i (h : i < l.length), v.get i = some l[i] ∧ v.at i = some (some l[i])) ∧
  (∀ i, l.length ≤ i → v.at i = some none) ∧ v.toList = some l ∧
  (l ≠ [] → v.front = l.head? ∧ v.back = l.getLast?)

/-! ### Representation invariant (proof device) -/

structure Rep (v : BVec) (l : List Bool) : Prop where
  size : v.size = l.length
  words : v.words.length = wordSize v.size
  bits : ∀ i (h : i < l.length), bitAt v.words i = l[i]

theorem iterate_spec (ws : List W64) (n : Nat) (hn : n ≤ 64 * ws.length) :
    ∀ (k i : Nat), i + k = n → iterate ws (mkIter i) (mkIter n) (k + 1) = some ((List.range' i k).map (bitAt ws))
  | 0, i, h => by
    have : (mkIter i).eq (mkIter n) = true := by
      rw [eq_spec _ _ (mkIter_ctz _) (mkIter_ctz _), mkIter_pos, mkIter_pos]; omega
    simp [iterate, this]
  | k + 1, i, h => by
    have : ¬ (mkIter i).eq (mkIter n) = true := by
      rw [eq_spec _ _ (mkIter_ctz _) (mkIter_ctz _), mkIter_pos, mkIter_pos]; omega
    rw [iterate, if_neg this, get_spec ws i (by omega), mkIter_inc]
    simp only [Option.bind_eq_bind, Option.bind_some]
    rw [iterate_spec ws n hn k (i + 1) (by omega)]
    simp [List.range'_succ]

theorem rep_shows (v : BVec) (l : List Bool) (h : Rep v l) : Shows v l := by
  obtain ⟨hs, hw, hb⟩ := h
  have hle : l.length ≤ 64 * v.words.length := by rw [hw, hs]; exact wordSize_le _
  have hget : ∀ i (h : i < l.length), v.get i = some l[i] := by
    intro i hi
    have hg := get_spec v.words i (by omega)
    have e : v.get i = (mkIter i).get v.words := by
      unfold BVec.get Iter.get
      have hk : i / 64 < v.words.length := by omega
      rw [show (mkIter i).seg = ((i / 64 : Nat) : Int) from rfl, show (mkIter i).ctz = i % 64 from rfl,
        rdSeg_nat _ _ hk, List.getElem?_eq_getElem hk]
      simp [List.getD_eq_getElem?_getD, hk]
    rw [e, hg, hb i hi]
  refine ⟨hs, fun i hi => ⟨hget i hi, ?_⟩, ?_, ?_, ?_⟩
  · unfold BVec.at
    rw [if_neg (by omega), hget i hi]; rfl
  · intro i hi
    unfold BVec.at
    rw [if_pos (by omega)]
  · unfold BVec.toList
    rw [iterate_spec v.words v.size (by omega) v.size 0 (by omega)]
    congr 1
    apply List.ext_getElem
    · simp [hs]
    · intro i h1 h2
      simp only [List.getElem_map, List.getElem_range', Nat.zero_add, Nat.one_mul]
      exact hb i h2
  · intro hne
    have hpos : 0 < l.length := List.length_pos_iff.2 hne
    constructor
    · unfold BVec.front
      rw [hget 0 hpos, List.head?_eq_getElem?, List.getElem?_eq_getElem hpos]
    · unfold BVec.back
      rw [hs, hget _ (by omega), List.getLast?_eq_getElem?, List.getElem?_eq_getElem (by omega)]

theorem rep_init (i : Init) : ∃ v, runInit i = some v ∧ Rep v (specInit i) := by
  cases i with
  | default =>
    exact ⟨empty, rfl, by simp [empty, specInit], by simp [empty, wordSize], fun i h => by simp [specInit] at h⟩
  | size n =>
    refine ⟨ofSize n, rfl, by simp [ofSize, specInit], by simp [ofSize], fun i h => ?_⟩
    simp only [ofSize, bitAt_replicate, specInit, List.getElem_replicate]
  | sizeBit n b =>
    obtain ⟨ws, h1, h2, h3⟩ := fill_spec (List.replicate (wordSize n) 0#64) 0 n b
      (by simpa using wordSize_le n)
    refine ⟨⟨n, ws⟩, by simp [runInit, ofSizeBit, h1], by simp [specInit], by simpa using h2, fun i h => ?_⟩
    simp only [specInit, List.length_replicate] at h
    simp only [h3, specInit, List.getElem_replicate]
    rw [if_pos (by omega)]
  | bits l =>
    obtain ⟨ws, h1, h2, h3⟩ := writeSeq_spec l (List.replicate (wordSize l.length) 0#64) 0
      (by simpa using wordSize_le l.length)
    refine ⟨⟨l.length, ws⟩, by simp [runInit, ofBits, h1], by simp [specInit], by simpa using h2, fun i h => ?_⟩
    simp only [specInit] at h
    simp only [h3, specInit]
    rw [dif_pos (by omega)]
    simp

theorem rep_step (v : BVec) (l : List Bool) (o : Op) (h : Rep v l) (ho : specOk l o) :
    ∃ v', runStep v o = some v' ∧ Rep v' (specStep l o) := by
  obtain ⟨hs, hw, hb⟩ := h
  have hle : l.length ≤ 64 * v.words.length := by rw [hw, hs]; exact wordSize_le _
  have hresize : ∀ n b, ∃ v', v.resize n b = some v' ∧ Rep v' (specStep l (.resize n b)) := by
    intro n b
    unfold BVec.resize
    by_cases h1 : n < v.size
    · rw [if_pos h1]
      refine ⟨_, rfl, ?_, by simp [vresize_length], ?_⟩
      · simp [specStep]; omega
      · intro i hi
        simp only [specStep] at hi ⊢
        have hin : i < n := by
          simp at hi; omega
        have := wordSize_le n
        rw [bitAt_vresize _ _ _ (by omega) (by omega), hb i (by omega)]
        rw [List.getElem_append_left (by simp; omega), List.getElem_take]
    · rw [if_neg h1]
      by_cases h2 : n > v.size
      · rw [if_pos h2]
        obtain ⟨ws, f1, f2, f3⟩ := fill_spec (vresize v.words (wordSize n) 0#64) v.size n b
          (by rw [vresize_length]; exact wordSize_le n)
        refine ⟨⟨n, ws⟩, by simp [f1], ?_, ?_, ?_⟩
        · simp [specStep]; omega
        · simp only; rw [f2, vresize_length]
        · intro i hi
          simp only [specStep] at hi ⊢
          have hin : i < n := by simp at hi; omega
          have := wordSize_le n
          rw [f3]
          by_cases hc : i < l.length
          · rw [if_neg (by omega), bitAt_vresize _ _ _ (by omega) (by omega), hb i hc]
            rw [List.getElem_append_left (by simp; omega), List.getElem_take]
          · rw [if_pos (by omega), List.getElem_append_right (by simp; omega)]
            simp
      · rw [if_neg h2]
        have hn : n = l.length := by omega
        refine ⟨v, rfl, ?_, hw, ?_⟩
        · simp [specStep, hn, hs]
        · intro i hi
          have : specStep l (.resize n b) = l := by simp [specStep, hn]
          simp only [this] at hi ⊢
          exact hb i hi
  have hset : ∀ i b, i < l.length → ∃ v', v.set i b = some v' ∧ Rep v' (l.set i b) := by
    intro i b ho
    obtain ⟨ws, g1, g2, g3⟩ := set_spec v.words i b (by omega)
    refine ⟨⟨v.size, ws⟩, ?_, by simp [hs], by simp only; rw [g2, hw], ?_⟩
    · have e : v.set i b = ((mkIter i).set v.words b).map (fun ws => ⟨v.size, ws⟩) := by
        unfold BVec.set Iter.set
        have hk : i / 64 < v.words.length := by omega
        have hm : i % 64 < 64 := Nat.mod_lt _ (by decide)
        rw [show (mkIter i).seg = ((i / 64 : Nat) : Int) from rfl, show (mkIter i).ctz = i % 64 from rfl,
          rdSeg_nat _ _ hk, List.getElem?_eq_getElem hk]
        simp only [Option.bind_eq_bind, Option.bind_some, offsetMask, hm, if_true, wrSeg_nat _ _ _ hk]
        simp [List.getD_eq_getElem?_getD, hk, wr]
      simp [e, g1]
    · intro j hj
      simp only [List.length_set] at hj ⊢
      rw [g3, List.getElem_set]
      by_cases hji : j = i
      · rw [if_pos hji, if_pos hji.symm]
      · rw [if_neg hji, if_neg (Ne.symm hji), hb j hj]
  cases o with
  | set i b => exact hset i b ho
  | copy i j =>
    simp only [specOk] at ho
    have hj := ((rep_shows v l ⟨hs, hw, hb⟩).2.1 j ho.2).1
    obtain ⟨v', h1, h2⟩ := hset i l[j] ho.1
    refine ⟨v', by simp [runStep, BVec.copyElem, hj, h1], ?_⟩
    simpa [specStep, List.getD_eq_getElem?_getD, ho.2] using h2
  | reserve n => exact ⟨v, rfl, hs, hw, hb⟩
  | pushBack b =>
    obtain ⟨v', h1, h2⟩ := hresize (v.size + 1) b
    refine ⟨v', h1, ?_⟩
    have : specStep l (.resize (v.size + 1) b) = specStep l (.pushBack b) := by
      simp [specStep, hs, List.take_of_length_le]
    rw [← this]; exact h2
  | resize n b => exact hresize n b
  | assign n b =>
    obtain ⟨ws, f1, f2, f3⟩ := fill_spec (vresize v.words (wordSize n) 0#64) 0 n b
      (by rw [vresize_length]; exact wordSize_le n)
    refine ⟨⟨n, ws⟩, by simp [runStep, BVec.assign, f1], by simp [specStep], by simp only; rw [f2, vresize_length], ?_⟩
    intro i hi
    simp only [specStep, List.length_replicate] at hi
    simp only [specStep, List.getElem_replicate]
    rw [f3, if_pos (by omega)]
  | fill b e bit =>
    simp only [specOk] at ho
    obtain ⟨ws, f1, f2, f3⟩ := fill_spec v.words b e bit (by omega)
    refine ⟨⟨v.size, ws⟩, ?_, by simp [specStep, hs], by simp only; rw [f2, hw], ?_⟩
    · simp only [runStep, BVec.fillRange]
      rw [mkIter_add, mkIter_add, Nat.zero_add, Nat.zero_add, f1]; rfl
    · intro i hi
      simp only [specStep, List.length_mapIdx] at hi
      simp only [specStep, List.getElem_mapIdx]
      rw [f3, hb i hi]

theorem rep_run (os : List Op) : ∀ (v : BVec) (l : List Bool), Rep v l → specAllOk l os →
    ∃ v', runOps v os = some v' ∧ Rep v' (specRun l os) := by
  induction os with
  | nil => intro v l h _; exact ⟨v, rfl, h⟩
  | cons o os ih =>
    intro v l h hok
    obtain ⟨v1, h1, h2⟩ := rep_step v l o h hok.1
    obtain ⟨v2, h3, h4⟩ := ih v1 _ h2 hok.2
    exact ⟨v2, by simp [runOps, h1, h3], h4⟩

theorem reachable_rep (i : Init) (os : List Op) (h : specAllOk (specInit i) os) :
    ∃ v0 v, runInit i = some v0 ∧ runOps v0 os = some v ∧ Rep v (specRun (specInit i) os) := by
  obtain ⟨v0, h0, r0⟩ := rep_init i
  obtain ⟨v, h1, r1⟩ := rep_run os v0 _ r0 h
  exact ⟨v0, v, h0, h1, r1⟩

/-- `v` is the result of an allowed history whose list value is `l`. -/
def Built (v : BVec) (l : List Bool) : Prop :=
  ∃ i os v0, specAllOk (specInit i) os ∧ runInit i = some v0 ∧ runOps v0 os = some v ∧ specRun (specInit i) os = l

theorem Built.rep {v : BVec} {l : List Bool} (h : Built v l) : Rep v l := by
  obtain ⟨i, os, v0, hok, h0, h1, rfl⟩ := h
  obtain ⟨w0, w, g0, g1, r⟩ := reachable_rep i os hok
  rw [h0] at g0
  obtain rfl : v0 = w0 := Option.some.inj g0
  rw [h1] at g1
  obtain rfl : v = w := Option.some.inj g1
  exact r

/-- Every list of bits is the value of some bit vector. -/
theorem Built.exists (l : List Bool) : ∃ v, Built v l := by
  obtain ⟨v0, v, h0, h1, _⟩ := reachable_rep (.bits l) [] trivial
  exact ⟨v, .bits l, [], v0, trivial, h0, h1, rfl⟩

/-! ### C16 -/

/-- Every history of construction, element writes, push_back, resize, assign and fill runs without
undefined behaviour and shows exactly the list that the same history produces on plain lists. -/
theorem C16_bitvector_is_list (i : Init) (os : List Op) (h : specAllOk (specInit i) os) :
    ∃ v0 v, runInit i = some v0 ∧ runOps v0 os = some v ∧ Shows v (specRun (specInit i) os) := by
  obtain ⟨v0, v, h0, h1, r⟩ := reachable_rep i os h
  exact ⟨v0, v, h0, h1, rep_shows v _ r⟩

example : specAllOk (specInit (.bits [true, false])) [.pushBack true, .set 1 true, .resize 70 true, .resize 1 false,
    .resize 3 false, .fill 1 3 true] := by
  simp [specAllOk, specOk, specStep, specInit]

example : specRun (specInit (.bits [true, false])) [.pushBack true, .resize 1 false, .resize 3 false, .fill 1 2 true]
    = [true, true, false] := by decide

/-! ### C17 -/

/-- Filling `[b, e)` sets exactly those bits of the word array and no other bit, including the
bits of the first and last word outside the range. -/
theorem C17_fill (ws : List W64) (b e : Nat) (bit : Bool) (he : e ≤ 64 * ws.length) :
    ∃ ws', fill ws (mkIter b) (mkIter e) bit = some ws' ∧ ws'.length = ws.length ∧
      ∀ k (hk : k < ws'.length) (hk' : k < ws.length) (j : Nat), j < 64 →
        ws'[k].getLsbD j = if b ≤ 64 * k + j ∧ 64 * k + j < e then bit else ws[k].getLsbD j := by
  obtain ⟨ws', h1, h2, h3⟩ := fill_spec ws b e bit he
  refine ⟨ws', h1, h2, ?_⟩
  intro k hk hk' j hj
  have := h3 (64 * k + j)
  unfold bitAt at this
  rw [show (64 * k + j) / 64 = k by omega, show (64 * k + j) % 64 = j by omega] at this
  simpa [List.getD_eq_getElem?_getD, hk, hk'] using this

example : fill [0#64, 0#64, 0xFF#64] (mkIter 60) (mkIter 130) true =
    some [0xF000000000000000#64, 0xFFFFFFFFFFFFFFFF#64, 0xFF#64] := by decide

/-! ### C18 -/

/-- Advancing by a signed distance moves the absolute position by exactly that distance. -/
theorem C18_advance (x : Iter) (d : Int) (hx : x.ctz < 64) :
    64 * (x.add d).seg + (x.add d).ctz = 64 * x.seg + x.ctz + d ∧ (x.add d).ctz < 64 :=
  add_spec x d hx

/-- `-=`, `++` and `--` agree with `+=`. -/
theorem C18_agree (x : Iter) (d : Int) (hx : x.ctz < 64) :
    x.sub d = x.add (-d) ∧ x.inc = x.add 1 ∧ x.dec = x.add (-1) := by
  refine ⟨rfl, ?_, ?_⟩
  · have h := add_spec x 1 hx
    apply Iter.ext_pos _ _ _ h.2
    · rw [h.1]
      unfold Iter.inc Iter.pos
      split <;> simp only <;> omega
    · unfold Iter.inc
      split <;> simp only <;> omega
  · have h := add_spec x (-1) hx
    apply Iter.ext_pos _ _ _ h.2
    · rw [h.1]
      unfold Iter.dec Iter.pos
      split <;> simp only <;> omega
    · unfold Iter.dec
      split <;> simp only <;> omega

example := C18_agree ⟨3, 63⟩ (-5) (by decide)

/-- Distance and comparisons follow absolute positions. -/
theorem C18_order (x y : Iter) (hx : x.ctz < 64) (hy : y.ctz < 64) :
    x.diff y = (64 * x.seg + x.ctz) - (64 * y.seg + y.ctz) ∧
    (x.eq y = true ↔ 64 * x.seg + x.ctz = 64 * y.seg + y.ctz) ∧
    (x.lt y = true ↔ 64 * x.seg + x.ctz < 64 * y.seg + y.ctz) ∧
    (x.le y = true ↔ 64 * x.seg + x.ctz ≤ 64 * y.seg + y.ctz) := by
  refine ⟨?_, eq_spec x y hx hy, lt_spec x y hx hy, le_spec x y hx hy⟩
  unfold Iter.diff; omega

example := C18_order ⟨3, 7⟩ ⟨2, 63⟩ (by decide) (by decide)
example := C18_advance ⟨3, 7⟩ (-200) (by decide)

example : (Iter.add ⟨3, 5⟩ (-70)) = ⟨1, 63⟩ ∧ (Iter.diff ⟨3, 5⟩ ⟨1, 63⟩) = 70 := by decide

/-! ### C19 -/

theorem read_write (v : BVec) (hsz : v.size < 2 ^ 64) (hw : v.words.length = wordSize v.size) (s : Stream) :
    read (v.write ++ s) = some (v, s) := by
  have hlen : v.words.length < 256 ^ 8 := by
    rw [hw]
    unfold wordSize
    split
    · decide
    · have : (256:Nat) ^ 8 = 2 ^ 64 := by decide
      omega
  unfold read BVec.write
  rw [List.append_assoc, readVal_writeVal 8 _ hsz]
  simp only [Option.bind_eq_bind, Option.bind_some]
  rw [readVec_writeVec 8 _ _ (by simpa using hlen)]
  · have : (BitVec.ofNat 64 ∘ BitVec.toNat : W64 → W64) = id := by
      funext w; simp
    simp [this]
  · intro x hx
    obtain ⟨w, _, rfl⟩ := List.mem_map.1 hx
    exact w.isLt

theorem write_length (v : BVec) : v.write.length = v.sizeInBytes := by
  simp [BVec.write, BVec.sizeInBytes, writeVal_length, C47_size_vec]

/-- Every reachable BitVector (size below 2^64, as any `size_t`) is read back identically from what
`Write` wrote, consuming exactly those bytes, and `size_in_bytes` is their number. -/
theorem C19_roundtrip (v : BVec) (l : List Bool) (h : Built v l) (hsz : l.length < 2 ^ 64) (s : Stream) :
    read (v.write ++ s) = some (v, s) ∧ v.write.length = v.sizeInBytes :=
  ⟨read_write v (by rw [h.rep.size]; exact hsz) h.rep.words s, write_length v⟩

example : ∃ v, runOps empty [.pushBack true, .resize 65 true, .set 3 false] = some v ∧ v.size = 65 ∧
    v.words = [0xFFFFFFFFFFFFFFF7#64, 1#64] := ⟨_, rfl, by decide, by decide⟩

end Verif.BV
