/-
The readers of the library on a stream that may end too early. Verif/Serial/Model.lean and the `read` functions of the classes have the
outcome `none` there; here a short `is.read` does what the standard says: it stores the bytes that are left, sets `failbit` and `eofbit`, and
every later `is.read` stores nothing. A value of `read_val` that was not completely stored is indeterminate, and every caller uses it
(outcome `none`). A vector or string that was not completely stored has its size and keeps in the missing bytes what `resize` left there.
-/
import Verif.Common
import Verif.Serial.Canon
import Verif.BV.Model
import Verif.Succ.Model
import Verif.Fit.Model
import Verif.Wave.Model
import Verif.Mult.Model
import Verif.MBit.Model
import Verif.Dac.Model
import Verif.Samc.Model
import Verif.SA.Model

namespace Verif.Serial

/-- An input stream: the bytes that are left, and whether no error bit is set. -/
structure IS where
  bytes : Stream
  good : Bool
deriving DecidableEq

/-- `is.read(p, n)`: the bytes stored and the stream afterwards ([istream.unformatted] of the standard). -/
def IS.read (s : IS) (n : Nat) : Stream × IS :=
  if s.good then (s.bytes.take n, ⟨s.bytes.drop n, decide (n ≤ s.bytes.length)⟩) else ([], s)

/-- Reading from such a stream; `none` is undefined behaviour. -/
abbrev R (α : Type) := StateT IS Option α

/-- `read_val`, basic.hpp:81-86. -/
def readValS (k : Nat) : R Nat := fun s =>
  let (b, s) := s.read k
  if b.length = k then some (leVal b, s) else none

/-- The memory of objects of `k` bytes with values `old` after the bytes `b` have been stored at its beginning. -/
def overlay (k : Nat) : (old : List Nat) → (b : Stream) → List Nat
  | [], _ => []
  | v :: old, b => leVal (b.take k ++ (writeVal k v).drop b.length) :: overlay k old (b.drop k)

/-- `read_vec` into a vector that holds `old`, basic.hpp:88-93. -/
def readVecS (k : Nat) (old : List Nat) : R (List Nat) := do
  let n ← readValS 8
  fun s =>
    let (b, s) := s.read (k * n)
    some (overlay k (vresize old n 0) b, s)

/-- The same for a vector of arrays of 256 objects, basic.hpp:88-93. -/
def overlayRows (k : Nat) : (old : List (List Nat)) → (b : Stream) → List (List Nat)
  | [], _ => []
  | r :: old, b => overlay k r b :: overlayRows k old (b.drop (k * r.length))

/-- `read_vec` of the table of codes of a Samc, basic.hpp:88-93. -/
def readTableS (k : Nat) (old : List (List Nat)) : R (List (List Nat)) := do
  let n ← readValS 8
  fun s =>
    let (b, s) := s.read (k * 256 * n)
    some (overlayRows k (vresize old n (List.replicate 256 0)) b, s)

/-- `read_vec` of a vector of bytes, basic.hpp:88-93. -/
def readBytesS (old : List Byte) : R (List Byte) := do
  let n ← readValS 8
  fun s =>
    let (b, s) := s.read n
    some (b ++ (vresize old n 0).drop b.length, s)

/-- `read_string`, basic.hpp:95-100. -/
def readStringS : R (List Byte) := readBytesS []

/-- `n` reads in a row. -/
def readManyS {α : Type} (m : R α) : Nat → R (List α)
  | 0 => pure []
  | n + 1 => do
    let a ← m
    let l ← readManyS m n
    pure (a :: l)

/-- `BitVector::Read`, BitVector.hpp:250-253. -/
def bvReadS (old : BV.BVec) : R BV.BVec := do
  let n ← readValS 8
  let ws ← readVecS 8 (old.words.map BitVec.toNat)
  pure ⟨n, ws.map (BitVec.ofNat 64)⟩

/-- `SuccinctBitVector::Read`, SuccinctBitVector.hpp:64-69. -/
def succReadS (us : Bool) (old : Succ.SBV) : R Succ.SBV := do
  let v ← bvReadS old.bits
  let blk ← readVecS 8 old.blk
  if us then do
    let tips ← readVecS 4 old.tips
    pure ⟨v, blk, tips⟩
  else pure ⟨v, blk, []⟩

/-- A computation that does not touch the stream. -/
def liftS {α : Type} (x : Option α) : R α := fun s => x.map fun a => (a, s)

/-- `FitVector(std::istream&)`, FitVector.hpp:64-67. -/
def fitReadS : R Fit.FVec := do
  let w ← readValS 8
  let v ← liftS (Fit.new w)
  let n ← readValS 8
  let ws ← readVecS 8 []
  pure { v with size := n, words := ws.map (BitVec.ofNat 64) }

/-- The loop of `WaveletTree::Read`, WaveletTree.hpp:131-132. -/
def nodesReadS : List Succ.SBV → R (List Succ.SBV)
  | [] => pure []
  | o :: old => do
    let x ← succReadS false o
    let l ← nodesReadS old
    pure (x :: l)

/-- `WaveletTree::Read`, WaveletTree.hpp:127-133. -/
def waveReadS (old : Wave.WT) : R Wave.WT := do
  let h ← readValS 8
  let l ← readValS 8
  let n ← readValS 8
  let ns ← nodesReadS old.nodes
  pure ⟨h, l, n, ns⟩

/-- `MultipleVector::LoadFrom`, MultipleVector.hpp:330-336. -/
def multReadS (old : Mult.MVec) : R Mult.MVec := do
  let bs ← readVecS 1 (old.bytes.map BitVec.toNat)
  let sizes ← readVecS 8 []
  pure (({ old with bytes := bs.map (BitVec.ofNat 8) } : Mult.MVec).setElementSizes sizes)

/-- `DacVector::Read`, DacVector.hpp:193-213; the paths begin as default constructed objects. -/
def dacReadS : R Dac.Dac := do
  let n ← readValS 8
  let us ← readManyS (readValS 8) n
  let ls ← readManyS fitReadS n
  let ps ← readManyS (succReadS false Succ.default) (n - 1)
  pure ⟨some n, us, ls, ps⟩

/-- `Samc::Read`, Samc.hpp:104-108. -/
def samcReadS (W : Nat) (old : Samc.Samc) : R Samc.Samc := do
  let a ← readBytesS old.storage
  let b ← readTableS (W / 8) old.code
  let c ← readVecS (W / 8) old.head
  pure ⟨a, b, c⟩

/-- `SamcDict::Read`, Samc.hpp:389-392. -/
def dictReadS (W : Nat) (old : Samc.Dict) : R Samc.Dict := do
  let a ← samcReadS W old.samc
  let b ← succReadS true old.leaves
  pure ⟨a, b⟩

/-- `SuffixArray::Read`, SuffixArray.hpp:60-64. -/
def saReadS : R SA.SufArr := do
  let str ← readStringS
  let sa ← fitReadS
  let lcp ← fitReadS
  pure ⟨str, sa, lcp⟩

/-- The memory of a `RankTip` with the value `t` after the bytes `b` have been stored at its beginning, MultiBitVector.hpp:33-36. -/
def tipMem (S : Nat) (t : MBit.Tip) (b : Stream) : MBit.Tip :=
  (leVal (b.take 8 ++ (writeVal 8 t.1).drop b.length), ((b.drop 8).take (MBit.tipSize S)).map BitVec.toNat ++ t.2.drop (b.length - 8))

/-- `sizeof(RankTip)`, MultiBitVector.hpp:33-36. -/
def tipBytes (S : Nat) : Nat := 8 + (MBit.tipSize S + MBit.padLen S)

/-- The same for a vector of `RankTip`. -/
def overlayTips (S : Nat) : (old : List MBit.Tip) → (b : Stream) → List MBit.Tip
  | [], _ => []
  | t :: old, b => tipMem S t b :: overlayTips S old (b.drop (tipBytes S))

/-- `read_vec(is, tips)` into a vector that holds `old`, basic.hpp:88-93. -/
def readTipsS (S : Nat) (old : List MBit.Tip) : R (List MBit.Tip) := do
  let n ← readValS 8
  fun s =>
    let (b, s) := s.read (tipBytes S * n)
    some (overlayTips S (vresize old n (0, List.replicate (MBit.tipSize S) 0)) b, s)

/-- The loop of `MultiBitVector::Read`, MultiBitVector.hpp:174-175. -/
def tipsReadS (S : Nat) : List (List MBit.Tip) → R (List (List MBit.Tip))
  | [] => pure []
  | o :: old => do
    let x ← readTipsS S o
    let l ← tipsReadS S old
    pure (x :: l)

/-- `MultiBitVector::Read`, MultiBitVector.hpp:172-176. -/
def mbitReadS (S : Nat) (old : MBit.MBV) : R MBit.MBV := do
  let ws ← readVecS 8 (old.words.map BitVec.toNat)
  let ts ← tipsReadS S old.tips
  pure ⟨ws.map (BitVec.ofNat 64), ts⟩

/-! ### Agreement with the readers of the models -/

/-- On a stream that is long enough `m` does what `rd` says, and ends with a good stream only then; a failed stream stays failed. -/
structure Agree {α : Type} (m : R α) (rd : Stream → Option (α × Stream)) : Prop where
  full : ∀ b v r, rd b = some (v, r) → m ⟨b, true⟩ = some (v, ⟨r, true⟩)
  good : ∀ b v s, m ⟨b, true⟩ = some (v, s) → s.good = true → rd b = some (v, s.bytes)
  sticky : ∀ s v s', m s = some (v, s') → s.good = false → s'.good = false

theorem Agree.pure {α : Type} (a : α) : Agree (pure a : R α) (fun b => some (a, b)) := by
  refine ⟨?_, ?_, ?_⟩
  · intro b v r h; cases h; rfl
  · intro b v s h _; cases h; rfl
  · intro s v s' h hs; cases h; exact hs

theorem Agree.lift {α : Type} (x : Option α) : Agree (liftS x) (fun b => x.map fun a => (a, b)) := by
  cases x with
  | none => exact ⟨fun b v r h => (by cases h), fun b v s h => (by cases h), fun s v s' h => (by cases h)⟩
  | some a => exact Agree.pure a

theorem Agree.bind {α β : Type} {m : R α} {f : α → R β} {rd : Stream → Option (α × Stream)} {g : α → Stream → Option (β × Stream)}
    (hm : Agree m rd) (hf : ∀ a, Agree (f a) (g a)) : Agree (m >>= f) (fun b => (rd b).bind fun p => g p.1 p.2) := by
  have key : ∀ s, (m >>= f) s = (m s).bind fun p => f p.1 p.2 := by
    intro s
    change (m s >>= fun p => f p.1 p.2) = _
    rfl
  refine ⟨?_, ?_, ?_⟩
  · intro b v r h
    cases e : rd b with
    | none => rw [e] at h; cases h
    | some p =>
      obtain ⟨a, b'⟩ := p
      rw [e] at h
      rw [key, hm.full b a b' e]
      exact (hf a).full b' v r h
  · intro b v s h hs
    rw [key] at h
    cases e : m ⟨b, true⟩ with
    | none => rw [e] at h; cases h
    | some p =>
      obtain ⟨a, s1⟩ := p
      rw [e] at h
      change f a s1 = some (v, s) at h
      cases hg : s1.good with
      | false => rw [(hf a).sticky s1 v s h hg] at hs; cases hs
      | true =>
        have e1 := hm.good b a s1 e hg
        rw [e1]
        obtain ⟨b1, g1⟩ := s1
        cases hg
        exact (hf a).good b1 v s h hs
  · intro s v s' h hs
    rw [key] at h
    cases e : m s with
    | none => rw [e] at h; cases h
    | some p =>
      obtain ⟨a, s1⟩ := p
      rw [e] at h
      exact (hf a).sticky s1 v s' h (hm.sticky s a s1 e hs)

theorem Agree.congr {α : Type} {m : R α} {rd rd' : Stream → Option (α × Stream)} (h : Agree m rd) (e : ∀ b, rd b = rd' b) : Agree m rd' := by
  have : rd = rd' := funext e
  exact this ▸ h

theorem agree_val (k : Nat) : Agree (readValS k) (readVal k) := by
  refine ⟨?_, ?_, ?_⟩
  · intro b v r h
    unfold readVal at h
    split at h
    · next hk =>
      cases h
      simp [readValS, IS.read, hk]
    · cases h
  · intro b v s h hs
    simp only [readValS, IS.read, if_true] at h
    split at h
    · next hk =>
      rw [List.length_take] at hk
      cases h
      rw [readVal, if_pos (by omega)]
    · cases h
  · intro s v s' h hs
    simp only [readValS, IS.read, hs, Bool.false_eq_true, if_false] at h
    split at h
    · cases h; exact hs
    · cases h

/-- A read of `n` bytes whose result may be used although it is short. -/
theorem agree_raw {α : Type} (n : Nat) (dec : Stream → α) :
    Agree (fun s => some (dec (s.read n).1, (s.read n).2)) (fun b => if n ≤ b.length then some (dec (b.take n), b.drop n) else none) := by
  refine ⟨?_, ?_, ?_⟩
  · intro b v r h
    split at h
    · next hk =>
      cases h
      simp [IS.read, hk]
    · cases h
  · intro b v s h hs
    simp only [IS.read, if_true, Option.some.injEq, Prod.mk.injEq] at h
    obtain ⟨h1, h2⟩ := h
    subst h2
    simp only [decide_eq_true_eq] at hs
    dsimp only
    rw [if_pos hs, h1]
  · intro s v s' h hs
    simp only [IS.read, hs, Bool.false_eq_true, if_false, Option.some.injEq, Prod.mk.injEq] at h
    rw [← h.2]
    exact hs

theorem readElems_eq (k : Nat) : ∀ (old : List Nat) (b : Stream),
    readElems k old.length b = if k * old.length ≤ b.length then some (overlay k old (b.take (k * old.length)), b.drop (k * old.length)) else none := by
  intro old
  induction old with
  | nil => intro b; simp [readElems, overlay]
  | cons v old ih =>
    intro b
    rw [List.length_cons, readElems, readVal, Nat.mul_succ]
    by_cases h : k ≤ b.length
    · rw [if_pos h]
      simp only [Option.bind_eq_bind, Option.bind_some]
      rw [ih, List.length_drop]
      by_cases h2 : k * old.length ≤ b.length - k
      · rw [if_pos h2, if_pos (by omega)]
        simp only [Option.bind_some, Option.pure_def, overlay, List.drop_drop]
        have e : (writeVal k v).drop (b.take (k * old.length + k)).length = [] :=
          List.drop_eq_nil_of_le (by rw [writeVal_length, List.length_take]; omega)
        rw [e, List.append_nil, List.take_take, Nat.min_eq_left (by omega), List.drop_take, Nat.add_sub_cancel,
          Nat.add_comm (k * old.length) k]
      · rw [if_neg h2, if_neg (by omega)]
        rfl
    · rw [if_neg h, if_neg (by omega)]
      rfl

theorem agree_vec (k : Nat) (old : List Nat) : Agree (readVecS k old) (readVec k) := by
  refine (Agree.bind (agree_val 8) (fun n => agree_raw (k * n) (fun b => overlay k (vresize old n 0) b))).congr fun b => ?_
  unfold readVec
  cases readVal 8 b with
  | none => rfl
  | some p =>
    obtain ⟨n, b'⟩ := p
    simp only [Option.bind_eq_bind, Option.bind_some]
    have := readElems_eq k (vresize old n 0) b'
    rw [show (vresize old n 0).length = n from vresize_length ..] at this
    exact this.symm

theorem agree_bytes (old : List Byte) : Agree (readBytesS old) readString := by
  refine (Agree.bind (agree_val 8) (fun n => agree_raw n (fun b => b ++ (vresize old n 0).drop b.length))).congr fun b => ?_
  unfold readString
  cases readVal 8 b with
  | none => rfl
  | some p =>
    obtain ⟨n, b'⟩ := p
    simp only [Option.bind_eq_bind, Option.bind_some]
    split
    · next h =>
      rw [List.drop_eq_nil_of_le (by rw [vresize_length, List.length_take]; omega), List.append_nil]
    · rfl

theorem overlay_take (k : Nat) : ∀ (old : List Nat) (b : Stream) (m : Nat), k * old.length ≤ m → overlay k old (b.take m) = overlay k old b := by
  intro old
  induction old with
  | nil => intros; rfl
  | cons v old ih =>
    intro b m hm
    rw [List.length_cons, Nat.mul_succ] at hm
    have e : (writeVal k v).drop (b.take m).length = (writeVal k v).drop b.length := by
      by_cases h : b.length ≤ m
      · rw [List.take_of_length_le h]
      · rw [List.drop_eq_nil_of_le (by rw [writeVal_length, List.length_take]; omega), List.drop_eq_nil_of_le (by rw [writeVal_length]; omega)]
    rw [overlay, overlay, List.take_take, Nat.min_eq_left (by omega), e, List.drop_take, ih _ _ (by omega)]

theorem readRows_aux (k c : Nat) (rd : Stream → Option (List Nat × Stream)) (rds : Nat → Stream → Option (List (List Nat) × Stream))
    (h0 : ∀ b, rds 0 b = some ([], b)) (hs : ∀ n b, rds (n + 1) b = (rd b).bind fun p => (rds n p.2).bind fun q => some (p.1 :: q.1, q.2))
    (hrd : ∀ b, rd b = readElems k c b) :
    ∀ (old : List (List Nat)), (∀ r ∈ old, r.length = c) → ∀ (b : Stream),
    rds old.length b =
      if k * c * old.length ≤ b.length then some (overlayRows k old (b.take (k * c * old.length)), b.drop (k * c * old.length)) else none := by
  intro old
  induction old with
  | nil => intro _ b; simp [h0, overlayRows]
  | cons r old ih =>
    intro hr b
    have hc : r.length = c := hr r List.mem_cons_self
    have hel := readElems_eq k r b
    rw [hc] at hel
    rw [List.length_cons, hs, hrd, hel, Nat.mul_succ]
    by_cases h : k * c ≤ b.length
    · rw [if_pos h]
      simp only [Option.bind_some]
      rw [ih (fun x hx => hr x (List.mem_cons_of_mem _ hx)), List.length_drop]
      by_cases h2 : k * c * old.length ≤ b.length - k * c
      · rw [if_pos h2, if_pos (by omega)]
        simp only [Option.bind_some, overlayRows, List.drop_drop, hc]
        rw [overlay_take k r b _ (by rw [hc]; exact Nat.le_refl _), overlay_take k r b _ (by rw [hc]; omega), List.drop_take, Nat.add_sub_cancel,
          Nat.add_comm (k * c) (k * c * old.length)]
      · rw [if_neg h2, if_neg (by omega)]
        rfl
    · rw [if_neg h, if_neg (by omega)]
      rfl

theorem readRows_eq (k : Nat) (old : List (List Nat)) (hold : ∀ r ∈ old, r.length = 256) (b : Stream) :
    Samc.readRows k old.length b =
      if k * 256 * old.length ≤ b.length then some (overlayRows k old (b.take (k * 256 * old.length)), b.drop (k * 256 * old.length)) else none :=
  readRows_aux k 256 (readElems k 256) (Samc.readRows k) (fun _ => rfl) (fun _ _ => by rw [Samc.readRows]; rfl) (fun _ => rfl) old hold b

theorem agree_many {α : Type} {m : R α} {rd : Stream → Option (α × Stream)} (h : Agree m rd) : ∀ n, Agree (readManyS m n) (Dac.readMany rd n)
  | 0 => Agree.pure []
  | n + 1 => (Agree.bind h fun a => Agree.bind (agree_many h n) fun l => Agree.pure (a :: l)).congr fun b => by
      rw [Dac.readMany]; cases rd b with
      | none => rfl
      | some p => simp only [Option.bind_eq_bind, Option.bind_some, Option.pure_def]

theorem agree_bv (old : BV.BVec) : Agree (bvReadS old) BV.read :=
  (Agree.bind (agree_val 8) fun n => Agree.bind (agree_vec 8 _) fun ws => Agree.pure (⟨n, ws.map (BitVec.ofNat 64)⟩ : BV.BVec))

theorem agree_succ (us : Bool) (old : Succ.SBV) : Agree (succReadS us old) (Succ.read us) := by
  cases us with
  | false => exact Agree.bind (agree_bv _) fun v => Agree.bind (agree_vec 8 _) fun blk => Agree.pure (⟨v, blk, []⟩ : Succ.SBV)
  | true =>
    exact Agree.bind (agree_bv _) fun v => Agree.bind (agree_vec 8 _) fun blk => Agree.bind (agree_vec 4 _) fun t => Agree.pure (⟨v, blk, t⟩ : Succ.SBV)

theorem agree_fit : Agree fitReadS Fit.read := by
  refine (Agree.bind (agree_val 8) fun w => Agree.bind (Agree.lift (Fit.new w)) fun v => Agree.bind (agree_val 8) fun n =>
    Agree.bind (agree_vec 8 []) fun ws => Agree.pure ({ v with size := n, words := ws.map (BitVec.ofNat 64) } : Fit.FVec)).congr fun b => ?_
  unfold Fit.read
  cases readVal 8 b with
  | none => rfl
  | some p => cases h : Fit.new p.1 <;> simp [h]

theorem agree_nodes : ∀ old, Agree (nodesReadS old) (Wave.readNodes old)
  | [] => Agree.pure []
  | o :: old => Agree.bind (agree_succ false o) fun x => Agree.bind (agree_nodes old) fun l => Agree.pure (x :: l)

theorem agree_wave (old : Wave.WT) : Agree (waveReadS old) old.read :=
  Agree.bind (agree_val 8) fun h => Agree.bind (agree_val 8) fun l => Agree.bind (agree_val 8) fun n => Agree.bind (agree_nodes old.nodes) fun ns =>
    Agree.pure (⟨h, l, n, ns⟩ : Wave.WT)

theorem agree_mult (old : Mult.MVec) : Agree (multReadS old) old.load :=
  Agree.bind (agree_vec 1 _) fun bs => Agree.bind (agree_vec 8 _) fun sizes =>
    Agree.pure (({ old with bytes := bs.map (BitVec.ofNat 8) } : Mult.MVec).setElementSizes sizes)

theorem agree_dac : Agree dacReadS Dac.read :=
  Agree.bind (agree_val 8) fun n => Agree.bind (agree_many (agree_val 8) n) fun us => Agree.bind (agree_many agree_fit n) fun ls =>
    Agree.bind (agree_many (agree_succ false _) (n - 1)) fun ps => Agree.pure (⟨some n, us, ls, ps⟩ : Dac.Dac)

theorem agree_table (k : Nat) (old : List (List Nat)) (hold : ∀ r ∈ old, r.length = 256) : Agree (readTableS k old) (Samc.readTable k) := by
  refine (Agree.bind (agree_val 8) (fun n => agree_raw (k * 256 * n) (fun b => overlayRows k (vresize old n (List.replicate 256 0)) b))).congr fun b => ?_
  unfold Samc.readTable
  cases readVal 8 b with
  | none => rfl
  | some p =>
    obtain ⟨n, b'⟩ := p
    simp only [Option.bind_eq_bind, Option.bind_some]
    have := readRows_eq k (vresize old n (List.replicate 256 0)) (by
      intro r hr
      rw [vresize, List.mem_append] at hr
      rcases hr with hr | hr
      · exact hold r (List.mem_of_mem_take hr)
      · rw [(List.mem_replicate.1 hr).2, List.length_replicate]) b'
    rw [vresize_length] at this
    exact this.symm

theorem agree_samc (W : Nat) (old : Samc.Samc) (hold : ∀ r ∈ old.code, r.length = 256) : Agree (samcReadS W old) (Samc.read W) :=
  Agree.bind (agree_bytes _) fun a => Agree.bind (agree_table _ _ hold) fun b => Agree.bind (agree_vec _ _) fun c =>
    Agree.pure (⟨a, b, c⟩ : Samc.Samc)

theorem agree_dict (W : Nat) (old : Samc.Dict) (hold : ∀ r ∈ old.samc.code, r.length = 256) : Agree (dictReadS W old) (Samc.readDict W) :=
  Agree.bind (agree_samc W _ hold) fun a => Agree.bind (agree_succ true _) fun b => Agree.pure (⟨a, b⟩ : Samc.Dict)

theorem agree_sa : Agree saReadS SA.read :=
  Agree.bind (agree_bytes _) fun str => Agree.bind agree_fit fun sa => Agree.bind agree_fit fun lcp => Agree.pure (⟨str, sa, lcp⟩ : SA.SufArr)

theorem readTip_eq (S : Nat) (t : MBit.Tip) (ht : t.2.length = MBit.tipSize S) (b : Stream) (m : Nat) (hm : tipBytes S ≤ m) :
    MBit.readTip S b = if tipBytes S ≤ b.length then some (tipMem S t (b.take m), b.drop (tipBytes S)) else none := by
  unfold MBit.readTip readVal tipBytes at *
  by_cases h8 : 8 ≤ b.length
  · rw [if_pos h8]
    simp only [Option.bind_eq_bind, Option.bind_some, List.length_drop, Option.pure_def, List.drop_drop]
    by_cases h : MBit.tipSize S + MBit.padLen S ≤ b.length - 8
    · rw [if_pos h, if_pos (by omega)]
      rw [tipMem, List.take_take, Nat.min_eq_left (by omega), List.drop_eq_nil_of_le (as := writeVal 8 t.1) (by rw [writeVal_length, List.length_take]; omega),
        List.append_nil, List.drop_eq_nil_of_le (as := t.2) (by rw [ht, List.length_take]; omega), List.append_nil, List.drop_take, List.take_take,
        Nat.min_eq_left (by omega)]
    · rw [if_neg h, if_neg (by omega)]
  · rw [if_neg h8, if_neg (by omega)]
    rfl

theorem readTips_eq (S : Nat) : ∀ (old : List MBit.Tip), (∀ t ∈ old, t.2.length = MBit.tipSize S) → ∀ (b : Stream),
    MBit.readMany (MBit.readTip S) old.length b =
      if tipBytes S * old.length ≤ b.length then some (overlayTips S old (b.take (tipBytes S * old.length)), b.drop (tipBytes S * old.length)) else none := by
  intro old
  induction old with
  | nil => intro _ b; simp [MBit.readMany, overlayTips]
  | cons t old ih =>
    intro hr b
    rw [List.length_cons, MBit.readMany, readTip_eq S t (hr t List.mem_cons_self) b (tipBytes S * (old.length + 1)) (by rw [Nat.mul_succ]; omega), Nat.mul_succ]
    by_cases h : tipBytes S ≤ b.length
    · rw [if_pos h]
      simp only [Option.bind_eq_bind, Option.bind_some]
      rw [ih (fun x hx => hr x (List.mem_cons_of_mem _ hx)), List.length_drop]
      by_cases h2 : tipBytes S * old.length ≤ b.length - tipBytes S
      · rw [if_pos h2, if_pos (by omega)]
        simp only [Option.bind_some, Option.pure_def, overlayTips, List.drop_drop]
        rw [List.drop_take, Nat.add_sub_cancel, Nat.add_comm (tipBytes S) (tipBytes S * old.length)]
      · rw [if_neg h2, if_neg (by omega)]
        rfl
    · rw [if_neg h, if_neg (by omega)]
      rfl

theorem agree_tips (S : Nat) (old : List MBit.Tip) (hold : ∀ t ∈ old, t.2.length = MBit.tipSize S) : Agree (readTipsS S old) (MBit.readTips S) := by
  refine (Agree.bind (agree_val 8) (fun n => agree_raw (tipBytes S * n)
    (fun b => overlayTips S (vresize old n (0, List.replicate (MBit.tipSize S) 0)) b))).congr fun b => ?_
  unfold MBit.readTips
  cases readVal 8 b with
  | none => rfl
  | some p =>
    obtain ⟨n, b'⟩ := p
    simp only [Option.bind_eq_bind, Option.bind_some]
    have := readTips_eq S (vresize old n (0, List.replicate (MBit.tipSize S) 0)) (by
      intro r hr
      rw [vresize, List.mem_append] at hr
      rcases hr with hr | hr
      · exact hold r (List.mem_of_mem_take hr)
      · rw [(List.mem_replicate.1 hr).2, List.length_replicate]) b'
    rw [vresize_length] at this
    exact this.symm

theorem agree_tipss (S : Nat) : ∀ (old : List (List MBit.Tip)), (∀ ts ∈ old, ∀ t ∈ ts, t.2.length = MBit.tipSize S) →
    Agree (tipsReadS S old) (MBit.readMany (MBit.readTips S) old.length)
  | [], _ => Agree.pure []
  | o :: old, h => Agree.bind (agree_tips S o (h o List.mem_cons_self)) fun x =>
      Agree.bind (agree_tipss S old fun ts hts => h ts (List.mem_cons_of_mem _ hts)) fun l => Agree.pure (x :: l)

theorem agree_mbit (S : Nat) (old : MBit.MBV) (h2 : old.tips.length = 2 ^ S) (h : ∀ ts ∈ old.tips, ∀ t ∈ ts, t.2.length = MBit.tipSize S) :
    Agree (mbitReadS S old) (MBit.read S) :=
  (Agree.bind (agree_vec 8 _) fun ws => Agree.bind (agree_tipss S _ h) fun ts => Agree.pure (⟨ws.map (BitVec.ofNat 64), ts⟩ : MBit.MBV)).congr fun b => by
    rw [h2]; rfl

theorem leVal_append : ∀ a b : Stream, leVal (a ++ b) = leVal a + 256 ^ a.length * leVal b
  | [], b => by simp [leVal]
  | x :: a, b => by
    simp only [List.cons_append, leVal, leVal_append a b, List.length_cons, Nat.pow_succ]
    rw [Nat.mul_add, ← Nat.mul_assoc, Nat.mul_comm 256 (256 ^ a.length), Nat.add_assoc]

theorem leVal_writeVal_mod : ∀ k v, leVal (writeVal k v) = v % 256 ^ k := by
  intro k v
  have e : writeVal k v = writeVal k (v % 256 ^ k) := by
    unfold writeVal
    refine List.map_congr_left fun i hi => ?_
    rw [List.mem_range] at hi
    apply BitVec.eq_of_toNat_eq
    simp only [BitVec.toNat_ofNat]
    have e2 : 256 ^ k = 256 ^ i * 256 ^ (k - i) := by rw [← Nat.pow_add]; congr 1; omega
    obtain ⟨j, hj⟩ : ∃ j, k - i = j + 1 := ⟨k - i - 1, by omega⟩
    rw [e2, Nat.mod_mul_right_div_self, hj, Nat.pow_succ' (n := j)]
    exact (Nat.mod_mul_right_mod _ 256 _).symm
  rw [e, leVal_writeVal k _ (Nat.mod_lt _ (Nat.pow_pos (by decide)))]

/-- The elements that lie before the cut are those of the file, the cut one has its low bytes from the file and its high bytes from the old value,
the others are the old ones. -/
theorem overlay_cut (k : Nat) : ∀ (l old : List Nat) (m : Nat), old.length = l.length → (∀ o ∈ old, o < 256 ^ k) →
    overlay k old (((l.map (writeVal k)).flatten).take m) =
      (l.zip old).mapIdx fun i p => p.1 % 256 ^ (min k (m - k * i)) + 256 ^ (min k (m - k * i)) * (p.2 / 256 ^ (min k (m - k * i))) := by
  intro l
  induction l with
  | nil => intro old m h _; rw [List.length_eq_zero_iff.1 h]; rfl
  | cons v l ih =>
    intro old m h hold
    cases old with
    | nil => cases h
    | cons o old =>
      have hlen := writeVal_length k v
      have hfl : ((l.map (writeVal k)).flatten.length) = k * l.length := by
        rw [List.length_flatten, List.map_map, show (List.length ∘ writeVal k) = fun _ => k from funext (writeVal_length k), List.map_const',
          List.sum_replicate_nat, Nat.mul_comm]
      rw [List.map_cons, List.flatten_cons, overlay, List.zip_cons_cons, List.mapIdx_cons]
      congr 1
      · rw [List.take_take, leVal_append, List.take_append_of_le_length (by omega), List.length_take, hlen, Nat.mul_zero, Nat.sub_zero]
        rw [show (writeVal k v).take (min k m) = writeVal (min k m) v by
          rw [writeVal, writeVal, ← List.map_take, List.take_range, Nat.min_eq_left (by omega)], leVal_writeVal_mod]
        rw [show min (min k m) k = min k m by omega]
        have ho := hold o List.mem_cons_self
        have e2 : (writeVal k o).drop (((writeVal k v ++ (l.map (writeVal k)).flatten).take m).length) = writeVal (k - min k m) (o / 256 ^ min k m) := by
          rw [List.length_take, List.length_append, hlen, hfl]
          have hle : min k m ≤ k := by omega
          have e3 : (writeVal k o).drop (min m (k + k * l.length)) = (writeVal k o).drop (min k m) := by
            by_cases hm : m ≤ k
            · rw [Nat.min_eq_left (by omega), Nat.min_eq_right hm]
            · rw [List.drop_eq_nil_of_le (by rw [writeVal_length]; omega), List.drop_eq_nil_of_le (by rw [writeVal_length]; omega)]
          rw [e3]
          generalize min k m = t at *
          apply List.ext_getElem
          · simp [writeVal_length]
          · intro i h1 h2
            simp only [writeVal, List.getElem_drop, List.getElem_map, List.getElem_range]
            rw [Nat.div_div_eq_div_mul, ← Nat.pow_add]
        rw [e2, leVal_writeVal]
        have hle : min k m ≤ k := by omega
        generalize min k m = t at *
        rw [Nat.div_lt_iff_lt_mul (Nat.pow_pos (by decide)), ← Nat.pow_add, Nat.sub_add_cancel hle]
        exact ho
      · rw [List.drop_take, List.drop_append_of_le_length (by omega), List.drop_eq_nil_of_le (by omega), List.nil_append,
          ih old _ (by simpa using h) (fun x hx => hold x (List.mem_cons_of_mem _ hx))]
        congr 1
        funext i p
        rw [show m - k - k * i = m - k * (i + 1) by rw [Nat.mul_succ]; omega]

theorem readValS_short (k : Nat) (b : Stream) (h : b.length < k) : readValS k ⟨b, true⟩ = none := by
  simp only [readValS, IS.read, if_true]
  rw [if_neg (by rw [List.length_take]; omega)]

theorem readValS_write (n : Nat) (h : n < 2 ^ 64) (r : Stream) : readValS 8 ⟨writeVal 8 n ++ r, true⟩ = some (n, ⟨r, true⟩) :=
  (agree_val 8).full _ _ _ (readVal_writeVal 8 n (by simpa using h) r)

theorem R.bind_none {α β : Type} {m : R α} {f : α → R β} {s : IS} (h : m s = none) : (m >>= f) s = none := by
  change (m s >>= fun p => f p.1 p.2) = _
  rw [h]; rfl

theorem R.bind_some {α β : Type} {m : R α} {f : α → R β} {s s' : IS} {a : α} (h : m s = some (a, s')) : (m >>= f) s = f a s' := by
  change (m s >>= fun p => f p.1 p.2) = _
  rw [h]; rfl

end Verif.Serial
