/-
The queries of BitVector, FitVector, SuccinctBitVector, DacVector and WaveletTree once more, this time counting the accesses to array cells (words, entries
of the directory, entries of the vectors of layers, paths and nodes), and the proofs that they return what the functions of the models return.
-/
import Verif.IArr.Cost
import Verif.Wave.Model
import Verif.Dac.Model

namespace Verif.Reads
open Verif.Bits Verif.IArr

/-- A read at bit position `p`, BitsReference.hpp:38-44, 93-99: a second word only if the field reaches into it. -/
def rdBitsC (ws : List W64) (p w : Nat) (mask : W64) : M W64 := do
  let x ← acc ws[p / 64]?
  if w + p % 64 ≤ 64 then pure ((x >>> (p % 64)) &&& mask)
  else do
    let y ← acc ws[p / 64 + 1]?
    pure (((x >>> (p % 64)) ||| (y <<< (64 - p % 64))) &&& mask)

/-- `v[i]` of a FitVector, FitVector.hpp:87-89, 173-181. -/
def fitGetC (v : Fit.FVec) (i : Nat) : M Nat := do
  let x ← rdBitsC v.words (i * v.width) v.width v.mask
  pure x.toNat

/-- `v[i]` of a BitVector, BitVector.hpp:65-71, 172-174 and BitReference.hpp:34-36. -/
def bitGetC (v : BV.BVec) (i : Nat) : M Bool := do
  let w ← acc v.words[i / 64]?
  let m ← (offsetMask (i % 64) : Option W64)
  pure (w &&& m != 0#64)

/-- `rank_1` (and `rank`), SuccinctBitVector.hpp:132-137. -/
def rank1C (s : Succ.SBV) (i : Nat) : M Nat := do
  let b := i / 512 * 2
  let x ← acc s.blk[b]?
  let y ← acc s.blk[b + 1]?
  let w ← acc s.bits.words[i / 64]?
  let c ← (cnt w (i % 64) : Option W64)
  pure (x + Succ.field y (i / 64 % 8) + c.toNat)

/-- `rank_0`, SuccinctBitVector.hpp:46. -/
def rank0C (s : Succ.SBV) (i : Nat) : M Nat := do
  let r ← rank1C s i
  pure (i - r)

/-- The loop of `operator[]`, DacVector.hpp:300-310: `k` depths left. -/
def getLoopC (d : Dac.Dac) : (k depth shift i : Nat) → W64 → M W64
  | 0, _, _, _, value => pure value
  | k + 1, depth, shift, i, value => do
    let path ← acc d.paths[depth - 1]?
    let b ← bitGetC path.bits i
    if b = false then pure value
    else do
      let i ← rank1C path i
      let l ← acc d.layers[depth]?
      let unit ← fitGetC l i
      if shift < 64 then do
        let value := value ||| (BitVec.ofNat 64 unit <<< shift)
        let u ← acc d.units[depth]?
        getLoopC d k (depth + 1) (shift + u) i value
      else (none : Option W64)

/-- `operator[]`, DacVector.hpp:298-312. -/
def dacGetC (d : Dac.Dac) (i : Nat) : M Nat := do
  let l ← acc d.layers[0]?
  let v ← fitGetC l i
  let u ← acc d.units[0]?
  let n ← (d.num : Option Nat)
  let r ← getLoopC d (n - 1) 1 u i (BitVec.ofNat 64 v)
  pure r.toNat

/-- `!bit ? cbv.rank_0(idx) : cbv.rank_1(idx)`, WaveletTree.hpp:65, :79, :90, :104. -/
def rankBitC (s : Succ.SBV) (bit : Bool) (i : Nat) : M Nat := if bit = false then rank0C s i else rank1C s i

/-- The loop of `operator[]`, WaveletTree.hpp:60-66. -/
def accLoopC (t : Wave.WT) : (k depth id idx value : Nat) → M (Nat × Nat × Nat)
  | 0, _, id, idx, value => pure (value, id, idx)
  | k + 1, depth, id, idx, value => do
    let c ← acc t.nodes[id - 1]?
    let bit ← bitGetC c.bits idx
    let value := (value ||| (bit.toNat <<< (t.height - 1 - depth))) % 256
    let idx ← rankBitC c bit idx
    accLoopC t k (depth + 1) ((id <<< 1) ||| bit.toNat) idx value

/-- `operator[]`, WaveletTree.hpp:55-70. -/
def waveGetC (t : Wave.WT) (i : Nat) : M Nat := do
  let (value, id, idx) ← accLoopC t (t.height - 1) 0 1 i 0
  let c ← acc t.nodes[id - 1]?
  let bit ← bitGetC c.bits idx
  pure ((value ||| (bit.toNat <<< (t.height - 1 - (t.height - 1)))) % 256)

/-- The loop of `rank(index)`, WaveletTree.hpp:74-79. -/
def rankLoopC (t : Wave.WT) : (k id idx : Nat) → M Nat
  | 0, _, idx => pure idx
  | k + 1, id, idx => do
    let c ← acc t.nodes[id - 1]?
    let bit ← bitGetC c.bits idx
    let idx ← rankBitC c bit idx
    rankLoopC t k ((id <<< 1) ||| bit.toNat) idx

/-- `rank(index)`, WaveletTree.hpp:72-81. -/
def waveRankC (t : Wave.WT) (i : Nat) : M Nat := rankLoopC t t.height 1 i

/-- The loop of `rank(c, index)`, WaveletTree.hpp:83-93. -/
def rankCLoopC (t : Wave.WT) (c : Nat) : (k depth id idx : Nat) → M Nat
  | 0, _, _, idx => pure idx
  | k + 1, depth, id, idx => do
    let cbv ← acc t.nodes[id - 1]?
    let bit := Wave.bitOf t.height depth c
    let idx ← rankBitC cbv bit idx
    rankCLoopC t c k (depth + 1) ((id <<< 1) ||| bit.toNat) idx

/-- `rank(c, index)`, WaveletTree.hpp:83-93. -/
def waveRankCC (t : Wave.WT) (c i : Nat) : M Nat := rankCLoopC t c t.height 0 1 i

/-- The loop of `AccessAndRank`, WaveletTree.hpp:95-107. -/
def accRankLoopC (t : Wave.WT) : (k depth id idx value : Nat) → M (Nat × Nat)
  | 0, _, _, idx, value => pure (value % 256, idx)
  | k + 1, depth, id, idx, value => do
    let c ← acc t.nodes[id - 1]?
    let bit ← bitGetC c.bits idx
    let value := value ||| (bit.toNat <<< (t.height - 1 - depth))
    let idx ← rankBitC c bit idx
    accRankLoopC t k (depth + 1) ((id <<< 1) ||| bit.toNat) idx value

/-- `AccessAndRank`, WaveletTree.hpp:95-107. -/
def accessAndRankC (t : Wave.WT) (i : Nat) : M (Nat × Nat) := accRankLoopC t t.height 0 1 i 0

/-! ### Same results, and bounds on the counts -/

variable {β γ : Type}

theorem Costs.lift (r : Option β) : Costs (r : M β) r 0 := by
  intro c
  cases r with
  | none => exact ⟨rfl, fun _ h => by cases h⟩
  | some x => exact ⟨rfl, fun r h => by cases h; exact Nat.le_refl _⟩

theorem Costs.bind_some {m : M β} {p : Option β} {K : Nat} {f : β → M γ} {g : β → Option γ} {K' : Nat} (h : Costs m p K)
    (hf : ∀ a, p = some a → Costs (f a) (g a) K') : Costs (m >>= f) (p >>= g) (K + K') := by
  cases p with
  | none =>
    intro c
    have e : (m >>= f) c = (m c).bind fun r => f r.1 r.2 := rfl
    have h1 := (h c).1
    rw [Option.map_eq_none_iff] at h1
    rw [e, h1]
    exact ⟨rfl, by simp⟩
  | some a =>
    intro c
    obtain ⟨h1, h2⟩ := h c
    have e : (m >>= f) c = (m c).bind fun r => f r.1 r.2 := rfl
    obtain ⟨r, hr, rfl⟩ := Option.map_eq_some_iff.1 h1
    rw [e, hr]
    refine ⟨(hf r.1 rfl r.2).1, fun x hx => ?_⟩
    have := (hf r.1 rfl r.2).2 x hx
    have := h2 r hr
    omega

theorem rdBits_costs (ws : List W64) (p w : Nat) (mask : W64) : Costs (rdBitsC ws p w mask) (Fit.rdBits ws p w mask) 2 := by
  refine Costs.bind (K := 1) (K' := 1) (Costs.acc _) fun x => ?_
  split
  · exact (Costs.pure _).mono (by omega)
  · exact Costs.bind (K' := 0) (Costs.acc _) fun y => Costs.pure _

theorem fitGet_costs (v : Fit.FVec) (i : Nat) : Costs (fitGetC v i) (v.get i) 2 :=
  Costs.bind (K := 2) (K' := 0) (rdBits_costs _ _ _ _) fun _ => Costs.pure _

theorem bitGet_costs (v : BV.BVec) (i : Nat) : Costs (bitGetC v i) (v.get i) 1 :=
  Costs.bind (K := 1) (K' := 0) (Costs.acc _) fun _ => Costs.bind (K := 0) (K' := 0) (Costs.lift _) fun _ => Costs.pure _

theorem rank1_costs (s : Succ.SBV) (i : Nat) : Costs (rank1C s i) (s.rank1 i) 3 :=
  Costs.bind (K := 1) (K' := 2) (Costs.acc _) fun _ => Costs.bind (K := 1) (K' := 1) (Costs.acc _) fun _ =>
    Costs.bind (K := 1) (K' := 0) (Costs.acc _) fun _ => Costs.bind (K := 0) (K' := 0) (Costs.lift _) fun _ => Costs.pure _

theorem rank0_costs (s : Succ.SBV) (i : Nat) : Costs (rank0C s i) (s.rank0 i) 3 :=
  Costs.bind (K := 3) (K' := 0) (rank1_costs s i) fun _ => Costs.pure _

theorem rankBit_costs (s : Succ.SBV) (bit : Bool) (i : Nat) : Costs (rankBitC s bit i) (Wave.rankBit s bit i) 3 := by
  unfold rankBitC Wave.rankBit
  split
  · exact rank0_costs s i
  · exact rank1_costs s i

theorem depthLoop_le (d : Dac.Dac) : ∀ (k dep i r : Nat), Dac.depthLoop d k dep i = some r → dep ≤ r
  | 0, dep, i, r, h => by cases h; exact Nat.le_refl _
  | k + 1, dep, i, r, h => by
    unfold Dac.depthLoop at h
    simp only [Option.bind_eq_bind, Option.bind_eq_some_iff] at h
    obtain ⟨p, _, b, _, h⟩ := h
    split at h
    · cases h; exact Nat.le_refl _
    · simp only [Option.bind_eq_some_iff] at h
      obtain ⟨j, _, h⟩ := h
      have := depthLoop_le d k (dep + 1) j r h
      omega

theorem getLoop_costs (d : Dac.Dac) : ∀ (k dep shift i r : Nat) (v : W64), Dac.depthLoop d k dep i = some r →
    Costs (getLoopC d k (dep + 1) shift i v) (Dac.getLoop d k (dep + 1) shift i v) (9 * (r - dep) + 2)
  | 0, dep, shift, i, r, v, _ => (Costs.pure _).mono (by omega)
  | k + 1, dep, shift, i, r, v, h => by
    unfold Dac.depthLoop at h
    simp only [Option.bind_eq_bind, Option.bind_eq_some_iff] at h
    obtain ⟨p, hp, b, hb, h⟩ := h
    have hle := depthLoop_le d (k + 1) dep i r (by
      unfold Dac.depthLoop
      simp only [Option.bind_eq_bind, Option.bind_eq_some_iff]
      exact ⟨p, hp, b, hb, h⟩)
    refine (Costs.bind_some (K := 1) (K' := 9 * (r - dep) + 1) (Costs.acc _) fun path e1 => ?_).mono (by omega)
    simp only [Nat.add_sub_cancel] at e1
    rw [hp] at e1
    cases e1
    refine (Costs.bind_some (K := 1) (K' := 9 * (r - dep)) (bitGet_costs p.bits i) fun b' e2 => ?_).mono (by omega)
    have e2' : p.get i = some b' := e2
    rw [hb] at e2'
    cases e2'
    split at h
    · rename_i hf
      rw [if_pos hf, if_pos hf]
      exact (Costs.pure _).mono (by omega)
    · rename_i hf
      rw [if_neg hf, if_neg hf]
      simp only [Option.bind_eq_some_iff] at h
      obtain ⟨j, hj, h⟩ := h
      have h1 := depthLoop_le d k (dep + 1) j r h
      refine (Costs.bind_some (K := 3) (K' := 9 * (r - (dep + 1)) + 6) (rank1_costs p i) fun j' e3 => ?_).mono (by omega)
      rw [hj] at e3
      cases e3
      refine (Costs.bind (K := 1) (K' := 9 * (r - (dep + 1)) + 5) (Costs.acc _) fun l => ?_).mono (by omega)
      refine (Costs.bind (K := 2) (K' := 9 * (r - (dep + 1)) + 3) (fitGet_costs l j) fun unit => ?_).mono (by omega)
      split
      · refine (Costs.bind (K := 1) (K' := 9 * (r - (dep + 1)) + 2) (Costs.acc _) fun u => ?_).mono (by omega)
        exact getLoop_costs d k (dep + 1) _ j r _ h
      · exact (Costs.lift (none : Option W64)).mono (by omega)

theorem dacGet_costs (d : Dac.Dac) (i r : Nat) (h : d.depth i = some r) : Costs (dacGetC d i) (d.get i) (9 * r + 6) := by
  unfold Dac.Dac.depth at h
  simp only [Option.bind_eq_bind, Option.bind_eq_some_iff] at h
  obtain ⟨n, hn, h⟩ := h
  split at h
  · cases h
  · refine (Costs.bind (K := 1) (K' := 9 * r + 5) (Costs.acc _) fun l => ?_).mono (by omega)
    refine (Costs.bind (K := 2) (K' := 9 * r + 3) (fitGet_costs l i) fun v => ?_).mono (by omega)
    refine (Costs.bind (K := 1) (K' := 9 * r + 2) (Costs.acc _) fun u => ?_).mono (by omega)
    refine (Costs.bind_some (K := 0) (K' := 9 * r + 2) (Costs.lift _) fun n' e => ?_).mono (by omega)
    rw [hn] at e
    cases e
    exact Costs.bind (K' := 0) ((getLoop_costs d (n - 1) 0 u i r _ h).mono (by omega)) fun _ => Costs.pure _

theorem accLoop_costs (t : Wave.WT) : ∀ (k depth id idx value : Nat),
    Costs (accLoopC t k depth id idx value) (Wave.accLoop t k depth id idx value) (5 * k)
  | 0, _, _, _, _ => Costs.pure _
  | k + 1, depth, id, idx, value => by
    refine (Costs.bind (K := 1) (K' := 4 + 5 * k) (Costs.acc _) fun c => ?_).mono (by omega)
    refine (Costs.bind (K := 1) (K' := 3 + 5 * k) (bitGet_costs c.bits idx) fun bit => ?_).mono (by omega)
    exact Costs.bind (K := 3) (K' := 5 * k) (rankBit_costs c bit idx) fun _ => accLoop_costs t k _ _ _ _

theorem waveGet_costs (t : Wave.WT) (i : Nat) : Costs (waveGetC t i) (t.get i) (5 * (t.height - 1) + 2) :=
  Costs.bind (K' := 2) (accLoop_costs t _ _ _ _ _) fun _ => Costs.bind (K := 1) (K' := 1) (Costs.acc _) fun c =>
    Costs.bind (K := 1) (K' := 0) (bitGet_costs c.bits _) fun _ => Costs.pure _

theorem rankLoop_costs (t : Wave.WT) : ∀ (k id idx : Nat), Costs (rankLoopC t k id idx) (Wave.rankLoop t k id idx) (5 * k)
  | 0, _, _ => Costs.pure _
  | k + 1, id, idx => by
    refine (Costs.bind (K := 1) (K' := 4 + 5 * k) (Costs.acc _) fun c => ?_).mono (by omega)
    refine (Costs.bind (K := 1) (K' := 3 + 5 * k) (bitGet_costs c.bits idx) fun bit => ?_).mono (by omega)
    exact Costs.bind (K := 3) (K' := 5 * k) (rankBit_costs c bit idx) fun _ => rankLoop_costs t k _ _

theorem rankCLoop_costs (t : Wave.WT) (ch : Nat) : ∀ (k depth id idx : Nat),
    Costs (rankCLoopC t ch k depth id idx) (Wave.rankCLoop t ch k depth id idx) (4 * k)
  | 0, _, _, _ => Costs.pure _
  | k + 1, depth, id, idx => by
    refine (Costs.bind (K := 1) (K' := 3 + 4 * k) (Costs.acc _) fun c => ?_).mono (by omega)
    exact Costs.bind (K := 3) (K' := 4 * k) (rankBit_costs c _ idx) fun _ => rankCLoop_costs t ch k _ _ _

theorem accRankLoop_costs (t : Wave.WT) : ∀ (k depth id idx value : Nat),
    Costs (accRankLoopC t k depth id idx value) (Wave.accRankLoop t k depth id idx value) (5 * k)
  | 0, _, _, _, _ => Costs.pure _
  | k + 1, depth, id, idx, value => by
    refine (Costs.bind (K := 1) (K' := 4 + 5 * k) (Costs.acc _) fun c => ?_).mono (by omega)
    refine (Costs.bind (K := 1) (K' := 3 + 5 * k) (bitGet_costs c.bits idx) fun bit => ?_).mono (by omega)
    exact Costs.bind (K := 3) (K' := 5 * k) (rankBit_costs c bit idx) fun _ => accRankLoop_costs t k _ _ _ _

end Verif.Reads
