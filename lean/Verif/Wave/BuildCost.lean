/-
The constructors of SuccinctBitVector and WaveletTree once more, this time counting the accesses to array
cells, and the proofs that they return what the functions of the models return.

Counted: every word read, every entry of the directory written or read (also the zeros with which the
vectors are created), every entry of the vector of tips, every entry of the vector of nodes, and every
`push_back` of a bit as one. Not counted: what `std::vector` moves when it grows.
-/
import Verif.Wave.Reads

namespace Verif.Reads
open Verif.Bits Verif.IArr

/-- `k` accesses at once: the zeros of a vector that is created with `k` elements (SuccinctBitVector.hpp:87,
WaveletTree.hpp:39). -/
def ticks (k : Nat) : M Unit := fun c => some ((), c + k)

/-- The loop over full words, SuccinctBitVector.hpp:95-105. -/
def buildLoopC (ws : List W64) : (n i sum sw : Nat) → List Nat → M (Nat × Nat × Nat × List Nat)
  | 0, i, sum, sw, blk => pure (i, sum, sw, blk)
  | n + 1, i, sum, sw, blk => do
    let (sum, sw, blk) ←
      if i % 8 = 0 then do
        let j := i / 8 * 2
        let blk ← acc (wr blk (j - 1) sw)
        let p ← acc blk[j - 2]?
        let blk ← acc (wr blk j (p + sum))
        pure (0, 0, blk)
      else pure (sum, sw ||| (sum <<< (63 - 9 * (i % 8))), blk)
    let w ← acc ws[i]?
    buildLoopC ws n (i + 1) (sum + (popcnt64 w).toNat) sw blk

/-- The rest after the loop, SuccinctBitVector.hpp:106-115. -/
def buildEndC (i sum sw : Nat) (blk : List Nat) : M (List Nat) :=
  let j := i / 8 * 2
  if i % 8 ≠ 0 then acc (wr blk (j + 1) (sw ||| (sum <<< (63 - 9 * (i % 8)))))
  else do
    let blk ← acc (wr blk (j - 1) sw)
    let p ← acc blk[j - 2]?
    let blk ← acc (wr blk j (p + sum))
    acc (wr blk (j + 1) 0)

/-- The loop collecting select tips, SuccinctBitVector.hpp:120-125. -/
def tipsLoopC (blk : List Nat) : (n j thr : Nat) → M (List Nat)
  | 0, _, _ => pure []
  | n + 1, j, thr => do
    let b ← acc blk[j * 2]?
    if thr ≤ b then do
      let _ ← ticks 1
      let r ← tipsLoopC blk n (j + 1) (thr + 512)
      pure ((j - 1) % 2 ^ 32 :: r)
    else tipsLoopC blk n (j + 1) thr

/-- The constructor of SuccinctBitVector, SuccinctBitVector.hpp:80-128. -/
def sbvBuildC (useSelect : Bool) (v : BV.BVec) : M Succ.SBV :=
  if v.size = 0 then do
    let _ ← ticks 2
    pure ⟨v, [0, 0], []⟩
  else do
    let nb := v.size / 512 + 1
    let blk := List.replicate (nb * 2) 0
    let _ ← ticks (nb * 2)
    let w0 ← acc v.words[0]?
    let (i, sum, sw, blk) ← buildLoopC v.words (v.size / 64 - 1) 1 (popcnt64 w0).toNat 0 blk
    let blk ← buildEndC i sum sw blk
    if useSelect then do
      let r ← tipsLoopC blk (nb - 1) 1 512
      let _ ← ticks 2
      pure ⟨v, blk, 0 :: r ++ [(nb - 1) % 2 ^ 32]⟩
    else pure ⟨v, blk, []⟩

/-- The loop over depths for one value, WaveletTree.hpp:43-47. -/
def insLoopC (h v : Nat) : (k depth id : Nat) → List BV.BVec → M (List BV.BVec)
  | 0, _, _, bs => pure bs
  | k + 1, depth, id, bs => do
    let bit := Wave.bitOf h depth v
    let b ← acc bs[id - 1]?
    let b ← acc (b.pushBack bit)
    let bs ← (wr bs (id - 1) b : Option (List BV.BVec))
    insLoopC h v k (depth + 1) ((id <<< 1) ||| bit.toNat) bs

/-- The loop over the values, WaveletTree.hpp:40-48. -/
def insAllC (h : Nat) : List Nat → List BV.BVec → M (List BV.BVec)
  | [], bs => pure bs
  | v :: vs, bs => do
    let bs ← insLoopC h v h 0 1 bs
    insAllC h vs bs

/-- The rank directories, WaveletTree.hpp:50-52. -/
def buildNodesC : List BV.BVec → M (List Succ.SBV)
  | [] => pure []
  | b :: bs => do
    let s ← sbvBuildC false b
    let ss ← buildNodesC bs
    let _ ← ticks 1
    pure (s :: ss)

/-- The constructor of WaveletTree, WaveletTree.hpp:30-53; the search for the maximum looks at every value. -/
def waveMakeC (vec : List Nat) : M Wave.WT :=
  if vec = [] then (none : Option Wave.WT)
  else do
    let maxChar := vec.foldl max 0
    let _ ← ticks vec.length
    let h ← (Calc.sizeFitsInBits maxChar : Option Nat)
    if h < 31 then do
      let _ ← ticks ((1 <<< h) - 1)
      let bs ← insAllC h vec (List.replicate ((1 <<< h) - 1) BV.empty)
      let ns ← buildNodesC bs
      pure ⟨h, maxChar + 1, 0, ns⟩
    else (none : Option Wave.WT)

/-! ### Same results, and bounds on the counts -/

variable {β γ : Type}

theorem Costs.ticks (k : Nat) : Costs (ticks k) (some ()) k := fun c => ⟨rfl, fun r h => by cases h; exact Nat.le_refl _⟩

/-- What the loop over words costs: one access per word, and three more at each multiple of 8. -/
def loopK (n i : Nat) : Nat := n + 3 * ((i + n + 7) / 8 - (i + 7) / 8)

theorem buildLoop_costs (ws : List W64) : ∀ (n i sum sw : Nat) (blk : List Nat),
    Costs (buildLoopC ws n i sum sw blk) (Succ.buildLoop ws n i sum sw blk) (loopK n i) := by
  intro n
  induction n with
  | zero => intro i sum sw blk; exact (Costs.pure _).mono (by simp [loopK])
  | succ n ih =>
    intro i sum sw blk
    have hK : loopK (n + 1) i = (if i % 8 = 0 then 3 else 0) + (1 + loopK n (i + 1)) := by
      simp only [loopK]
      split <;> omega
    rw [hK]
    unfold buildLoopC Succ.buildLoop
    by_cases h : i % 8 = 0
    · simp only [if_pos h]
      exact (Costs.bind (Costs.acc _) fun b => Costs.bind (Costs.acc _) fun p => Costs.bind (Costs.acc _) fun b' =>
        Costs.bind (Costs.pure _) fun x => Costs.bind (Costs.acc _) fun w => ih _ _ _ _).mono (by omega)
    · simp only [if_neg h]
      exact (Costs.bind (Costs.pure _) fun x => Costs.bind (Costs.acc _) fun w => ih _ _ _ _).mono (by omega)

theorem buildEnd_costs (i sum sw : Nat) (blk : List Nat) : Costs (buildEndC i sum sw blk) (Succ.buildEnd i sum sw blk) 4 := by
  unfold buildEndC Succ.buildEnd
  by_cases h : i % 8 ≠ 0
  · simp only [if_pos h]
    exact (Costs.acc _).mono (by omega)
  · simp only [if_neg h]
    exact (Costs.bind (Costs.acc _) fun b => Costs.bind (Costs.acc _) fun p => Costs.bind (Costs.acc _) fun b' => Costs.acc _).mono (by omega)

theorem tipsLoop_costs (blk : List Nat) : ∀ (n j thr : Nat), Costs (tipsLoopC blk n j thr) (Succ.tipsLoop blk n j thr) (2 * n) := by
  intro n
  induction n with
  | zero => intro j thr; exact Costs.pure _
  | succ n ih =>
    intro j thr
    unfold tipsLoopC Succ.tipsLoop
    refine (Costs.bind (K := 1) (K' := 1 + 2 * n) (Costs.acc _) fun b => ?_).mono (by omega)
    by_cases h : thr ≤ b
    · simp only [if_pos h]
      have := Costs.bind (g := fun _ => do
        let r ← Succ.tipsLoop blk n (j + 1) (thr + 512)
        Pure.pure ((j - 1) % 2 ^ 32 :: r)) (Costs.ticks 1) fun _ => Costs.bind (ih (j + 1) (thr + 512)) fun r => Costs.pure ((j - 1) % 2 ^ 32 :: r)
      exact this
    · simp only [if_neg h]
      exact (ih _ _).mono (by omega)

/-- The count for a bit vector of `n` bits. -/
def sbvK (n : Nat) : Nat := n / 32 + 14

theorem sbvBuild_costs (us : Bool) (v : BV.BVec) : Costs (sbvBuildC us v) (Succ.build us v) (sbvK v.size) := by
  unfold sbvBuildC Succ.build
  by_cases h0 : v.size = 0
  · simp only [if_pos h0]
    have := Costs.bind (g := fun _ => some (⟨v, [0, 0], []⟩ : Succ.SBV)) (Costs.ticks 2) fun _ => Costs.pure (⟨v, [0, 0], []⟩ : Succ.SBV)
    exact this.mono (by simp [sbvK])
  · simp only [if_neg h0]
    have hend : ∀ blk : List Nat, Costs (if us then do
        let r ← tipsLoopC blk (v.size / 512 + 1 - 1) 1 512
        let _ ← ticks 2
        pure (⟨v, blk, 0 :: r ++ [(v.size / 512 + 1 - 1) % 2 ^ 32]⟩ : Succ.SBV)
      else pure ⟨v, blk, []⟩) (if us then do
        let r ← Succ.tipsLoop blk (v.size / 512 + 1 - 1) 1 512
        pure ⟨v, blk, 0 :: r ++ [(v.size / 512 + 1 - 1) % 2 ^ 32]⟩
      else pure ⟨v, blk, []⟩) (2 * (v.size / 512) + 2) := by
      intro blk
      cases us with
      | false => exact (Costs.pure _).mono (by omega)
      | true =>
        simp only [if_true]
        refine (Costs.bind (tipsLoop_costs blk _ _ _) fun r => ?_)
        exact Costs.bind (g := fun _ => some (⟨v, blk, 0 :: r ++ [(v.size / 512 + 1 - 1) % 2 ^ 32]⟩ : Succ.SBV)) (Costs.ticks 2) fun _ => Costs.pure _
    have hmain := Costs.bind (Costs.acc v.words[0]?) fun w0 =>
      Costs.bind (buildLoop_costs v.words (v.size / 64 - 1) 1 (popcnt64 w0).toNat 0 (List.replicate ((v.size / 512 + 1) * 2) 0)) fun x =>
        Costs.bind (buildEnd_costs x.1 x.2.1 x.2.2.1 x.2.2.2) fun blk => hend blk
    have hall := Costs.bind (g := fun _ => _) (Costs.ticks ((v.size / 512 + 1) * 2)) fun _ => hmain
    refine Costs.mono hall ?_
    simp only [sbvK, loopK]
    omega

theorem insLoop_costs (h v : Nat) : ∀ (k depth id : Nat) (bs : List BV.BVec), Costs (insLoopC h v k depth id bs) (Wave.insLoop h v k depth id bs) (2 * k) := by
  intro k
  induction k with
  | zero => intro depth id bs; exact Costs.pure _
  | succ k ih =>
    intro depth id bs
    unfold insLoopC Wave.insLoop
    exact (Costs.bind (Costs.acc _) fun b => Costs.bind (Costs.acc _) fun b' => Costs.bind (Costs.lift _) fun bs' => ih _ _ _).mono (by omega)

theorem insAll_costs (h : Nat) : ∀ (vs : List Nat) (bs : List BV.BVec), Costs (insAllC h vs bs) (Wave.insAll h vs bs) (2 * h * vs.length) := by
  intro vs
  induction vs with
  | nil => intro bs; exact Costs.pure _
  | cons v vs ih =>
    intro bs
    unfold insAllC Wave.insAll
    refine (Costs.bind (insLoop_costs h v h 0 1 bs) fun bs' => ih bs').mono ?_
    rw [List.length_cons, Nat.mul_succ]; omega

theorem buildNodes_costs : ∀ bs : List BV.BVec, Costs (buildNodesC bs) (Wave.buildNodes bs) ((bs.map BV.BVec.size).sum / 32 + 15 * bs.length) := by
  intro bs
  induction bs with
  | nil => exact Costs.pure _
  | cons b bs ih =>
    unfold buildNodesC Wave.buildNodes
    have := Costs.bind (sbvBuild_costs false b) fun s => Costs.bind ih fun ss =>
      Costs.bind (g := fun _ => some (s :: ss)) (Costs.ticks 1) fun _ => Costs.pure (s :: ss)
    refine Costs.mono this ?_
    simp only [sbvK, List.map_cons, List.sum_cons, List.length_cons]
    omega

/-- Writing one value adds one bit per level. -/
theorem insLoop_size (h v : Nat) : ∀ (k depth id : Nat) (bs bs' : List BV.BVec), Wave.insLoop h v k depth id bs = some bs' →
    (bs'.map BV.BVec.size).sum = (bs.map BV.BVec.size).sum + k ∧ bs'.length = bs.length := by
  intro k
  induction k with
  | zero => intro depth id bs bs' e; cases e; exact ⟨rfl, rfl⟩
  | succ k ih =>
    intro depth id bs bs' e
    unfold Wave.insLoop at e
    cases e1 : bs[id - 1]? with
    | none => simp [e1] at e
    | some b =>
      cases e2 : b.pushBack (Wave.bitOf h depth v) with
      | none => simp [e1, e2] at e
      | some b' =>
        cases e3 : wr bs (id - 1) b' with
        | none => simp [e1, e2, e3] at e
        | some bs1 =>
          simp only [e1, e2, e3, Option.bind_eq_bind, Option.bind_some] at e
          obtain ⟨g1, g2⟩ := ih _ _ _ _ e
          obtain ⟨hi, hb⟩ := List.getElem?_eq_some_iff.mp e1
          have hbs : bs1 = bs.set (id - 1) b' := by
            unfold wr at e3
            rw [if_pos hi] at e3
            exact (Option.some.inj e3).symm
          have hsz : b'.size = b.size + 1 := by
            unfold BV.BVec.pushBack BV.BVec.resize at e2
            rw [if_neg (by omega), if_pos (by omega)] at e2
            cases e4 : BV.fill (vresize b.words (BV.wordSize (b.size + 1)) 0#64) (BV.mkIter b.size) (BV.mkIter (b.size + 1)) (Wave.bitOf h depth v) with
            | none => simp [e4] at e2
            | some ws =>
              simp only [e4, Option.bind_eq_bind, Option.bind_some, Option.pure_def, Option.some.injEq] at e2
              rw [← e2]
          have hset : ∀ (l : List BV.BVec) (j : Nat) (hj : j < l.length), ((l.set j b').map BV.BVec.size).sum + (l[j]).size = (l.map BV.BVec.size).sum + b'.size := by
            intro l
            induction l with
            | nil => intro j hj; cases hj
            | cons a l ihl =>
              intro j hj
              cases j with
              | zero => simp; omega
              | succ j =>
                have := ihl j (by simpa using hj)
                simp only [List.set_cons_succ, List.map_cons, List.sum_cons, List.getElem_cons_succ]
                omega
          have hs := hset bs (id - 1) hi
          rw [hb, hsz] at hs
          rw [g1, g2, hbs, List.length_set]
          exact ⟨by omega, rfl⟩

theorem insAll_size (h : Nat) : ∀ (vs : List Nat) (bs bs' : List BV.BVec), Wave.insAll h vs bs = some bs' →
    (bs'.map BV.BVec.size).sum = (bs.map BV.BVec.size).sum + h * vs.length ∧ bs'.length = bs.length := by
  intro vs
  induction vs with
  | nil => intro bs bs' e; cases e; exact ⟨rfl, rfl⟩
  | cons v vs ih =>
    intro bs bs' e
    unfold Wave.insAll at e
    cases e1 : Wave.insLoop h v h 0 1 bs with
    | none => simp [e1] at e
    | some bs1 =>
      simp only [e1, Option.bind_eq_bind, Option.bind_some] at e
      obtain ⟨g1, g2⟩ := ih bs1 bs' e
      obtain ⟨g3, g4⟩ := insLoop_size h v h 0 1 bs bs1 e1
      rw [g1, g3, g2, g4, List.length_cons, Nat.mul_succ]
      exact ⟨by omega, rfl⟩

/-- The constructor of the wavelet tree of height `h`. -/
theorem waveMake_costs (vec : List Nat) (h : Nat) (eh : Calc.sizeFitsInBits (vec.foldl max 0) = some h) :
    Costs (waveMakeC vec) (Wave.make vec) (vec.length + 2 * h * vec.length + h * vec.length / 32 + 16 * (2 ^ h - 1)) := by
  unfold waveMakeC Wave.make
  by_cases h0 : vec = []
  · rw [if_pos h0, if_pos h0]
    exact (Costs.lift none).mono (by omega)
  · rw [if_neg h0, if_neg h0]
    have inner : Costs (do
          let _ ← ticks ((1 <<< h) - 1)
          let bs ← insAllC h vec (List.replicate ((1 <<< h) - 1) BV.empty)
          let ns ← buildNodesC bs
          pure (⟨h, vec.foldl max 0 + 1, 0, ns⟩ : Wave.WT)) (do
          let bs ← Wave.insAll h vec (List.replicate ((1 <<< h) - 1) BV.empty)
          let ns ← Wave.buildNodes bs
          pure ⟨h, vec.foldl max 0 + 1, 0, ns⟩) (2 ^ h - 1 + (2 * h * vec.length + (h * vec.length / 32 + 15 * (2 ^ h - 1)))) := by
      have e1 : (1 <<< h) - 1 = 2 ^ h - 1 := by rw [Nat.one_shiftLeft]
      have := Costs.ticks ((1 <<< h) - 1)
      refine Costs.bind (g := fun _ => _) (Costs.mono this (Nat.le_of_eq e1)) fun _ => ?_
      refine Costs.bind_some (insAll_costs h vec (List.replicate ((1 <<< h) - 1) BV.empty)) fun bs e => ?_
      obtain ⟨g1, g2⟩ := insAll_size h vec _ bs e
      have hz : ((List.replicate ((1 <<< h) - 1) BV.empty).map BV.BVec.size).sum = 0 := by
        rw [List.map_replicate, List.sum_replicate_nat]; show _ * 0 = 0; omega
      rw [hz, Nat.zero_add] at g1
      rw [List.length_replicate, Nat.one_shiftLeft] at g2
      have := Costs.bind (buildNodes_costs bs) fun ns => Costs.pure (⟨h, vec.foldl max 0 + 1, 0, ns⟩ : Wave.WT)
      rw [g1, g2] at this
      exact this
    refine (Costs.bind (g := fun _ => _) (K' := 0 + (2 ^ h - 1 + (2 * h * vec.length + (h * vec.length / 32 + 15 * (2 ^ h - 1))))) (Costs.ticks vec.length) fun _ =>
      Costs.bind_some (Costs.lift _) fun a ea => ?_).mono (by omega)
    rw [eh] at ea
    cases ea
    by_cases h31 : h < 31
    · rw [if_pos h31, if_pos h31]
      exact inner
    · rw [if_neg h31, if_neg h31]
      exact (Costs.lift none).mono (by omega)

end Verif.Reads
