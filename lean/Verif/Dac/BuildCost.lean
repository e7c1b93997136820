/-
The constructor of DacVector for given widths once more, this time counting the accesses to array cells, and
the proof that it returns what the function of the model returns.

Counted: every value read (twice: for the frequencies and for the layers), every entry of the vectors of frequencies, of
widths, of layers and of paths, every `push_back` of a bit as one, every `push_back` of a FitVector as the two words it may
touch, and the accesses of the constructors of the rank directories. Not counted: what `std::vector` moves when it grows.
-/
import Verif.Wave.BuildCost
import Verif.Dac.Model

namespace Verif.Dac
open Verif.Bits Verif.IArr Verif.Reads

/-- One iteration of `bit_length_frequencies`, calc.hpp:48-55. -/
def blfStepC (st : List Nat × Nat) (v : Nat) : M (List Nat × Nat) := do
  let _ ← ticks 1
  let size ← (Calc.sizeFitsInBits v : Option Nat)
  let st := if size > st.2 then (vresize st.1 size 0, size) else st
  let x ← acc st.1[size - 1]?
  let map ← acc (wr st.1 (size - 1) (x + 1))
  pure (map, st.2)

/-- The loop of `bit_length_frequencies`, calc.hpp:48-55. -/
def blfLoopC : List Nat → List Nat × Nat → M (List Nat × Nat)
  | [], st => pure st
  | v :: vs, st => do
    let st ← blfStepC st v
    blfLoopC vs st

/-- `cummulative_frequency_list`, calc.hpp:62-83 with calc.hpp:44-60. For each entry of the map 9 accesses: the zero written by
`resize`, read and written by the first copy, the zero of `assign`, `map[i - 1]`, `cf[i - 1]`, read and written by the second copy, and the
zero of the vector that is replaced. -/
def cumC (l : List Nat) : M (List Nat) := do
  let st ← blfLoopC l ([], 0)
  let _ ← ticks (9 * st.1.length)
  pure (Calc.cumLoop st.1).2

/-- The memory reservation, DacVector.hpp:269-275: `cf[t]`, the width, the layer and the path. -/
def reserveLoopC (cf : List Nat) : List Nat → Nat → M Unit
  | [], _ => pure ()
  | u :: us, t => do
    let _ ← acc cf[t]?
    let _ ← ticks 3
    reserveLoopC cf us (t + u)

/-- The loop over depths, DacVector.hpp:282-290. -/
def deepLoopC (units : List Nat) : (k depth : Nat) → W64 → List Fit.FVec → List BV.BVec → M (List Fit.FVec × List BV.BVec)
  | 0, _, _, ls, ps => pure (ls, ps)
  | k + 1, depth, x, ls, ps => do
    let p ← acc ps[depth - 1]?
    let p ← acc (p.pushBack (decide (x ≠ 0#64)))
    let ps ← (wr ps (depth - 1) p : Option (List BV.BVec))
    if x = 0#64 then pure (ls, ps)
    else do
      let u ← acc units[depth]?
      let m ← (widthMask u : Option W64)
      let l ← acc ls[depth]?
      let l ← (l.pushBack (x &&& m).toNat : Option Fit.FVec)
      let _ ← ticks 2
      let ls ← (wr ls depth l : Option (List Fit.FVec))
      deepLoopC units k (depth + 1) (x >>> u) ls ps

/-- One iteration over the values, DacVector.hpp:278-291. -/
def addValueC (units : List Nat) (v : Nat) (ls : List Fit.FVec) (ps : List BV.BVec) : M (List Fit.FVec × List BV.BVec) := do
  let _ ← ticks 1
  let u ← acc units[0]?
  let m ← (widthMask u : Option W64)
  let l ← acc ls[0]?
  let l ← (l.pushBack (BitVec.ofNat 64 v &&& m).toNat : Option Fit.FVec)
  let _ ← ticks 2
  let ls ← (wr ls 0 l : Option (List Fit.FVec))
  deepLoopC units (units.length - 1) 1 (BitVec.ofNat 64 v >>> u) ls ps

/-- The loop over the values, DacVector.hpp:278-291. -/
def addAllC (units : List Nat) : List Nat → List Fit.FVec → List BV.BVec → M (List Fit.FVec × List BV.BVec)
  | [], ls, ps => pure (ls, ps)
  | v :: vs, ls, ps => do
    let r ← addValueC units v ls ps
    addAllC units vs r.1 r.2

/-- The paths with rank directory, DacVector.hpp:293-295. -/
def buildPathsC : List BV.BVec → M (List Succ.SBV)
  | [] => pure []
  | p :: ps => do
    let s ← sbvBuildC false p
    let ss ← buildPathsC ps
    let _ ← ticks 1
    pure (s :: ss)

/-- The constructor with given widths, DacVector.hpp:248-296; creating the layers and the paths touches each of them once, and so
does the copy of the widths. -/
def ofUnitsC (list units : List Nat) : M Dac :=
  if list = [] then pure ⟨none, [], [], []⟩
  else do
    let layers ← (newLayers units : Option (List Fit.FVec))
    let _ ← ticks (3 * units.length)
    let cf ← cumC list
    let _ ← reserveLoopC cf units 0
    let r ← addAllC units list layers (List.replicate (units.length - 1) BV.empty)
    let paths ← buildPathsC r.2
    pure ⟨some units.length, units, r.1, paths⟩

/-! ### Same results, and bounds on the counts -/

/-- A tick before something. -/
theorem Costs.tick_then {β : Type} {k K : Nat} {f : M β} {o : Option β} (h : Costs f o K) :
    Costs (do let _ ← ticks k; f) o (k + K) :=
  Costs.bind (g := fun _ => o) (Costs.ticks k) fun _ => h

theorem blfStep_costs (st : List Nat × Nat) (v : Nat) : Costs (blfStepC st v) (Calc.blfStep st v) 3 := by
  have hm : ∀ (s : List Nat × Nat) (size : Nat), Costs (do
      let x ← acc s.1[size - 1]?
      let map ← acc (wr s.1 (size - 1) (x + 1))
      pure (map, s.2)) (do
      let x ← s.1[size - 1]?
      let map ← wr s.1 (size - 1) (x + 1)
      pure (map, s.2)) 2 := fun s size =>
    (Costs.bind (Costs.acc _) fun x => Costs.bind (Costs.acc _) fun map => Costs.pure _).mono (by omega)
  have e : Calc.blfStep st v = (Calc.sizeFitsInBits v).bind (fun size => do
      let s : List Nat × Nat := if size > st.2 then (vresize st.1 size 0, size) else st
      let x ← s.1[size - 1]?
      let map ← wr s.1 (size - 1) (x + 1)
      pure (map, s.2)) := by
    unfold Calc.blfStep
    congr 1
  rw [e]
  unfold blfStepC
  exact (Costs.tick_then (Costs.bind (Costs.lift _) fun size => hm _ size)).mono (by omega)

theorem blfLoop_costs : ∀ (l : List Nat) (st : List Nat × Nat), Costs (blfLoopC l st) (Calc.blfLoop l st) (3 * l.length) := by
  intro l
  induction l with
  | nil => intro st; exact Costs.pure _
  | cons v vs ih =>
    intro st
    unfold blfLoopC Calc.blfLoop
    exact (Costs.bind (blfStep_costs st v) fun st' => ih st').mono (by rw [List.length_cons]; omega)

theorem cum_costs (l : List Nat) (n : Nat) (hn : ∀ cf, Calc.cumulativeFrequencyList l = some cf → cf.length ≤ n) :
    Costs (cumC l) (Calc.cumulativeFrequencyList l) (3 * l.length + 9 * n) := by
  have hlen : ∀ m : List Nat, (Calc.cumLoop m).2.length = m.length := by
    intro m
    induction m with
    | nil => rfl
    | cons x xs ih => simp only [Calc.cumLoop, List.length_cons, ih]
  have e : Calc.cumulativeFrequencyList l = (Calc.blfLoop l ([], 0)).bind (fun st => some (Calc.cumLoop st.1).2) := by
    unfold Calc.cumulativeFrequencyList Calc.bitLengthFrequencies
    cases Calc.blfLoop l ([], 0) <;> rfl
  rw [e] at hn ⊢
  unfold cumC
  refine Costs.bind_some (blfLoop_costs l _) fun st es => ?_
  have h1 := hn _ (by rw [es]; rfl)
  rw [hlen] at h1
  exact (Costs.tick_then (Costs.pure (Calc.cumLoop st.1).2)).mono (by omega)

theorem reserveLoop_costs (cf : List Nat) : ∀ (us : List Nat) (t : Nat), Costs (reserveLoopC cf us t) (reserveLoop cf us t) (4 * us.length) := by
  intro us
  induction us with
  | nil => intro t; exact Costs.pure _
  | cons u us ih =>
    intro t
    unfold reserveLoopC reserveLoop
    exact (Costs.bind (Costs.acc _) fun _ => Costs.tick_then (ih (t + u))).mono (by rw [List.length_cons]; omega)

theorem deepLoop_costs (units : List Nat) : ∀ (k depth : Nat) (x : W64) (ls : List Fit.FVec) (ps : List BV.BVec),
    Costs (deepLoopC units k depth x ls ps) (deepLoop units k depth x ls ps) (6 * k) := by
  intro k
  induction k with
  | zero => intro depth x ls ps; exact Costs.pure _
  | succ k ih =>
    intro depth x ls ps
    unfold deepLoopC deepLoop
    refine (Costs.bind (K := 1) (K' := 1 + (0 + (4 + 6 * k))) (Costs.acc _) fun p => Costs.bind (Costs.acc _) fun p' => Costs.bind (Costs.lift _) fun ps' => ?_).mono (by omega)
    by_cases h : x = 0#64
    · simp only [if_pos h]
      exact (Costs.pure _).mono (by omega)
    · simp only [if_neg h]
      exact (Costs.bind (Costs.acc _) fun u => Costs.bind (Costs.lift _) fun m => Costs.bind (Costs.acc _) fun l => Costs.bind (Costs.lift _) fun l' =>
        Costs.tick_then (Costs.bind (Costs.lift _) fun ls' => ih _ _ _ _)).mono (by omega)

theorem addValue_costs (units : List Nat) (v : Nat) (ls : List Fit.FVec) (ps : List BV.BVec) :
    Costs (addValueC units v ls ps) (addValue units v ls ps) (5 + 6 * (units.length - 1)) := by
  unfold addValueC addValue
  exact (Costs.tick_then (Costs.bind (Costs.acc _) fun u => Costs.bind (Costs.lift _) fun m => Costs.bind (Costs.acc _) fun l => Costs.bind (Costs.lift _) fun l' =>
    Costs.tick_then (Costs.bind (Costs.lift _) fun ls' => deepLoop_costs _ _ _ _ _ _))).mono (by omega)

theorem addAll_costs (units : List Nat) : ∀ (vs : List Nat) (ls : List Fit.FVec) (ps : List BV.BVec),
    Costs (addAllC units vs ls ps) (addAll units vs ls ps) (vs.length * (5 + 6 * (units.length - 1))) := by
  intro vs
  induction vs with
  | nil => intro ls ps; exact (Costs.pure _).mono (by omega)
  | cons v vs ih =>
    intro ls ps
    unfold addAllC addAll
    refine (Costs.bind (addValue_costs units v ls ps) fun r => ih r.1 r.2).mono ?_
    have : (vs.length + 1) * (5 + 6 * (units.length - 1)) = vs.length * (5 + 6 * (units.length - 1)) + (5 + 6 * (units.length - 1)) := Nat.succ_mul _ _
    rw [List.length_cons]; omega

theorem buildPaths_costs : ∀ ps : List BV.BVec, Costs (buildPathsC ps) (buildPaths ps) ((ps.map BV.BVec.size).sum / 32 + 15 * ps.length) := by
  intro ps
  induction ps with
  | nil => exact Costs.pure _
  | cons b bs ih =>
    unfold buildPathsC buildPaths
    have := Costs.bind (sbvBuild_costs false b) fun s => Costs.bind ih fun ss => Costs.tick_then (k := 1) (Costs.pure (s :: ss))
    refine Costs.mono this ?_
    simp only [sbvK, List.map_cons, List.sum_cons, List.length_cons]
    omega

/-- Setting one path to one with one bit more. -/
theorem wr_size (ps ps' : List BV.BVec) (j : Nat) (b b' : BV.BVec) (bit : Bool) (e1 : ps[j]? = some b) (e2 : b.pushBack bit = some b') (e3 : wr ps j b' = some ps') :
    (ps'.map BV.BVec.size).sum = (ps.map BV.BVec.size).sum + 1 ∧ ps'.length = ps.length := by
  obtain ⟨hi, hb⟩ := List.getElem?_eq_some_iff.mp e1
  have hbs : ps' = ps.set j b' := by
    unfold wr at e3
    rw [if_pos hi] at e3
    exact (Option.some.inj e3).symm
  have hsz : b'.size = b.size + 1 := by
    unfold BV.BVec.pushBack BV.BVec.resize at e2
    rw [if_neg (by omega), if_pos (by omega)] at e2
    cases e4 : BV.fill (vresize b.words (BV.wordSize (b.size + 1)) 0#64) (BV.mkIter b.size) (BV.mkIter (b.size + 1)) bit with
    | none => simp [e4] at e2
    | some ws =>
      simp only [e4, Option.bind_eq_bind, Option.bind_some, Option.pure_def, Option.some.injEq] at e2
      rw [← e2]
  have hset : ∀ (l : List BV.BVec) (j : Nat) (hj : j < l.length), ((l.set j b').map BV.BVec.size).sum + (l[j]).size = (l.map BV.BVec.size).sum + b'.size := by
    intro l
    induction l with
    | nil => intro j hj; cases hj
    | cons a l ihl =>
      intro j hj
      cases j with
      | zero => simp; omega
      | succ j =>
        have := ihl j (by simpa using hj)
        simp only [List.set_cons_succ, List.map_cons, List.sum_cons, List.getElem_cons_succ]
        omega
  have hs := hset ps j hi
  rw [hb, hsz] at hs
  rw [hbs, List.length_set]
  exact ⟨by omega, rfl⟩

theorem deepLoop_size (units : List Nat) : ∀ (k depth : Nat) (x : W64) (ls : List Fit.FVec) (ps : List BV.BVec) (r : List Fit.FVec × List BV.BVec),
    deepLoop units k depth x ls ps = some r → (r.2.map BV.BVec.size).sum ≤ (ps.map BV.BVec.size).sum + k ∧ r.2.length = ps.length := by
  intro k
  induction k with
  | zero => intro depth x ls ps r e; cases e; exact ⟨Nat.le_refl _, rfl⟩
  | succ k ih =>
    intro depth x ls ps r e
    unfold deepLoop at e
    simp only [Option.bind_eq_bind, Option.bind_eq_some_iff] at e
    obtain ⟨p, e1, p', e2, ps', e3, e⟩ := e
    obtain ⟨g1, g2⟩ := wr_size ps ps' _ p p' _ e1 e2 e3
    by_cases h : x = 0#64
    · rw [if_pos h] at e
      cases e
      exact ⟨by simp only; omega, g2⟩
    · rw [if_neg h] at e
      simp only [Option.bind_eq_some_iff] at e
      obtain ⟨u, _, m, _, l, _, l', _, ls', _, e⟩ := e
      obtain ⟨g3, g4⟩ := ih _ _ _ _ _ e
      exact ⟨by omega, g4.trans g2⟩

theorem addAll_size (units : List Nat) : ∀ (vs : List Nat) (ls : List Fit.FVec) (ps : List BV.BVec) (r : List Fit.FVec × List BV.BVec),
    addAll units vs ls ps = some r → (r.2.map BV.BVec.size).sum ≤ (ps.map BV.BVec.size).sum + vs.length * (units.length - 1) ∧ r.2.length = ps.length := by
  intro vs
  induction vs with
  | nil => intro ls ps r e; cases e; exact ⟨by simp, rfl⟩
  | cons v vs ih =>
    intro ls ps r e
    unfold addAll at e
    simp only [Option.bind_eq_bind, Option.bind_eq_some_iff] at e
    obtain ⟨q, e1, e⟩ := e
    unfold addValue at e1
    simp only [Option.bind_eq_bind, Option.bind_eq_some_iff] at e1
    obtain ⟨u, _, m, _, l, _, l', _, ls', _, e1⟩ := e1
    obtain ⟨g1, g2⟩ := deepLoop_size _ _ _ _ _ _ _ e1
    obtain ⟨g3, g4⟩ := ih _ _ _ e
    have : (vs.length + 1) * (units.length - 1) = vs.length * (units.length - 1) + (units.length - 1) := Nat.succ_mul _ _
    rw [List.length_cons]
    exact ⟨by omega, g4.trans g2⟩

theorem ofUnits_costs (list units : List Nat) (n : Nat) (hn : ∀ cf, Calc.cumulativeFrequencyList list = some cf → cf.length ≤ n) :
    Costs (ofUnitsC list units) (ofUnits list units)
      (list.length * (8 + 6 * (units.length - 1)) + list.length * (units.length - 1) / 32 + 22 * units.length + 9 * n) := by
  unfold ofUnitsC ofUnits
  by_cases h0 : list = []
  · simp only [if_pos h0]
    exact (Costs.pure _).mono (by omega)
  · simp only [if_neg h0]
    have hz : ((List.replicate (units.length - 1) BV.empty).map BV.BVec.size).sum = 0 := by
      rw [List.map_replicate, List.sum_replicate_nat]; show _ * 0 = 0; omega
    have := Costs.bind (Costs.lift (newLayers units)) fun layers => Costs.tick_then (k := 3 * units.length) (Costs.bind (cum_costs list n hn) fun cf =>
      Costs.bind (reserveLoop_costs cf units 0) fun _ =>
        Costs.bind_some (K' := list.length * (units.length - 1) / 32 + 15 * (units.length - 1) + 0) (addAll_costs units list layers (List.replicate (units.length - 1) BV.empty)) fun r er =>
          Costs.bind ((buildPaths_costs r.2).mono (by
            obtain ⟨g1, g2⟩ := addAll_size _ _ _ _ _ er
            rw [hz, Nat.zero_add] at g1
            rw [List.length_replicate] at g2
            rw [g2]
            have := Nat.div_le_div_right (c := 32) g1
            omega)) fun paths => Costs.pure (⟨some units.length, units, r.1, paths⟩ : Dac))
    refine Costs.mono this ?_
    have : list.length * (8 + 6 * (units.length - 1)) = list.length * (5 + 6 * (units.length - 1)) + 3 * list.length := by
      rw [show 8 + 6 * (units.length - 1) = (5 + 6 * (units.length - 1)) + 3 by omega, Nat.mul_add]; omega
    omega

end Verif.Dac
