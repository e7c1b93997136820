/-
Model of `DacVector`, /repo/include/sim_ds/DacVector.hpp.
-/
import Verif.Fit.Model
import Verif.Succ.Model
import Verif.Calc.Model

namespace Verif.Dac
open Verif.Bits Verif.Serial

/-- The members, DacVector.hpp:124-127. `num = none`: `num_layers_` was never initialised. -/
structure Dac where
  num : Option Nat
  units : List Nat
  layers : List Fit.FVec
  paths : List Succ.SBV
deriving DecidableEq

/-- The constructed layers, DacVector.hpp:263-265. -/
def newLayers : List Nat → Option (List Fit.FVec)
  | [] => some []
  | u :: us => do
    let l ← Fit.new u
    let ls ← newLayers us
    pure (l :: ls)

/-- The memory reservation, DacVector.hpp:269-275: only the accesses `cf[t]` matter; `reserve` changes
no contents. Structural over the layer widths, `t` is the running sum. -/
def reserveLoop (cf : List Nat) : List Nat → Nat → Option Unit
  | [], _ => some ()
  | u :: us, t => do
    let _ ← cf[t]?
    reserveLoop cf us (t + u)

/-- The loop over depths, DacVector.hpp:282-290: `k` depths left, next `depth`. -/
def deepLoop (units : List Nat) : (k depth : Nat) → W64 → List Fit.FVec → List BV.BVec →
    Option (List Fit.FVec × List BV.BVec)
  | 0, _, _, ls, ps => some (ls, ps)
  | k + 1, depth, x, ls, ps => do
    let p ← ps[depth - 1]?
    let p ← p.pushBack (decide (x ≠ 0#64))
    let ps ← wr ps (depth - 1) p
    if x = 0#64 then pure (ls, ps)
    else do
      let u ← units[depth]?
      let m ← widthMask u
      let l ← ls[depth]?
      let l ← l.pushBack (x &&& m).toNat
      let ls ← wr ls depth l
      deepLoop units k (depth + 1) (x >>> u) ls ps

/-- One iteration over the values, DacVector.hpp:278-291. -/
def addValue (units : List Nat) (v : Nat) (ls : List Fit.FVec) (ps : List BV.BVec) :
    Option (List Fit.FVec × List BV.BVec) := do
  let x := BitVec.ofNat 64 v
  let u ← units[0]?
  let m ← widthMask u
  let l ← ls[0]?
  let l ← l.pushBack (x &&& m).toNat
  let ls ← wr ls 0 l
  deepLoop units (units.length - 1) 1 (x >>> u) ls ps

/-- The loop over the values, DacVector.hpp:278-291. -/
def addAll (units : List Nat) : List Nat → List Fit.FVec → List BV.BVec → Option (List Fit.FVec × List BV.BVec)
  | [], ls, ps => some (ls, ps)
  | v :: vs, ls, ps => do
    let (ls, ps) ← addValue units v ls ps
    addAll units vs ls ps

/-- The paths with rank directory, DacVector.hpp:293-295. -/
def buildPaths : List BV.BVec → Option (List Succ.SBV)
  | [] => some []
  | p :: ps => do
    let s ← Succ.build false p
    let ss ← buildPaths ps
    pure (s :: ss)

/-- The constructor after the widths are known, DacVector.hpp:261-296. -/
def ofUnits (list units : List Nat) : Option Dac :=
  if list = [] then some ⟨none, [], [], []⟩
  else do
    let layers ← newLayers units
    let ps := List.replicate (units.length - 1) BV.empty
    let cf ← Calc.cumulativeFrequencyList list
    let _ ← reserveLoop cf units 0
    let (layers, ps) ← addAll units list layers ps
    let paths ← buildPaths ps
    pure ⟨some units.length, units, layers, paths⟩

/-- `DacVector(vector, unit_bit_list)`, DacVector.hpp:248-296. `split` is the call to
`split_positions_optimized_for_dac`, DacVector.hpp:254-255. -/
def make (split : List Nat → Option (List Nat)) (list units : List Nat) : Option Dac :=
  if list = [] then some ⟨none, [], [], []⟩
  else if units = [] then do
    let us ← split list
    ofUnits list us
  else ofUnits list units

/-- `size()`, DacVector.hpp:144. -/
def Dac.size (d : Dac) : Option Nat := do
  let l ← d.layers[0]?
  pure l.size

/-- The loop of `operator[]`, DacVector.hpp:300-310: `k` depths left. -/
def getLoop (d : Dac) : (k depth shift i : Nat) → W64 → Option W64
  | 0, _, _, _, value => some value
  | k + 1, depth, shift, i, value => do
    let path ← d.paths[depth - 1]?
    let b ← path.get i
    if b = false then pure value
    else do
      let i ← path.rank1 i
      let l ← d.layers[depth]?
      let unit ← l.get i
      if shift < 64 then do
        let value := value ||| (BitVec.ofNat 64 unit <<< shift)
        let u ← d.units[depth]?
        getLoop d k (depth + 1) (shift + u) i value
      else none

/-- `operator[]`, DacVector.hpp:298-312. -/
def Dac.get (d : Dac) (i : Nat) : Option Nat := do
  let l ← d.layers[0]?
  let v ← l.get i
  let u ← d.units[0]?
  let n ← d.num
  let r ← getLoop d (n - 1) 1 u i (BitVec.ofNat 64 v)
  pure r.toNat

/-- `at`, DacVector.hpp:152-157; the inner `none` is the exception. -/
def Dac.at (d : Dac) (i : Nat) : Option (Option Nat) := do
  let n ← d.size
  if i ≥ n then pure none else (d.get i).map some

/-- The loop of `depth`, DacVector.hpp:173-177: `k` depths left. -/
def depthLoop (d : Dac) : (k depth i : Nat) → Option Nat
  | 0, depth, _ => some depth
  | k + 1, depth, i => do
    let path ← d.paths[depth]?
    let b ← path.get i
    if b = false then pure depth
    else do
      let i ← path.rank1 i
      depthLoop d k (depth + 1) i

/-- `depth(index)`, DacVector.hpp:171-179; for an object without layers the loop bound wraps. -/
def Dac.depth (d : Dac) (i : Nat) : Option Nat := do
  let n ← d.num
  if n = 0 then none else depthLoop d (n - 1) 0 i

/-- The default constructor, DacVector.hpp:130. -/
def default : Option Dac := do
  let l ← Fit.new 8
  pure ⟨some 0, List.replicate 8 8, List.replicate 8 l, List.replicate 7 Succ.default⟩

/-- `Write`, DacVector.hpp:215-223. -/
def Dac.write (d : Dac) : Option Stream := do
  let n ← d.num
  pure (writeVal 8 n ++ (d.units.map (writeVal 8)).flatten ++ (d.layers.map Fit.FVec.write).flatten ++
    (d.paths.map (Succ.SBV.write false)).flatten)

/-- A loop of `n` reads. -/
def readMany {α : Type} (rd : Stream → Option (α × Stream)) : Nat → Stream → Option (List α × Stream)
  | 0, s => some ([], s)
  | n + 1, s => do
    let (a, s) ← rd s
    let (l, s) ← readMany rd n s
    pure (a :: l, s)

/-- `Read`, DacVector.hpp:193-213. -/
def read (s : Stream) : Option (Dac × Stream) := do
  let (n, s) ← readVal 8 s
  let (us, s) ← readMany (readVal 8) n s
  let (ls, s) ← readMany Fit.read n s
  let (ps, s) ← readMany (Succ.read false) (n - 1) s
  pure (⟨some n, us, ls, ps⟩, s)

/-- `size_in_bytes`, DacVector.hpp:181-191. -/
def Dac.sizeInBytes (d : Dac) : Option Nat := do
  let n ← d.num
  pure (8 + sizeVec 8 d.units + ((d.layers.take n).map Fit.FVec.sizeInBytes).sum +
    ((d.paths.take (n - 1)).map (Succ.SBV.sizeInBytes false)).sum)

end Verif.Dac
