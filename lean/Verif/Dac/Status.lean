/-
Model of `DacVector::ShowStatus`, /repo/include/sim_ds/DacVector.hpp:225-244. The output is a list of lines.
-/
import Verif.Dac.Model

namespace Verif.Dac

/-- `sum += x` for an `int` and a `size_t`, DacVector.hpp:234, 238: the sum is taken modulo `2 ^ 64` and converted to `int`. -/
def addInt (a : Int) (x : Nat) : Int := (BitVec.ofInt 32 (a + x)).toInt

/-- The loop over the paths, DacVector.hpp:232-234: the test before the round of `i` is `i == 0 || i + 1 < num_layers()`; `k` rounds at most. -/
def pathLoop (d : Dac) (n : Nat) : (k i : Nat) → Int → Option Int
  | 0, _, acc => some acc
  | k + 1, i, acc =>
    if i = 0 ∨ i + 1 < n then do
      let p ← d.paths[i]?
      pathLoop d n k (i + 1) (addInt acc (p.sizeInBytes false))
    else some acc

/-- The loop over the layers, DacVector.hpp:236-238: `k` layers from `i` on. -/
def layerLoop (d : Dac) : (k i : Nat) → Int → Option Int
  | 0, _, acc => some acc
  | k + 1, i, acc => do
    let l ← d.layers[i]?
    layerLoop d k (i + 1) (addInt acc l.sizeInBytes)

/-- The last loop, DacVector.hpp:242-243: `k` layers from `i` on. -/
def unitLines (d : Dac) : (k i : Nat) → Option (List String)
  | 0, _ => some []
  | k + 1, i => do
    let u ← d.units[i]?
    let rest ← unitLines d k (i + 1)
    pure (s!"[{u}]" :: rest)

/-- `ShowStatus`, DacVector.hpp:225-244. `fl a b` is the text of the quotient of `a` and `b` as a `float`. -/
def Dac.showStatus (fl : Nat → Nat → String) (d : Dac) : Option (List String) := do
  let size ← d.size
  let bytes ← d.sizeInBytes
  let n ← d.num
  let bits ← pathLoop d n (n + 1) 0 0
  let flows ← layerLoop d n 0 0
  let map ← unitLines d n 0
  pure (["--- Stat of DACs  ---", s!"number of elements: {size}", s!"size:   {bytes}", s!"sizeBits/element:   {fl (bytes * 8) size}",
    s!"size bits:   {bits}", s!"size flows:   {flows}", "--- element map ---", s!"num_units: {n}"] ++ map)

end Verif.Dac
