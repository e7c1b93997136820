/-
Model of the iterators of DacVector, /repo/include/sim_ds/DacVector.hpp:18-104. The sequence is a parameter of the functions instead of a member.
`pos_` is a natural number below 2^63.
-/
import Verif.Dac.Model

namespace Verif.Dac

/-- `operator*`, DacVector.hpp:34-36, at position `pos`. -/
def Dac.deref (d : Dac) (pos : Nat) : Option Nat := d.get pos

/-- `operator+=` and `operator-=`, DacVector.hpp:60-67, also `+` and `-`, 69-81, `++` and `--`, 38-58: the sum modulo 2^64. -/
def move (pos : Nat) (distance : Int) : Nat := ((pos + distance) % 2 ^ 64).toNat

/-- `operator-` of two iterators, DacVector.hpp:83: the difference modulo 2^64 as a signed number. -/
def distance (x y : Nat) : Int := (BitVec.ofNat 64 (x + (2 ^ 64 - y))).toInt

/-- `for (auto x : dac)` with `begin()`, `end()`, DacVector.hpp:159-161, `!=`, 89, `++`, 38-41 and `*`: the values visited; `fuel` bounds the number of
rounds, more are the outcome `none`. -/
def Dac.range (d : Dac) : (fuel pos stop : Nat) → Option (List Nat)
  | 0, pos, stop => if pos = stop then some [] else none
  | n + 1, pos, stop =>
    if pos = stop then some []
    else do
      let x ← d.deref pos
      let l ← d.range n (move pos 1) stop
      pure (x :: l)

/-- The loop over the whole vector. -/
def Dac.visit (d : Dac) (fuel : Nat) : Option (List Nat) := do
  let n ← d.size
  d.range fuel 0 n

/-- A loop from `end()` down to `begin()` with `--it` before `*it`. -/
def Dac.rangeBack (d : Dac) : (fuel pos : Nat) → Option (List Nat)
  | 0, pos => if pos = 0 then some [] else none
  | n + 1, pos =>
    if pos = 0 then some []
    else do
      let x ← d.deref (move pos (-1))
      let l ← d.rangeBack n (move pos (-1))
      pure (x :: l)

/-- The loop over the whole vector backwards. -/
def Dac.visitBack (d : Dac) (fuel : Nat) : Option (List Nat) := do
  let n ← d.size
  d.rangeBack fuel n

/-- `front()`, DacVector.hpp:163. -/
def Dac.front (d : Dac) : Option Nat := d.get 0

/-- `back()`, DacVector.hpp:165. -/
def Dac.back (d : Dac) : Option Nat := do
  let n ← d.size
  d.get (n - 1)

end Verif.Dac
