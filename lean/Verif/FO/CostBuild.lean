/-
The construction of the factor oracle with counts of the calls of `transition` and `_insert_trans`. The functions are those of Verif/FO/Model.lean.
-/
import Verif.FO.Model

namespace Verif.FO
open Verif.PM (Byte)

/-- `chainLoop` with the number of calls of `transition` (`a`) and of `_insert_trans` (`b`), FactorOracle.hpp:54-57. -/
def chainLoopC (fb : Builder → List Nat → Nat → Res (Builder × Nat)) (lrs : List Nat) (i : Nat) (s : Builder) (k a b : Nat) : Res (Builder × Nat × Nat × Nat) :=
  if _h : k < i + 1 then
    match s.transition k (i + 1) with
    | none => .ub
    | some t =>
      if t = 0 then
        match insertTrans fb s k (i + 1) with
        | .ub => .ub
        | .stop => .stop
        | .ok s =>
          match lrs[k]? with
          | none => .ub
          | some k' =>
            if _h2 : k' < k then chainLoopC fb lrs i s k' (a + 1) (b + 1)
            else if k' = i + 1 then .ok (s, k', a + 1, b + 1) else .ub
      else .ok (s, k, a + 1, b)
  else .ok (s, k, a, b)
termination_by k

/-- One round of the loop over the letters, FactorOracle.hpp:52-58. -/
def letterC (fb : Builder → List Nat → Nat → Res (Builder × Nat)) (i : Nat) (lrs : List Nat) (s : Builder) (a b : Nat) : Res (Builder × List Nat × Nat × Nat) := do
  let lrs ← lift (wr lrs 0 (i + 1))
  let k ← lift lrs[i]?
  let r ← chainLoopC fb lrs i s k a b
  let v ← lift (if r.2.1 = i + 1 then some 0 else r.1.transition r.2.1 (i + 1))
  let lrs ← lift (wr lrs (i + 1) v)
  .ok (r.1, lrs, (if r.2.1 = i + 1 then r.2.2.1 else r.2.2.1 + 1), r.2.2.2)

/-- `letterLoop` with counts, FactorOracle.hpp:51-59. -/
def letterLoopC (fb : Builder → List Nat → Nat → Res (Builder × Nat)) : (n i : Nat) → List Nat → Builder → (a b : Nat) → Res (Builder × List Nat × Nat × Nat)
  | 0, _, lrs, s, a, b => .ok (s, lrs, a, b)
  | n + 1, i, lrs, s, a, b => do
    let r ← letterC fb i lrs s a b
    letterLoopC fb n (i + 1) r.2.1 r.1 r.2.2.1 r.2.2.2

/-- The constructor with the number of calls of `transition` and of `_insert_trans`, FactorOracle.hpp:35-67 and 232. -/
def buildC (fuel : Nat) (text : List Byte) : Res (Oracle × Nat × Nat) := do
  let s ← expandLoop text.length text.length (initial text)
  let s ← lift (s.setNext 0 0)
  let r ← letterLoopC (findBase fuel) text.length 0 (List.replicate (text.length + 1) 0) s 0 0
  .ok (⟨r.1.check, r.1.base, clearNext r.1⟩, r.2.2.1, r.2.2.2)

end Verif.FO
