/-
Model of `ShowAsBinary`, /repo/include/sim_ds/log.hpp. The characters written to `std::cout` are a list.
-/
namespace Verif.Log

/-- The loop, log.hpp:20-24, with `n = i + 1`, and the line end, log.hpp:25. `w` is the number of bits of `T`, which is promoted to `int` (32 bits)
if it is shorter; a shift by that number of bits or more is undefined: `none`. `value >> i` is the quotient by `2 ^ i` rounded down (for negative
values the arithmetic shift of all usual compilers), `& 1` its last binary digit. -/
def showLoop (w : Nat) (v : Int) : (n : Nat) → Option (List Char)
  | 0 => some ['\n']
  | i + 1 =>
    if i < max w 32 then do
      let rest ← showLoop w v i
      let rest := if i % 8 = 0 then ' ' :: rest else rest
      pure (Nat.digitChar ((v / 2 ^ i) % 2).toNat :: rest)
    else none

/-- `ShowAsBinary`, log.hpp:16-26: `int i = size * 8 - 1` converts from `size_t` to `int`. -/
def showAsBinary (w : Nat) (v : Int) (size : Nat) : Option (List Char) :=
  let i := (size * 8 + 2 ^ 64 - 1) % 2 ^ 64 % 2 ^ 32
  if i < 2 ^ 31 then showLoop w v (i + 1) else some ['\n']

end Verif.Log
