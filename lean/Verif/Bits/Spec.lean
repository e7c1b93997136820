/-
Independent specifications for the word level functions.
-/
namespace Verif.Bits

/-- Number of 1 bits among the bits `0, ..., k-1` of `x`. -/
def onesBelow {n : Nat} (x : BitVec n) (k : Nat) : Nat :=
  (List.range k).countP (fun i => x.getLsbD i)

/-- Number of 1 bits of `x`. -/
def ones {n : Nat} (x : BitVec n) : Nat := onesBelow x n

/-- `r` is the index of the lowest 1 bit of `x`, or the width if there is none. -/
def IsCtz {n : Nat} (x : BitVec n) (r : Nat) : Prop :=
  r ≤ n ∧ (∀ j, j < r → x.getLsbD j = false) ∧ (r < n → x.getLsbD r = true)

/-- `r` is the number of 0 bits above the highest 1 bit of `x` (the width if there is none). -/
def IsClz {n : Nat} (x : BitVec n) (r : Nat) : Prop :=
  r ≤ n ∧ (∀ j, j < r → x.getLsbD (n - 1 - j) = false) ∧ (r < n → x.getLsbD (n - 1 - r) = true)

/-- `p` is the (0-based) position of the `i`-th (1-based) 1 bit of `x`. -/
def IsSelect {n : Nat} (x : BitVec n) (i p : Nat) : Prop :=
  p < n ∧ x.getLsbD p = true ∧ onesBelow x p + 1 = i

end Verif.Bits
