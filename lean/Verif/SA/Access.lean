/-
The accessors of SuffixArray.hpp that SA/Model.lean leaves out.
-/
import Verif.SA.Model

namespace Verif.SA
open Verif.Serial

/-- `char_at(index)`, SuffixArray.hpp:40-42: `str_[index]` on a `const string`, where `index == size()` gives the terminator and a larger index is
undefined (`none`). -/
def SufArr.charAt (t : SufArr) (index : Nat) : Option Byte :=
  if index < t.str.length then t.str[index]? else if index = t.str.length then some 0 else none

/-- `suffix(index)`, SuffixArray.hpp:48-50; the difference is one of `size_t`. -/
def SufArr.suffix1 (t : SufArr) (index : Nat) : Option (List Byte) :=
  t.suffix2 index ((t.str.length + (2 ^ 64 - index % 2 ^ 64)) % 2 ^ 64)

/-- `WriteSA`, SuffixArray.hpp:52-54. -/
def SufArr.writeSA (t : SufArr) : Stream := t.sa.write

/-- `WriteLCP`, SuffixArray.hpp:56-58. -/
def SufArr.writeLCP (t : SufArr) : Stream := t.lcp.write

end Verif.SA
