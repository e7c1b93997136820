/-
`_Node::terminal` and `for_each_edge`, graph_util.hpp:52-59.
-/
import Verif.Trie.Model

namespace Verif.Trie

/-- `terminal`, graph_util.hpp:52: `item_index() != -1`. If `size_type` is unsigned and not shorter than `int` (`wide`), -1 is converted to it and becomes
`2 ^ w - 1`. Otherwise the index is converted to a signed type without change, is not negative and never equal to -1 (for the signed types, `w` is the number
of bits without the sign, so that `kItemEmpty` is `2 ^ w - 1` for them as well). -/
def Node.terminal (wide : Bool) (w : Nat) (n : Node) : Bool := if wide then n.item != 2 ^ w - 1 else true

/-- `for_each_edge`, graph_util.hpp:54-59: the arguments of the calls of the action, in this order. -/
def Node.forEachEdge (n : Node) : List (Byte × Nat) := n.edges

/-- `node(id)`, graph_util.hpp:160-162 (and `root()`, graph_util.hpp:164-166, which is node 0). -/
def Trie.node {α : Type} (t : Trie α) (id : Nat) : Option Node := t.container[id]?

end Verif.Trie
