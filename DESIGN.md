# Design

Subject: the header-only C++ library in /repo (MatsuTaku/SimpleDataStructure). The code is
read as text only; nothing in /repo is built or run.

## Trusted base

* Lean 4.33.0 kernel. Theorems may depend on the standard axioms `propext`,
  `Classical.choice`, `Quot.sound` only. No own axioms, no `sorry`, no `native_decide`,
  no `bv_decide`.
* The hand translation of the C++ into Lean definitions. Every definition in a model
  file cites the file and lines it models and says what was simplified.
* The property specifications (small independent definitions next to each theorem).

## Modelling conventions

* Build variant: the repository's CMake files set no `-march`, so `__POPCNT__`, `__BMI__`,
  `__BMI2__` and `__LZCNT__` are undefined: the *portable* code paths are modelled literally.
  Hardware intrinsics are modelled by their mathematical meaning and used as a second
  build variant where the code has one. Release build: `assert` is a no-op.
* Machine words are `BitVec 8/16/32/64`; arithmetic on them wraps as in C++.
* Sizes and indices (`size_t`) are `Nat`: containers are assumed to be smaller than memory, so
  index arithmetic never wraps. Where the C++ relies on wrap-around of `size_t` (loops to -1,
  `text.size() - key.size()`), the model treats it explicitly.
* Undefined behaviour (out-of-bounds access, shift by >= 64, read of uninitialised data)
  is a distinct outcome `none`/`.error` in functions that can reach it; theorems then prove
  that it does not occur under stated preconditions, or exhibit inputs where it does.
* Streams are lists of bytes; values are little-endian; `long`/`size_t` is 8 bytes.
* Where the code violates the property, the full property is kept in `properties.jsonl`, the
  provable part is named `..._partial` and a theorem with a concrete witness refutes the rest.

## Layout (lean/Verif)

Each component `X` has `X/Model.lean` (translation with citations), `X/Lemmas.lean`
(helper facts) and `X/Props.lean` (property theorems, their specs, non-vacuity examples,
counterexamples).

## Plan per property

| Id | Modelled | Proof idea |
|----|----------|-----------|
| C01-C03 | SWAR code and lookup table of bit_util.hpp | split words into bytes/nibbles; finite table facts by kernel `decide`; sums by arithmetic |
| C04-C06 | the masking cascades of ctz/clz | halving invariant, then the last bits |
| C07 | portable `sel`, table kLtSel; pdep variant as spec | table facts by `decide`; popcount of halves |
| C08, C12 | swap_pi*, xor_map | bit extensionality |
| C09 | masks, bextr, cnt | bit extensionality |
| C10, C11 | 256 bit functions over four words | case split on words, reuse C01, C04, C05 |
| C13-C14 | calc.hpp loops | loop invariants |
| C15 | the dynamic program with an arbitrary cost function | invariant on the back pointers |
| C16-C18 | BitVector, _fill, BitIterator over a word array | refinement to `List Bool`, induction on histories |
| C19, C23, C27, C29, C33, C37, C47, C64 | byte stream writers and readers | round-trip lemmas composed |
| C20-C22 | two level rank directory, select tips, binary search | invariants of the constructor loop; counting lemmas |
| C24-C26 | packed words with straddling | bit extensionality; refinement to `List Nat`; writes of values that are too wide in `Fit/PropsWide.lean`; signed containers in `Fit/PropsInt.lean` |
| C28 | byte packed records | non-interference of byte ranges |
| C30-C31, C65 | unit packed words and rank tips | counting over words; values that are too wide in `MBit/PropsWide.lean` |
| C32 | layers, paths and ranks | induction over layers; signed containers in `Dac/PropsInt.lean` |
| C34-C36 | bit vectors per tree node | induction over levels with the stable partition; signed containers in `Wave/PropsInt.lean` |
| C38 | folklore array | refinement to function with default |
| C39 | in-place chain array with arbitrary initial memory | chain invariant, refinement |
| C40-C42 | sift-down on an array; signed values in Heap/PropsInt.lean | heap invariant; permutation |
| C43 | xorshift and multiply | xor cancellation; modular inverses from the table by `decide` |
| C44 | quotient table with linear probing and wrap-around | layout invariant in coordinates that start at an unshifted slot; it is kept by an insertion and by a rotation of the coordinates; `_resize` visits each filled slot once and its queue yields the home |
| C45 | erase | witnesses for the faults (a key that stays, a key that is lost, a set that never returns); partial theorems: one erase, and any mixture of set and erase while the table is not copied |
| C87 | CHT histories with erasures | the layout invariant does not mention deletion marks; each call that returns leaves a submap of the last values |
| C89 | CHT: which calls return | invariant of `size_`, `used_` and the number of live slots after m calls; each growth leaves room for the elements it copies |
| C90 | CHT: print_for_debug | layout invariant: runs begin at occupied homes, so occupied + continuation = filled; filled slots and keys correspond through the inverse hash |
| C91 | counted copies of the functions of InitializableArray.hpp | the copy gives the result of the model; bound per function, composed |
| C92 | CHT: bucket() under set and reserve | the number of slots carried through the copy loop of `_resize`; 1.98 times a power of two has one bit more |
| C93 | CHT: reserve | from C92: the load of the least power of two above 99 n / load |
| C94 | Trie: terminal, for_each_edge, node | words reached by edges = walk; the item of a word follows from the insertion lemma |
| C88 | CDRW histories that change bit lengths | C87 for each of the 63 tables: the table of an element's width has its value or none |
| C46, C68 | CDRWArray and CDRWVector over 64 tables | refinement to a function (a list) while no element changes its bit length, or the table that is wrongly erased from was never written to; witnesses for the faults |
| C48-C52 | each matcher with its tables | loop invariants: no occurrence is skipped |
| C53-C56 | abstract oracle and its double array encoding | suffix-link invariant; representation invariant; C56_complete: the KMP part gives the longest prefix, so only an occurrence that ends inside it can be lost, and then a prefix has a short period that the key has not; C56_exact: for such a key three rounds of the search on a constructed text step over its last occurrence |
| C57-C58, C66 | Trie container | path invariant; tree enumeration; for the exact limit of the index type: either the invariant holds to the end or an edge to node 0 is left on the way of a key (Trie/Narrow.lean) |
| C59-C61, C67 | Samc construction with both slot searches, walk, dictionary | the place of a prefix is the sum of its codes; first fit bounds the places; bijection by rank/select; a narrow code type only cuts what is kept, so the object is the 64-bit one or a place lies out of range |
| C62 | SA-IS as written | witness for the fault; induced sorting sorts by the letters up to the next valley and then by the given order of the valleys, for any order; induction over the recursion gives exactly the pairs in the wrong order |
| C63 | Kasai style LCP | PLCP lower bound |
| C69, C71 | iterators of FitVector and DacVector | state of the iterator as a function of the moves; witness for the fault of FitVector |
| C70 | MMX and AVX2 instructions on lanes | lane by lane equality with the portable branch |
| C72-C74 | counted or depth limited copies of the functions | the copy gives the result of the model; amortised bound on the count |
| C75-C77 | the dynamic program and the sizes | induction over the table: every entry is the least space of the remaining bits; exact sizes of the parts and their sum |
| C78 | accessors of the suffix array | substrings of the text; neighbours by C63 |
| C79 | counted copies of the heap functions | the copy gives the result of the model; sum of the heights of the subtrees |
| C80 | the finished oracle | a list of all external transitions, paid for by the depth of the chain of suffix links |
| C81, C82 | sizes and node numbers of the wavelet tree | sum over the levels of the tree |
| C83 | the characters written by ShowAsBinary | induction over the digits |
| C84 | the report of BuildLCP_ | statistics of a sorted permutation; suffixes between two ranks share the common prefix |
| C85 | DacVector::ShowStatus | the lines as strings, sums as int; access to a path that does not exist with one layer |
| C86 | `shifts_of_conflicts_` | lowest conflict, run of fields above it and run of mask below it |
| C95 | counted copies of the four searches | the counted copy has the same result; one window costs at most m, an alien window 1 |
| C96 | PM/Tables.lean | border table from the invariant of the KMP construction, the others by loop invariants; delta2 by the invariant of the two passes |
| C97 | Serial/Canon.lean | readers compose: a value, a counted sequence and a string accept only what is written, and so do sequences of them |
| C98 | bomC, turboBomC (FO/Cost.lean) | the point up to which KMP has searched moves by w in each window without a match; the known prefix is the potential that pays for the steps back of KMP |
| C99 | selectC (Succ/Cost.lean) | entries of the table are the blocks of the ends of the groups; each round halves the span up to rounding |
| C100 | buildC (FO/CostBuild.lean) | potential: depth of the chain of supply links; each insertion goes up the chain by one, each letter makes it one deeper |
| C101 | the models of C48-C56 | a list of occurrences in increasing order is unique |
| C102 | the models of C48, C62, C63 | lists with a common prefix are convex in the lexicographic order; a wrong order of two entries needs a common prefix up to a valley (C62_local_partial) |
| C103 | findBase, build (FO/Model.lean); findBase_never, insertTrans_bounded (FO/Bounded.lean) | free list empty: stuck; not empty: one round of the ring and one new block |
| C104 | saisC and the counted functions (SA/Time.lean); Costs, weight_sum, nameLoopC_costs (SA/TimeLemmas.lean) | step counting monad; sum of the lengths of the LMS substrings; the texts of the recursion halve |
| C105 | Ok.pos_inj, Ok.pos_lt (Samc/PropsSpace.lean) | different prefixes have different places: the depth is read off the heads, then Ok.inj | build_fits for the upper bound |
| C106 | C57_narrow_fits, C66_fits, C59_defined, C60_fits, Ok.places | the three membership theorems and the count of prefixes put together |
| C107 | C63_lcp, C102_interval | induction over the sorted suffixes: each one adds the prefixes that are longer than its LCP with the next one |
| C108 | the counted functions (Wave/Reads.lean) | counting monad; refinement to the functions of the models; the depth of a value bounds the rounds of DacVector |
| C109 | least codes and heights as an invariant of the construction (Samc/First.lean) | invariant of the loops; uniqueness by induction on depth and character |
| C110 | invariant: no bit set behind the end (BV/PropsFile.lean, Fit/PropsFile.lean) | preserved by every call that does not cut; the object is unique |
| C111 | Samc/Reads.lean, Samc/PropsReads.lean | counting monad; a missing prefix leads to a label that differs |
| C112 | Samc/Cost.lean, Samc/CostBuild.lean, Samc/PropsCost.lean | counting monad; the exact number of reads of one search, summed along the invariant of the construction |
| C113 | CHT/Cost.lean, CHT/PropsCost.lean | exact number of accesses of every loop along the layout invariant; the slots passed are a row of filled slots that begins with one that is not shifted |
| C114 | Trie/Cost.lean, Trie/PropsCost.lean | counted runs along the walk of the key; after the first added node every further node is new |
| C115 | CDRW/PropsSpace.lean | a history on the array is, on each table, the history of the writes of its bit length; then the bound of C92 for each table and a double count |
| C116 | CHT/Amort.lean, CHT/PropsAmort.lean | counted versions of set and _resize; during the copying each placement adds one to used_size_ of the new table, so the count is the number of elements; then the number of slots as potential, doubled by each growth (C92) |
| C117 | CDRW/PropsAmort.lean | counted versions of the calls; potential |2 size - capacity|, at most the size, which a reallocation sets to zero |
| C118 | Mult/PropsTyped.lean | the loop with the width of the promoted type as a parameter equals the loop of C28 on the value modulo 2^64 |
| C119 | CDRW/PropsTime.lean | counted versions of the calls; the slots of all tables grow by two for each element moved, and C115 bounds them |
| C120 | Same/Props.lean | from the theorems of the four structures (C26, C32, C38, C46) |
| C121 | Same/Props.lean | all three are the number of equal elements before the position (C20, C31, C35) |
| C122 | Serial/Short.lean, Serial/PropsShort.lean | readers over a stream with an error state agree with the readers of the models when the stream ends good; C97 says the latter fail on a cut file |
| C123 | Mult/PropsInto.lean, Wave/PropsInto.lean, Serial/PropsInto.lean | the field table grows by the fields of the file; node numbers double at each level and leave the kept nodes; readers over a stream with an error state agree with the readers of the models |
| C124 | Trie/Order.lean, Trie/PropsOrder.lean | naturality in the items, invariant for tries whose items are their keys |
| C125 | Serial/PropsForged.lean | positions of the numbers in a file, exact condition per class, witnesses |
| C126 | Wave/BuildCost.lean, Wave/PropsBuildCost.lean, MBit/BuildCost.lean, MBit/PropsBuildCost.lean, Dac/BuildCost.lean, Dac/PropsBuildCost.lean | counting monad, sum of the sizes of the nodes |
| C127 | Mult/PropsRestricted.lean | the loops with the rules of C++17 for shifts of promoted types; low bits of a disjunction |
| C128 | IArr/PropsAssert.lean, CDRW/PropsAssert.lean, CDRW/PropsAssertVec.lean, Wave/PropsAssert.lean, FO/PropsAssert.lean, Mult/PropsAssert.lean, Samc/AssertBuild.lean, Samc/PropsAssert.lean: the functions with their assertions, an abort as an outcome of its own | from the invariants of C39, C46, C34 and C53; walk down the tree; a search of the oracle that ends starts from a free element; sorted keys give different labels at every node, so as many different places as edges |

## What is modelled and what is not

Modelled so far, function by function: bit_util.hpp (portable branches, POPCNT/BMI2 variants of
ctz, clz, sel; MMX and AVX2 branches of the swaps, `xor_map` and the 256 bit functions), basic.hpp readers and writers, bit_vector (BitVector, iterators, fill),
calc.hpp, SuccinctBitVector, FitVector and DacVector (with their iterators), MultipleVector, MultiBitVector, WaveletTree,
InitializableArray (both forms; not its iterators and debug print), Heap.hpp, sort.hpp,
BijectiveHash.hpp, PatternMatching.hpp (all searches), FactorOracle.hpp (builder and oracle),
graph_util.hpp (Trie: insert, traverse, dfs, bfs, size), SuffixArray.hpp (construction, LCP,
Read, Write; texts below 2^31 - 1 bytes, so that `int` counters do not overflow),
Samc.hpp (construction, accept, dictionary, Read, Write; the theorems ask for a polynomial size
condition that keeps all places inside the code type; asserts are not part of the model),
CHT.hpp (constructor, set_value_width, get, set, erase, reserve, `_resize` and the debug print;
sizes wrap at 64 bits; C44 asks for fewer than 2^55 calls and tables below 2^57 slots; the default
constructed member `arr_` of width 64, which is overwritten at once, counts as undefined only with
the flag `strict`; `set` calls itself through `_resize`, the model allows three levels and C44 shows
that they suffice without erasures, C89 that they suffice for all histories; C87 holds for any number of levels), CDRWArray.hpp (all; the table of width 64 is undefined: with the flag `strict` the
constructor is, without it only the use of that table).

Termination: functions in the model are total. Where a loop of the code may not end, the
model takes a number of steps (`fuel`) and has the outcome `stop` (FactorOracle `_find_base`).
Theorems hold for every number of steps; `C53_refuted` shows a text for which no number
suffices, and `C53_total` gives a condition on the number of letters under which the
construction ends (FO/Free and FO/Total: the free elements form one ring, the depth of the
suffix links bounds the number of external transitions, and each of them takes fewer
elements than there are letters). The modules FO/Wit0 to FO/Witness are generated by tools/fowit.py; they contain
the states of that run as literals, and each step is checked by the kernel.

Not modelled: the timing helpers, stream error states (a short read is a fault;
only C122 has the error bits, set by a short read, and what a short read leaves in memory), allocation failure, move-from states of standard containers,
the AVX512 branch of bit_util.hpp (it names functions that do not exist) and the alignment that the
AVX2 loads ask for, the iterators and the debug print of InitializableArray (they do not compile when
used).
