{"id": "C01", "title": "Bit counts of 8, 16 and 64 bit words", "statement": "popcnt8, popcnt16 and popcnt64 (and popcnt on uint8/uint16/uint64) return the number of 1 bits of their argument in the portable build.", "quantifier": "all 8, 16 and 64 bit words", "why_tests_cant": "There are 2^64 inputs; a test can only sample them.", "anchors": ["include/sim_ds/bit_util.hpp: popcnt8, popcnt16, popcnt64, popcnt, kLtCnt"]}
{"id": "C02", "title": "Bit count of 32 bit words", "statement": "popcnt32 (and popcnt on uint32) returns the number of 1 bits of its argument. (In the portable build this fails exactly for the words whose even nibbles are all 0xF or whose odd nibbles are all 0xF.)", "quantifier": "all 32 bit words", "why_tests_cant": "2^32 words and the wrong ones are a sparse set a random test misses.", "anchors": ["include/sim_ds/bit_util.hpp: popcnt32, popcnt"]}
{"id": "C03", "title": "Two and three bit pattern counts", "statement": "popcnt11, popcnt10 count the aligned 2-bit fields equal to 11 resp. 10, and popcnt111, popcnt110, popcnt101, popcnt100 count the aligned 3-bit fields (21 of them) equal to 111, 110, 101, 100.", "quantifier": "all 64 bit words", "why_tests_cant": "There are 2^64 inputs; a test can only sample them.", "anchors": ["include/sim_ds/bit_util.hpp: popcnt11, popcnt10, popcnt111, popcnt110, popcnt101, popcnt100"]}
{"id": "C04", "title": "Trailing zero count", "statement": "ctz returns the index of the least significant 1 bit, and the word width for zero, for 32 and 64 bit arguments, in every build variant.", "quantifier": "all 32 and 64 bit words", "why_tests_cant": "There are 2^64 inputs; a test can only sample them.", "anchors": ["include/sim_ds/bit_util.hpp: ctz"]}
{"id": "C05", "title": "Leading zero count of 64 bit words", "statement": "clz on a 64 bit word returns the number of 0 bits above the most significant 1 bit, and 64 for zero, in every build variant.", "quantifier": "all 64 bit words", "why_tests_cant": "There are 2^64 inputs; a test can only sample them.", "anchors": ["include/sim_ds/bit_util.hpp: clz(uint64_t)"]}
{"id": "C06", "title": "Leading zero count of 32 bit words", "statement": "clz on a 32 bit word returns the number of 0 bits above the most significant 1 bit, and 32 for zero. (The portable build returns 32 too much for every non-zero word.)", "quantifier": "all 32 bit words", "why_tests_cant": "The property is over all words and build variants.", "anchors": ["include/sim_ds/bit_util.hpp: clz(uint32_t)"]}
{"id": "C07", "title": "Select inside a word", "statement": "For every word x and every i between 1 and the number of 1 bits of x, sel(x, i) is the 1-based position of the i-th 1 bit. (The portable build inherits the popcnt32 fault and is wrong for some words; the BMI2 build is exact.)", "quantifier": "all 64 bit words and all i in 1..popcount", "why_tests_cant": "There are 2^64 inputs; a test can only sample them.", "anchors": ["include/sim_ds/bit_util.hpp: sel, kLtSel"]}
{"id": "C08", "title": "Bit swaps are index permutations", "statement": "swap_pi1, 2, 4, 8, 16 and 32 move the bit at index j to index j xor 1, 2, 4, 8, 16, 32; hence each is its own inverse and keeps the number of 1 bits.", "quantifier": "all 64 bit words and all bit indices", "why_tests_cant": "There are 2^64 inputs; a test can only sample them.", "anchors": ["include/sim_ds/bit_util.hpp: swap_pi1, swap_pi2, swap_pi4, swap_pi8, swap_pi16, swap_pi32"]}
{"id": "C09", "title": "Masks and field extraction", "statement": "WidthMask(w) for w < 64 has exactly the low w bits set, OffsetMask(o) exactly bit o, width_mask<w> also for w = 64; bextr(x, s, l) with s, l < 64 returns bits s..s+l-1 of x; cnt(x, w) counts the ones among the low w bits.", "quantifier": "all words, widths, offsets", "why_tests_cant": "There are 2^64 inputs; a test can only sample them.", "anchors": ["include/sim_ds/bit_util.hpp: WidthMask, OffsetMask, width_mask, bextr, cnt"]}
{"id": "C10", "title": "256 bit words: counts and zero test", "statement": "popcnt256 is the number of 1 bits, ctz256 the index of the lowest 1 bit (256 for zero), is_zero256 is true exactly for zero, set256 and copy256 write exactly the four words.", "quantifier": "all 256 bit words", "why_tests_cant": "2^256 inputs.", "anchors": ["include/sim_ds/bit_util256.hpp: popcnt256, ctz256, is_zero256, set256, copy256"]}
{"id": "C11", "title": "256 bit words: leading zeros", "statement": "clz256 is the number of zeros above the highest 1 bit, 256 for zero. (The code is wrong for every non-zero word.)", "quantifier": "all 256 bit words", "why_tests_cant": "2^256 inputs.", "anchors": ["include/sim_ds/bit_util256.hpp: clz256"]}
{"id": "C12", "title": "256 bit words: xor permutation", "statement": "xor_map(dst, src, mask) sets bit j of dst to bit (j xor mask) of src, so applying it twice with the same mask gives src back.", "quantifier": "all 256 bit words, all 8 bit masks, all bit indices", "why_tests_cant": "2^264 inputs.", "anchors": ["include/sim_ds/bit_util256.hpp: xor_map"]}
{"id": "C13", "title": "Number of units a value needs", "statement": "SizeFitsInUnits(v, u) returns the least k >= 1 with v < 2^(k u), and no shift by 64 or more is executed, whenever v < 2^(63/u*u); SizeFitsInBits and SizeFitsInBytes are the instances u = 1, 8.", "quantifier": "all values and unit widths", "why_tests_cant": "There are 2^64 inputs; a test can only sample them.", "anchors": ["include/sim_ds/calc.hpp: SizeFitsInUnits, SizeFitsInBits, SizeFitsInBytes"]}
{"id": "C14", "title": "Bit length histograms", "statement": "bit_length_frequencies counts for each k the elements of bit length k+1 (zero has length 1), cummulative_frequency_list gives at index i the number of elements of bit length greater than i, and SizeFitsAsList(v, sizes) is the least k >= 1 such that v < 2^(sizes[0]+...+sizes[k-1]).", "quantifier": "all lists of values; values below 2^63, for the cumulative list fewer than 2^31 of them (the counters are int)", "why_tests_cant": "Inputs of every length and content are in scope; a test fixes a few of them.", "anchors": ["include/sim_ds/calc.hpp: SizeFitsAsList, bit_length_frequencies, cummulative_frequency_list"]}
{"id": "C15", "title": "Layer widths chosen for a DAC", "statement": "split_positions_optimized_for_dac returns layer widths that are all positive, sum to the maximal bit length of the input and are at most max_levels many. (Every non-empty call also reads and writes one element out of bounds.)", "quantifier": "all non-empty lists of values, all cost functions; values below 2^63, fewer than 2^31 of them (the counters are int)", "why_tests_cant": "Inputs of every length and content are in scope; a test fixes a few of them.", "anchors": ["include/sim_ds/calc.hpp: split_positions_optimized_for_dac"]}
{"id": "C16", "title": "BitVector behaves like a list of booleans", "statement": "After any sequence of construction, assign, resize, reserve, push_back, range fill, element writes and element copies, size() and every element read agree with the same operations on a plain list of booleans; at(i) throws exactly when i >= size().", "quantifier": "all histories of operations and all indices", "why_tests_cant": "Operation histories are unbounded; a test only runs a few of them.", "anchors": ["include/sim_ds/BitVector.hpp: BitVector", "include/sim_ds/BitReference.hpp: BitReference"]}
{"id": "C17", "title": "Range fill of bits", "statement": "Filling a bit range [b, e) with a value sets exactly those bits and changes no other bit of the underlying words, for all begin and end offsets.", "quantifier": "all word arrays, all ranges, both values", "why_tests_cant": "Operation histories are unbounded; a test only runs a few of them.", "anchors": ["include/sim_ds/BitVector.hpp: _fill"]}
{"id": "C18", "title": "Bit iterator arithmetic", "statement": "Advancing a bit iterator by any signed distance d moves its absolute position by exactly d; ++, --, += and -= agree; the distance between two iterators is the difference of positions; comparisons follow positions.", "quantifier": "all positions and all signed distances", "why_tests_cant": "Unbounded integers and sign/wrap cases.", "anchors": ["include/sim_ds/BitReference.hpp: BitIterator"]}
{"id": "C19", "title": "BitVector serialisation", "statement": "Reading back what Write produced gives a BitVector with the same size and elements and consumes exactly the bytes written, whatever follows in the stream; size_in_bytes() is the number of bytes written.", "quantifier": "all reachable BitVectors and all trailing bytes; sizes below 2^64", "why_tests_cant": "Operation histories are unbounded; a test only runs a few of them.", "anchors": ["include/sim_ds/BitVector.hpp: Read, Write, size_in_bytes"]}
{"id": "C20", "title": "Rank counts the ones before a position", "statement": "For a SuccinctBitVector over any bit sequence, rank_1(i) (= rank(i)) is the number of 1 bits before position i and rank_0(i) the number of 0 bits, for every i < size(); rank(size()) is also right but reads one word out of bounds when size() is a positive multiple of 64.", "quantifier": "all bit sequences, all positions", "why_tests_cant": "Inputs of every length and content are in scope; a test fixes a few of them.", "anchors": ["include/sim_ds/SuccinctBitVector.hpp: SuccinctBitVector, rank_1, rank_0"]}
{"id": "C21", "title": "Select finds the i-th one", "statement": "For every i smaller than the number of 1 bits, select(i) is the position of the i-th (0-based) 1 bit. (Holds for the BMI2 build when a block boundary counts past each multiple of 512 up to i; the last tip access is out of bounds otherwise, and the portable in-word select is wrong on some words.)", "quantifier": "all bit sequences, all i below the number of ones; fewer than 2^41 bits (the tips have 32 bits)", "why_tests_cant": "Inputs of every length and content are in scope; a test fixes a few of them.", "anchors": ["include/sim_ds/SuccinctBitVector.hpp: select"]}
{"id": "C22", "title": "Rank and select are inverse", "statement": "rank(select(i)) = i and, for a position p holding a 1 bit, select(rank(p)) = p, whenever select is within its safe domain.", "quantifier": "all bit sequences and positions; fewer than 2^41 bits (the tips have 32 bits)", "why_tests_cant": "Inputs of every length and content are in scope; a test fixes a few of them.", "anchors": ["include/sim_ds/SuccinctBitVector.hpp: rank_1, select"]}
{"id": "C23", "title": "SuccinctBitVector serialisation", "statement": "Reading back a written SuccinctBitVector gives the same bits and the same rank and select answers and consumes exactly the written bytes.", "quantifier": "all bit sequences; fewer than 2^41 bits (the tips have 32 bits)", "why_tests_cant": "Inputs of every length and content are in scope; a test fixes a few of them.", "anchors": ["include/sim_ds/SuccinctBitVector.hpp: Read, Write, size_in_bytes"]}
{"id": "C24", "title": "FitVector element write and read", "statement": "For element width 1..63, writing a value below 2^width at index i makes element i read as that value and leaves every other element unchanged, including elements straddling two words. A wider value stores its low bits there, and its other bits are or-ed into the elements behind it up to the end of the word in which the element ends.", "quantifier": "all packed contents, widths, indices, values", "why_tests_cant": "Operation histories are unbounded; a test only runs a few of them.", "anchors": ["include/sim_ds/BitsReference.hpp: BitsReference, BitsConstReference", "include/sim_ds/FitVector.hpp: operator[]"]}
{"id": "C25", "title": "FitVector behaves like a list of fixed width integers", "statement": "After any sequence of construction, push_back, element writes, reserve, resize with a fill value, pop_back-style shrinking and assign of values below 2^width, size() and all elements agree with a plain list; plain resize(n) growth yields zeros unless the vector was shrunk before.", "quantifier": "all histories of operations", "why_tests_cant": "Operation histories are unbounded; a test only runs a few of them.", "anchors": ["include/sim_ds/FitVector.hpp: FitVector"]}
{"id": "C26", "title": "FitVector from a vector", "statement": "A FitVector built from a vector of values below 2^63 has the least sufficient width (at least 1) and returns every value unchanged. Of a vector of signed values every element comes back modulo 2^width, where the width is that of the greatest value, which must not be negative.", "quantifier": "all lists of values below 2^63", "why_tests_cant": "Inputs of every length and content are in scope; a test fixes a few of them.", "anchors": ["include/sim_ds/FitVector.hpp: FitVector(const std::vector<T>&)", "include/sim_ds/calc.hpp: SizeFitsInBits"]}
{"id": "C27", "title": "FitVector serialisation", "statement": "Constructing a FitVector from a stream written by Write gives the same width, size and elements and consumes exactly the written bytes.", "quantifier": "all FitVectors of width below 64, all trailing bytes; fewer than 2^64 bits in total", "why_tests_cant": "Operation histories are unbounded; a test only runs a few of them.", "anchors": ["include/sim_ds/FitVector.hpp: Write, FitVector(std::istream&)"]}
{"id": "C28", "title": "MultipleVector fields are independent", "statement": "For a record layout of byte widths 1..8, setting field f of record i makes get return the value (modulo the field width) and leaves all other fields and records unchanged; push_back and resize keep the existing records.", "quantifier": "all layouts, contents, indices, fields, values", "why_tests_cant": "Operation histories are unbounded; a test only runs a few of them.", "anchors": ["include/sim_ds/MultipleVector.hpp: MultipleVector, BlockReference"]}
{"id": "C29", "title": "MultipleVector store and load", "statement": "Loading a stored MultipleVector into a freshly constructed object gives the same layout and records. (Loading into an object that already has a layout appends to it.)", "quantifier": "all layouts and contents; fewer than 2^64 bytes", "why_tests_cant": "Operation histories are unbounded; a test only runs a few of them.", "anchors": ["include/sim_ds/MultipleVector.hpp: StoreTo, LoadFrom"]}
{"id": "C30", "title": "MultiBitVector element write and read", "statement": "For unit sizes 1, 2, 3, setting element i to a unit value makes element i read as that value and leaves all other elements unchanged. Without assertions, a value that is too wide is stored with its low bits, and the others are or-ed into the elements behind it in the same word.", "quantifier": "all contents, indices, values, unit sizes", "why_tests_cant": "Operation histories are unbounded; a test only runs a few of them.", "anchors": ["include/sim_ds/MultiBitVector.hpp: set, operator[]"]}
{"id": "C31", "title": "MultiBitVector rank", "statement": "After build, for every index i holding a non-zero value v, rank(i) is the number of earlier indices holding v.", "quantifier": "all contents of every length, unit sizes 1, 2, 3", "why_tests_cant": "Inputs of every length and content are in scope; a test fixes a few of them.", "anchors": ["include/sim_ds/MultiBitVector.hpp: build, rank, popcnt_"]}
{"id": "C32", "title": "DacVector returns the stored values", "statement": "A DacVector built from any non-empty list of values below 2^63 (with layer widths 1..63 that cover the longest value and start below its bit length) has the same size and returns every element unchanged. A value of 2^63 or more, or a negative one, is outside of the domain: the construction is undefined.", "quantifier": "all non-empty lists of values, all such layer width lists; fewer than 2^31 values (the counters are int)", "why_tests_cant": "Inputs of every length and content are in scope; a test fixes a few of them.", "anchors": ["include/sim_ds/DacVector.hpp: DacVector, operator[]", "include/sim_ds/calc.hpp: split_positions_optimized_for_dac"]}
{"id": "C33", "title": "DacVector depth and serialisation", "statement": "The depth of element i is the first layer at which its value fits into the bits of the layers so far. Reading back a written DacVector built from a non-empty list gives the same size and elements and consumes exactly the written bytes.", "quantifier": "all non-empty lists of values, all trailing bytes; values below 2^63, fewer than 2^31 of them (the counters are int)", "why_tests_cant": "Inputs of every length and content are in scope; a test fixes a few of them.", "anchors": ["include/sim_ds/DacVector.hpp: Read, Write, depth"]}
{"id": "C34", "title": "WaveletTree access", "statement": "A WaveletTree built from any non-empty list of values below 256 has the same size and operator[] returns every element. Of a vector of signed values (such as char) every element comes back modulo 2^height, where the height is the width of the greatest value, which must not be negative.", "quantifier": "all non-empty lists over 0..255 and all indices; and for values below 2^30 their low eight bits", "why_tests_cant": "Inputs of every length and content are in scope; a test fixes a few of them.", "anchors": ["include/sim_ds/WaveletTree.hpp: WaveletTree, operator[]"]}
{"id": "C35", "title": "WaveletTree rank of a position", "statement": "rank(i) is the number of earlier positions holding the same value as position i, and AccessAndRank(i) returns the value together with that number. For signed values rank(i) counts the earlier values that agree with the one at i modulo 2^height.", "quantifier": "all non-empty lists and all indices; values below 256, and below 2^30 for the rank alone", "why_tests_cant": "Inputs of every length and content are in scope; a test fixes a few of them.", "anchors": ["include/sim_ds/WaveletTree.hpp: rank(size_t), AccessAndRank"]}
{"id": "C36", "title": "WaveletTree rank of a character", "statement": "rank(c, i) is the number of positions before i holding c, for every c below 2^height (release build).", "quantifier": "all non-empty lists, all characters below 2^height, all i; values below 2^30", "why_tests_cant": "Inputs of every length and content are in scope; a test fixes a few of them.", "anchors": ["include/sim_ds/WaveletTree.hpp: rank(uint8_t, size_t)"]}
{"id": "C37", "title": "WaveletTree serialisation", "statement": "Reading a written WaveletTree into a tree with the same number of nodes gives the same answers.", "quantifier": "all non-empty lists; values below 2^30, fewer than 2^41 of them", "why_tests_cant": "Inputs of every length and content are in scope; a test fixes a few of them.", "anchors": ["include/sim_ds/WaveletTree.hpp: Read, Write"]}
{"id": "C38", "title": "Constant time initialisable array, folklore variant", "statement": "After any history of construction, fill/init and element writes, every element reads as the last value written to it after the last initialisation, or else the initialisation value.", "quantifier": "all histories, all sizes, all indices", "why_tests_cant": "Operation histories are unbounded; a test only runs a few of them.", "anchors": ["include/sim_ds/InitializableArray.hpp: InitializableArrayFolklore"]}
{"id": "C39", "title": "Constant time initialisable array, in-place variant", "statement": "The in-place initialisable array, started from arbitrary memory garbage, reads at every index as the last value written after the last fill, or else the fill value, for any history of fill and element writes, and never accesses memory outside its array.", "quantifier": "all histories, all sizes, all initial memory contents", "why_tests_cant": "Operation histories are unbounded; a test only runs a few of them. Initial memory contents are arbitrary too.", "anchors": ["include/sim_ds/InitializableArray.hpp: InitializableArray"]}
{"id": "C40", "title": "Heap built from a list pops in order", "statement": "A heap built from any list shows the least (MinHeap) or greatest (MaxHeap) element at front, and popping until empty yields all elements in sorted order with multiplicity. The values are those of id_type: integers of a signed type are ordered by their values modulo 2^64, so that negative ones count as the greatest.", "quantifier": "all lists of values", "why_tests_cant": "Inputs of every length and content are in scope; a test fixes a few of them.", "anchors": ["include/sim_ds/Heap.hpp: Heap, Build, Heapify, pop, front"]}
{"id": "C41", "title": "Heap push", "statement": "After any history of pushes and pops, front is the extremum of the contents. (True for pushes only onto a built or empty heap; false in general once pops follow pushes.)", "quantifier": "all histories of push and pop", "why_tests_cant": "Operation histories are unbounded; a test only runs a few of them.", "anchors": ["include/sim_ds/Heap.hpp: push, pop"]}
{"id": "C42", "title": "HeapSort sorts", "statement": "HeapSort rearranges any range into non-descending order with respect to any strict weak order and is a permutation of the input.", "quantifier": "all lists, all strict weak orders", "why_tests_cant": "Inputs of every length and content are in scope; a test fixes a few of them.", "anchors": ["include/sim_ds/sort.hpp: HeapSort, HeapSorter"]}
{"id": "C43", "title": "SplitMixHash is a bijection on w-bit keys", "statement": "For widths 1..63 hash and ihash map [0, 2^w) into itself and are mutually inverse, so distinct keys never collide.", "quantifier": "all widths 1..63 and all keys below 2^w", "why_tests_cant": "There are 2^64 inputs; a test can only sample them.", "anchors": ["include/sim_ds/BijectiveHash.hpp: Xorshift, MultiplyHash, SplitMixHash, PRIME_TABLE"]}
{"id": "C44", "title": "CHT behaves like a map under set and get", "statement": "Starting from an empty table, after any history of set (with automatic growth) and reserve, get(k) reports presence exactly for the keys set and returns the last value set, and size() is the number of distinct keys.", "quantifier": "all histories of set/reserve, all keys below 2^key_bits, all values below 2^value_bits", "why_tests_cant": "Operation histories are unbounded; a test only runs a few of them.", "anchors": ["include/sim_ds/CHT.hpp: CHT, set, get, reserve, size"]}
{"id": "C45", "title": "CHT erase", "statement": "After erase(k), get(k) reports absence and all other keys are unaffected. (False: erase computes the quotient by division, get ignores the deleted mark.)", "quantifier": "all histories", "why_tests_cant": "Operation histories are unbounded; a test only runs a few of them.", "anchors": ["include/sim_ds/CHT.hpp: erase, get"]}
{"id": "C46", "title": "CDRWArray returns what was written", "statement": "A CDRWArray returns for each index the last value written, zero if none. (True when no index is rewritten with a value of another bit length; false in general.)", "quantifier": "all histories of writes; values below 2^63, at most 2^62 elements, at most 2^55 writes", "why_tests_cant": "Operation histories are unbounded; a test only runs a few of them.", "anchors": ["include/sim_ds/CDRWArray.hpp: CDRWArray, get, set"]}
{"id": "C47", "title": "Plain value and vector serialisation", "statement": "read_val, read_vec and read_string give back what write_val, write_vec and write_string wrote and consume exactly those bytes; size_vec is the number of bytes written.", "quantifier": "all values, vectors, strings and trailing bytes", "why_tests_cant": "Inputs of every length and content are in scope; a test fixes a few of them.", "anchors": ["include/sim_ds/basic.hpp: read_val, write_val, read_vec, write_vec, read_string, write_string, size_vec"]}
{"id": "C48", "title": "Simple search finds exactly the occurrences", "statement": "PatternMatchSimple returns, in increasing order, exactly the positions where the key occurs in the text, for every key (also empty) and text.", "quantifier": "all keys and texts", "why_tests_cant": "Inputs of every length and content are in scope; a test fixes a few of them.", "anchors": ["include/sim_ds/string_util/PatternMatching.hpp: Simple, PatternMatchSimple"]}
{"id": "C49", "title": "KMP search finds exactly the occurrences", "statement": "PatternMatchKMP returns exactly the positions where the non-empty key occurs, in increasing order, provided the byte stored after the key does not occur in the text (true for std::string keys and NUL-free texts).", "quantifier": "all non-empty keys and texts", "why_tests_cant": "Inputs of every length and content are in scope; a test fixes a few of them.", "anchors": ["include/sim_ds/string_util/PatternMatching.hpp: Kmp, PatternMatchKMP"]}
{"id": "C50", "title": "BM search finds exactly the occurrences", "statement": "PatternMatchBM returns exactly the positions where the non-empty key occurs, in increasing order, without out-of-bounds access, when all bytes are below 0x80 (otherwise it may access an array out of range, but a call that returns has found exactly the occurrences).", "quantifier": "all non-empty keys and texts of bytes below 0x80; the last part: all non-empty keys and all texts of any bytes", "why_tests_cant": "Inputs of every length and content are in scope; a test fixes a few of them.", "anchors": ["include/sim_ds/string_util/PatternMatching.hpp: Bm, PatternMatchBM"]}
{"id": "C51", "title": "Sunday quick search finds exactly the occurrences", "statement": "PatternMatchSundayQS returns exactly the positions where the non-empty key occurs, in increasing order, without out-of-bounds access, when all bytes are below 0x80 and the text is at least as long as the key (otherwise it may access an array out of range, but a call that returns has found exactly the occurrences).", "quantifier": "all non-empty keys and not shorter texts of bytes below 0x80; the last part: all non-empty keys and all texts of any bytes", "why_tests_cant": "Inputs of every length and content are in scope; a test fixes a few of them.", "anchors": ["include/sim_ds/string_util/PatternMatching.hpp: Sunday, SundayQS, PatternMatchSundayQS"]}
{"id": "C52", "title": "Sunday maximal shift search finds exactly the occurrences", "statement": "PatternMatchSundayMS returns exactly the positions where the non-empty key occurs, in increasing order, without out-of-bounds access, when all bytes are below 0x80 and the text is at least as long as the key (otherwise it may access an array out of range, but a call that returns has found exactly the occurrences).", "quantifier": "all non-empty keys and not shorter texts of bytes below 0x80; the last part: all non-empty keys and all texts of any bytes", "why_tests_cant": "Inputs of every length and content are in scope; a test fixes a few of them.", "anchors": ["include/sim_ds/string_util/PatternMatching.hpp: Sunday, SundayMS, PatternMatchSundayMS"]}
{"id": "C53", "title": "Factor oracle accepts every factor", "statement": "A FactorOracle built from a NUL-free text accepts every factor (substring) of the text.", "quantifier": "all NUL-free texts, all factors", "why_tests_cant": "Inputs of every length and content are in scope; a test fixes a few of them.", "anchors": ["include/sim_ds/string_util/FactorOracle.hpp: FactorOracleBaseCTAFOBuilder, FactorOracle, image, accept"]}
{"id": "C54", "title": "Factor oracle accepts no other word of full length", "statement": "A FactorOracle built from a text of length m accepts no word longer than m and, among the words of length m, only the text itself.", "quantifier": "all NUL-free texts, all words", "why_tests_cant": "Inputs of every length and content are in scope; a test fixes a few of them.", "anchors": ["include/sim_ds/string_util/FactorOracle.hpp: FactorOracle, image, accept"]}
{"id": "C55", "title": "BOM search finds exactly the occurrences", "statement": "PatternMatchBOM returns exactly the positions where the non-empty NUL-free key occurs, in increasing order (up to the out-of-bounds byte read in the final oracle state).", "quantifier": "all non-empty NUL-free keys and all texts", "why_tests_cant": "Inputs of every length and content are in scope; a test fixes a few of them.", "anchors": ["include/sim_ds/string_util/PatternMatching.hpp: Bom, PatternMatchBOM", "include/sim_ds/string_util/FactorOracle.hpp: image"]}
{"id": "C56", "title": "TurboBOM search finds exactly the occurrences", "statement": "PatternMatchTurboBOM returns exactly the positions where the non-empty NUL-free key occurs, in increasing order.", "quantifier": "all non-empty NUL-free keys and all texts", "why_tests_cant": "Inputs of every length and content are in scope; a test fixes a few of them.", "anchors": ["include/sim_ds/string_util/PatternMatching.hpp: TurboBom, PatternMatchTurboBOM"]}
{"id": "C57", "title": "Trie behaves like a map on strings", "statement": "After any sequence of inserts, traverse(key) yields the last item inserted under key, and null for keys never inserted. With a SizeType of w bits this holds, for keys without NUL, exactly as long as the keys with their terminators have at most 2^w different prefixes; with more of them some inserted key is not found.", "quantifier": "all histories of inserts, all keys (any bytes); for size_t at most 2^64 different prefixes of the keys", "why_tests_cant": "Operation histories are unbounded; a test only runs a few of them.", "anchors": ["include/sim_ds/string_util/graph_util.hpp: Trie, insert, traverse"]}
{"id": "C58", "title": "Trie traversals visit every node once", "statement": "dfs and bfs call the action exactly once per node, with the depth of the node; dfs order is pre-order by increasing labels, bfs depths never decrease.", "quantifier": "all tries reachable by inserts; at most 2^w different prefixes of the keys, where w is the number of bits of SizeType", "why_tests_cant": "Operation histories are unbounded; a test only runs a few of them.", "anchors": ["include/sim_ds/string_util/graph_util.hpp: Trie, dfs, bfs"]}
{"id": "C59", "title": "Samc accepts exactly the stored keys", "statement": "A Samc built from a non-empty list of NUL-free strings, in any order and with repetitions, whose places fit the code type, accepts a NUL-free string exactly when it is in the list; bytes 0xFF (the mark of empty slots) make no difference.", "quantifier": "all non-empty lists of NUL-free keys within the size condition, all NUL-free query strings, all code types, both implementations of the slot search; size condition: (L+2)(1+(L+1)n^2) < 2^64 for n keys of length up to L, and the places fit the code type", "why_tests_cant": "Inputs of every length and content are in scope; a test fixes a few of them.", "anchors": ["include/sim_ds/string_util/Samc.hpp: Samc, accept, SamcImpl"]}
{"id": "C60", "title": "SamcDict numbers the keys", "statement": "SamcDict::lookup maps the different stored keys one-to-one onto 0..n-1 and reports kSearchError for all other NUL-free strings.", "quantifier": "all non-empty lists of NUL-free keys within the size condition, all NUL-free query strings; size condition as for Samc", "why_tests_cant": "Inputs of every length and content are in scope; a test fixes a few of them.", "anchors": ["include/sim_ds/string_util/Samc.hpp: SamcDict, lookup"]}
{"id": "C61", "title": "SamcDict access inverts lookup", "statement": "access(lookup(k)) = k for every stored key k. (False in the portable build, and for ids whose select reads past the last tip.)", "quantifier": "all non-empty lists of NUL-free keys within the size condition; size condition as for Samc, fewer than 2^41 places (the tips of the succinct vector have 32 bits)", "why_tests_cant": "Inputs of every length and content are in scope; a test fixes a few of them.", "anchors": ["include/sim_ds/string_util/Samc.hpp: SamcDict, access"]}
{"id": "C62", "title": "Suffix array is sorted", "statement": "The suffix array of a non-empty ASCII NUL-free string lists all suffix positions in lexicographic order. (False: the recursion is skipped when all LMS substrings differ, e.g. for \"bacbab\".)", "quantifier": "all non-empty strings; fewer than 2^31 - 1 characters (the indices are int)", "why_tests_cant": "Inputs of every length and content are in scope; a test fixes a few of them.", "anchors": ["include/sim_ds/string_util/SuffixArray.hpp: SuffixArray, BuildSA_, Sais_, Induce_"]}
{"id": "C63", "title": "LCP array", "statement": "Given a correct suffix array, the LCP array holds at each rank the length of the longest common prefix of that suffix and the next one in order, and 0 at the last rank.", "quantifier": "all non-empty strings with a correct suffix array; fewer than 2^31 - 1 characters (the indices are int)", "why_tests_cant": "Inputs of every length and content are in scope; a test fixes a few of them.", "anchors": ["include/sim_ds/string_util/SuffixArray.hpp: BuildLCP_, CompareLCP_"]}
{"id": "C64", "title": "SuffixArray serialisation", "statement": "Reading back a written SuffixArray gives the same text, suffix array and LCP array and consumes exactly the bytes written.", "quantifier": "all suffix array objects; fewer than 2^31 - 1 characters (the indices are int)", "why_tests_cant": "Inputs of every length and content are in scope; a test fixes a few of them.", "anchors": ["include/sim_ds/string_util/SuffixArray.hpp: Read, Write"]}
{"id": "C65", "title": "MultiBitVector serialisation", "statement": "Reading back a written MultiBitVector gives the same elements and ranks, consumes exactly the bytes written, and size_in_bytes() is their number; the padding bytes of the rank records do not matter.", "quantifier": "all MultiBitVectors reachable by set and build, widths 1..3", "why_tests_cant": "Operation histories are unbounded; a test only runs a few of them.", "anchors": ["include/sim_ds/MultiBitVector.hpp: Read, Write, size_in_bytes"]}
{"id": "C66", "title": "Trie size", "statement": "After any sequence of inserts, size() is the number of distinct prefixes (the empty one included) of the inserted keys with their terminator appended.", "quantifier": "all histories of inserts, all keys (any bytes); at most 2^w different prefixes of the keys, where w is the number of bits of SizeType", "why_tests_cant": "Operation histories are unbounded; a test only runs a few of them.", "anchors": ["include/sim_ds/string_util/graph_util.hpp: Trie, insert, size"]}
{"id": "C67", "title": "Samc and SamcDict serialisation", "statement": "Reading back a written Samc or SamcDict gives an equal object and consumes exactly the bytes written, whose number is size_in_bytes().", "quantifier": "all objects built from non-empty lists of NUL-free keys within the size condition, all code types; size condition as for Samc, for the dictionary fewer than 2^41 places", "why_tests_cant": "Inputs of every length and content are in scope; a test fixes a few of them.", "anchors": ["include/sim_ds/string_util/Samc.hpp: Read, Write, size_in_bytes"]}
{"id": "C68", "title": "CDRWVector is a vector", "statement": "A CDRWVector behaves as a vector of 64 bit words under push_back, pop_back, set, resize, reserve, shrink_to_fit and clear. (True for vectors constructed non-empty when no place, also of an element given up, changes its bit length unless it is zero, no resize grows over elements given up that are not zero, and no empty vector is shrunk; false in general: the first push_back on an empty vector writes out of range, elements given up come back, and the fault of CDRWArray applies.)", "quantifier": "all histories of calls", "why_tests_cant": "Operation histories are unbounded; a test only runs a few of them.", "anchors": ["include/sim_ds/CDRWArray.hpp: CDRWVector, push_back, resize, reserve, shrink_to_fit, _allocate"]}
{"id": "C69", "title": "FitVector iterators", "statement": "For a FitVector v, begin() moved by k dereferences to element k, end() is begin() moved by size(), and moving back undoes moving forward. (False: the iterators count in bits, so a move by k is a move by k bits; true for width 1 and in the count of bits.)", "quantifier": "all widths, all vectors, all moves", "why_tests_cant": "Inputs of every length and content are in scope; a test fixes a few of them.", "anchors": ["include/sim_ds/FitVector.hpp: begin, end", "include/sim_ds/BitsReference.hpp: BitsIterator, BitsReference, BitsConstReference"]}
{"id": "C70", "title": "Vector instruction branches agree with the portable ones", "statement": "The MMX branches of swap_pi8 and swap_pi16 and the AVX2 branches of xor_map, is_zero_256 and set_256 give the same results as the portable branches.", "quantifier": "all operand values", "why_tests_cant": "The branch is chosen when compiling, one test run covers one branch, and the operands have 64 or 256 bits.", "anchors": ["include/sim_ds/bit_util.hpp: swap_pi8, swap_pi16", "include/sim_ds/bit_util256.hpp: xor_map, is_zero256, set256_epi1, copy256_epi64"]}
{"id": "C71", "title": "DacVector iterators", "statement": "A loop from begin() to end() over a DacVector visits exactly its elements in order, a loop backwards visits them in reverse, jumps and differences count elements, front() and back() are the first and the last element.", "quantifier": "all lists of values, all positions; values below 2^63, fewer than 2^31 of them (the counters are int)", "why_tests_cant": "Inputs of every length and content are in scope; a test fixes a few of them.", "anchors": ["include/sim_ds/DacVector.hpp: IndexConstIterator, begin, end, front, back"]}
{"id": "C72", "title": "KMP needs linear time", "statement": "The KMP search compares at most 2 letters per letter of the text and its constructor at most 3 per letter of the pattern.", "quantifier": "all patterns and texts", "why_tests_cant": "A test measures single inputs; the bound is about every text and is reached only by special ones.", "anchors": ["include/sim_ds/string_util/PatternMatching.hpp: KMP"]}
{"id": "C73", "title": "LCP construction needs linear time", "statement": "The constructor of SuffixArray compares at most 4n letters to build the LCP array of a text of n letters.", "quantifier": "all non-empty texts of bytes 1..127 below 2^31 - 1 letters", "why_tests_cant": "A test measures single inputs; the bound is about every text.", "anchors": ["include/sim_ds/string_util/SuffixArray.hpp: BuildLCP_, CompareLCP_"]}
{"id": "C74", "title": "Depth and size of the SA-IS recursion", "statement": "For a text of n letters the constructor of SuffixArray calls Sais_ at most log2(n + 1) + 1 deep, and the texts of all the calls together have less than 2(n + 1) entries, so that the stack and the memory in use stay bounded.", "quantifier": "all non-empty texts of bytes 1..127 below 2^31 - 1 letters", "why_tests_cant": "A test measures single inputs; the bound is about every text.", "anchors": ["include/sim_ds/string_util/SuffixArray.hpp: Sais_, FindLMSs_"]}
{"id": "C75", "title": "The split for DacVector takes the least space", "statement": "The widths computed by split_positions_optimized_for_dac need no more bits, by the estimate of calc.hpp for the rank structures, than any other widths with the same sum, and the DacVector built with them is larger by at most 64 bytes per layer and 16 bytes than one with any other widths. (Only when the result has fewer than max_levels entries or max_levels >= 63; false when levels have to be removed.)", "quantifier": "all lists of values below 2^63, all alternative widths; fewer than 2^31 values (the counters are int)", "why_tests_cant": "Inputs of every length and content are in scope; a test fixes a few of them.", "anchors": ["include/sim_ds/calc.hpp: split_positions_optimized_for_dac, additional_bit_size_of_rank", "include/sim_ds/DacVector.hpp: DacVector, size_in_bytes"]}
{"id": "C76", "title": "Space of SuccinctBitVector", "statement": "A SuccinctBitVector of n bits takes at most 5/4 n + 384 bits without select and 21/16 n + 512 bits with select; size_in_bytes() is the exact number, a function of n and the number of ones.", "quantifier": "all bit vectors below 2^41 bits", "why_tests_cant": "Inputs of every length and content are in scope; a test fixes a few of them.", "anchors": ["include/sim_ds/SuccinctBitVector.hpp: SuccinctBitVector(const BitVector&), size_in_bytes"]}
{"id": "C77", "title": "Space of DacVector", "statement": "size_in_bytes() of a DacVector is, in bits, at least the estimate made by calc.hpp for its widths and at most 512 bits per layer and 128 bits more.", "quantifier": "all non-empty lists of values below 2^63, all widths the constructor accepts; fewer than 2^31 values (the counters are int)", "why_tests_cant": "Inputs of every length and content are in scope; a test fixes a few of them.", "anchors": ["include/sim_ds/DacVector.hpp: DacVector, size_in_bytes", "include/sim_ds/calc.hpp: additional_bit_size_of_rank"]}
{"id": "C78", "title": "Accessors of SuffixArray", "statement": "suffix(i, k) is the substring of the constructor's argument from letter i of length k or to the end, suffix(i) the rest from letter i, both throw for i behind the end, char_at(i) is letter i. When the suffix array is correct, the suffixes at neighbouring ranks are in order, agree in exactly as many letters as the LCP array says and differ in the next. WriteSA and WriteLCP write what the stream constructor of FitVector reads.", "quantifier": "all texts, positions and lengths; fewer than 2^31 - 1 characters where the suffix array is constructed", "why_tests_cant": "Inputs of every length and content are in scope; a test fixes a few of them.", "anchors": ["include/sim_ds/string_util/SuffixArray.hpp: suffix, char_at, WriteSA, WriteLCP"]}
{"id": "C79", "title": "Comparisons of Heap and HeapSort", "statement": "HeapSort of n elements calls the comparator at most 2 n log2 n + 2 n times, the constructor of Heap from n elements at most 2 n times, push and pop that leave n elements at most 2 log2 n times.", "quantifier": "all lists, all comparators", "why_tests_cant": "A test measures single inputs; the bound is about every input.", "anchors": ["include/sim_ds/Heap.hpp: Heapify, Build, push, pop", "include/sim_ds/sort.hpp: HeapSort"]}
{"id": "C80", "title": "Size of the factor oracle", "statement": "A finished FactorOracle of m letters has at most m - 1 transitions from a state below m to another state than the next one, and at most 2 m - 1 transitions in all.", "quantifier": "all non-empty NUL-free texts for which the construction finishes", "why_tests_cant": "A test counts the transitions of single oracles; the bound is about every text.", "anchors": ["include/sim_ds/string_util/FactorOracle.hpp: FactorOracleBaseCTAFOBuilder, FactorOracle::image"]}
{"id": "C81", "title": "Space of WaveletTree", "statement": "A WaveletTree over n values, the largest of which needs h bits, takes by size_in_bytes() at least h n and at most 5/4 h n + 384 (2^h - 1) + 192 bits.", "quantifier": "all non-empty lists of values below 2^30 with less than 2^41 elements", "why_tests_cant": "Inputs of every length and content are in scope; a test fixes a few of them.", "anchors": ["include/sim_ds/WaveletTree.hpp: WaveletTree, size_in_bytes"]}
{"id": "C82", "title": "WaveletTree::node_diff counts nodes", "statement": "node_diff(node, diff) for a node number >= 1 is the number of nodes on the level of the node and the diff - 1 levels above it; for a diff larger than the number of those levels it shifts by more than 63 (undefined).", "quantifier": "all nodes below 2^63, all diff", "why_tests_cant": "Inputs of every length and content are in scope; a test fixes a few of them.", "anchors": ["include/sim_ds/WaveletTree.hpp: node_diff"]}
{"id": "C83", "title": "ShowAsBinary writes the bits of the value", "statement": "ShowAsBinary(value, size) writes size groups of eight binary digits, each followed by a space, then a line end; the digits read as a binary number are the value modulo 2^(8 size). With the default size an unsigned value reads back unchanged. A size beyond the width of the promoted type is undefined.", "quantifier": "all values of signed and unsigned types of 8 to 64 bits, all sizes", "why_tests_cant": "Inputs of every length and content are in scope; a test fixes a few of them.", "anchors": ["include/sim_ds/log.hpp: ShowAsBinary"]}
{"id": "C84", "title": "Report of the suffix array construction", "statement": "The numbers that the constructor of SuffixArray prints are those of the LCP array: the number of elements, the largest value, the sum of which the average is computed (without overflow), a median, and for every number of bits the number of values of that length. When the suffix array is correct, the largest value is the length of the longest substring that occurs at two places of the text.", "quantifier": "all non-empty texts of bytes 1..127 below 2^31 - 1 letters", "why_tests_cant": "Inputs of every length and content are in scope; a test fixes a few of them.", "anchors": ["include/sim_ds/string_util/SuffixArray.hpp: BuildLCP_"]}
{"id": "C85", "title": "DacVector::ShowStatus", "statement": "ShowStatus prints the number of elements, size_in_bytes(), the parts of that size in the paths and in the layers (as int), the number of layers and the width of each of them.", "quantifier": "all non-empty lists of values below 2^63 with less than 2^31 elements, all unit lengths that cover them", "why_tests_cant": "Inputs of every length and content are in scope; a test fixes a few of them.", "anchors": ["include/sim_ds/DacVector.hpp: ShowStatus"]}
{"id": "C86", "title": "Samc: a shift computed from a conflict skips nothing", "statement": "shifts_of_conflicts_(fields, mask, fields & mask) for a mask that meets the fields is at least 1, and the mask moved up by less than it still meets the fields; without a conflict the call is undefined.", "quantifier": "all 64 bit words", "why_tests_cant": "There are 2^128 pairs of words.", "anchors": ["include/sim_ds/string_util/Samc.hpp: shifts_of_conflicts_"]}
{"id": "C87", "title": "CHT never reports a wrong value", "statement": "After any history of set, erase and reserve that returns, get(k) returns, and if it reports a value this is the last value k was set to; a key that was never set is never reported; right after set(k, v) get(k) reports v.", "quantifier": "all histories with any number of erasures, all widths", "why_tests_cant": "Operation histories are unbounded; a test only runs a few of them.", "anchors": ["include/sim_ds/CHT.hpp: set, get, erase, reserve, _resize"]}
{"id": "C88", "title": "CDRWArray and CDRWVector never report a wrong value", "statement": "After any history of calls that returns, size() is that of a vector, get(i) of an element is the last value written at its position or zero, and right after set(i, v) or push_back(v) the element reads as v.", "quantifier": "all histories with values below 2^63, all sizes up to 2^53", "why_tests_cant": "Operation histories are unbounded; a test only runs a few of them.", "anchors": ["include/sim_ds/CDRWArray.hpp: CDRWArray::set, CDRWArray::get, CDRWVector"]}
{"id": "C89", "title": "CHT: which calls return", "statement": "After any history of set, erase and reserve that returned, erase and reserve return, and set(k, v) returns unless all slots of the table are used and get(k) does not report k; calls of set are nested at most three deep.", "quantifier": "all histories of up to 2^55 calls with any number of erasures, all loads up to 99 percent", "why_tests_cant": "Operation histories are unbounded; a test only runs a few of them.", "anchors": ["include/sim_ds/CHT.hpp: set, erase, reserve, _resize"]}
{"id": "C90", "title": "CHT::print_for_debug shows the layout of the table truthfully", "statement": "After any history of set, erase and reserve calls that returned, print_for_debug writes one line for each slot and a last one. The first digit of line i is 1 if and only if some key that get reports has hash i modulo the number of slots. The ones in the first two columns are together as many as the keys that get reports. A 1 in the second column has a 1 in the third beside it. The last line counts the ones in the third column; it is 0 if and only if no two reported keys have the same place.", "quantifier": "all key and value widths, all bijective hash functions, all histories of calls, all tables with fewer than 2^31 slots", "why_tests_cant": "Operation histories are unbounded; a test only runs a few of them.", "anchors": ["include/sim_ds/CHT.hpp: print_for_debug"]}
{"id": "C91", "title": "Initialisable arrays: constant time", "statement": "Whatever the size and the state of the array: for InitializableArrayFolklore get accesses at most 3 array cells, set at most 5 and fill none; for the in-place array get accesses at most 4 cells, set at most 26, and fill and the constructor none.", "quantifier": "all sizes, all states, all histories, all memory contents", "why_tests_cant": "A test measures time on a few sizes only; that the number of accesses never depends on the size or the state is a statement about all of them.", "anchors": ["include/sim_ds/InitializableArray.hpp: get", "include/sim_ds/InitializableArray.hpp: set", "include/sim_ds/InitializableArray.hpp: fill"]}
{"id": "C92", "title": "CHT: growth and space", "statement": "After any history of set and reserve: set doubles bucket() exactly if size() was bucket()*MaxLoadFactorPercent/100 before the call and otherwise leaves it; bucket()*MaxLoadFactorPercent is at most its initial value, 200*(size()+1) or 198 times the largest number reserved.", "quantifier": "all histories of set and reserve, all loads up to 99, all bijective hashes", "why_tests_cant": "Tests look at a few sizes; a bound for the space is a statement about all histories.", "anchors": ["include/sim_ds/CHT.hpp: set", "include/sim_ds/CHT.hpp: reserve", "include/sim_ds/CHT.hpp: bucket"]}
{"id": "C93", "title": "CHT: reserve makes room", "statement": "After reserve(n) the table does not grow before it holds n elements: bucket() is unchanged by calls of set as long as size() stays below n; and reserve never makes a table smaller.", "quantifier": "all histories of set and reserve, all n, all loads up to 99", "why_tests_cant": "The rounding in reserve shows up only for some numbers, 129 being the first with the default load.", "anchors": ["include/sim_ds/CHT.hpp: reserve", "include/sim_ds/CHT.hpp: _resize", "include/sim_ds/CHT.hpp: set"]}
{"id": "C94", "title": "Trie nodes tell the keys", "statement": "After any history of inserts every prefix of the keys with terminator has exactly one node and every node one prefix; for_each_edge calls its action for exactly the letters that continue the prefix of the node, in increasing order, with the node of the longer prefix, and target() agrees with it; terminal() is true exactly for the nodes at the end of a key, where item_index() is the index of the item inserted last.", "quantifier": "all histories of inserts, all keys (any bytes), all unsigned SizeType not shorter than int (size_t is the default)", "why_tests_cant": "Tests compare the labels of one small trie; the correspondence of nodes and prefixes is a statement about all tries.", "anchors": ["include/sim_ds/string_util/graph_util.hpp: terminal", "include/sim_ds/string_util/graph_util.hpp: for_each_edge", "include/sim_ds/string_util/graph_util.hpp: node"]}
{"id": "C95", "title": "Pattern matching: the number of comparisons", "statement": "With a key of m characters and a text of n, Simple, BM, SundayQS and SundayMS compare a character of the text with one of the key at most m*(n-m+1) times. If no character of the text occurs in the key, BM makes exactly n/m and the two Sunday searches exactly (n+1)/(m+1) comparisons (rounded down). Simple makes, at each of the n-m+1 places, one comparison for each character that agrees and one for the first that does not.", "quantifier": "all keys and texts in the domains of C48, C50, C51 and C52", "why_tests_cant": "The number of comparisons of a search cannot be seen from its result; a test could time a few inputs only.", "anchors": ["include/sim_ds/string_util/PatternMatching.hpp: Simple::find_all", "include/sim_ds/string_util/PatternMatching.hpp: Bm::find_all", "include/sim_ds/string_util/PatternMatching.hpp: SundayQS::find_all", "include/sim_ds/string_util/PatternMatching.hpp: SundayMS::find_all"]}
{"id": "C96", "title": "The public tables of the matchers say what their names promise", "statement": "Kmp(key).next(pos), for pos up to the size of the key, is the length of the longest proper border of the first pos characters whose next character is not the character at pos, and size_t(-1) if there is none; past that it reads out of range. For a non-empty key of characters below 128 and a type below 255, Bm(key).skip(type) is the distance from the last character of the key to the nearest earlier place with that character, and the size of the key if there is none. SundayQS(key).delta1(type) is the distance from the place after the key to the nearest place with that character, and one more than the size if there is none. Type 255 is out of range of both. Sunday(key).ordered_pattern(num) lists every position once with its character, ordered by the distance to the previous equal character (position + 1 if none) and then by position. SundayMS(key).delta2(pos) is the least shift of the key that agrees with the first pos entries of the ordered pattern and puts another character under the entry pos, and the size of the key if there is none.", "quantifier": "for all keys, all positions and all byte values; keys of fewer than 2^63 characters", "why_tests_cant": "A test compares a few entries of a few keys; that each entry is the best possible one holds for all keys and all positions.", "anchors": ["include/sim_ds/string_util/PatternMatching.hpp: Kmp::next, Bm::skip, Sunday::ordered_pattern, SundayQS::delta1, SundayMS::delta2"]}
{"id": "C97", "title": "What is read is written back byte for byte, and a file that was cut off is not read", "statement": "Let any bytes be given, written by the library or not. If Read (or the constructor from a stream, LoadFrom) of BitVector, SuccinctBitVector, FitVector, WaveletTree, MultipleVector, MultiBitVector with two bits, DacVector, Samc, SamcDict or SuffixArray gets all the bytes it asks for, then Write of the object gives exactly the bytes taken from the stream, and the same bytes followed by anything are read to the same object. If the bytes are a proper prefix of what Write wrote for an object, Read asks for bytes past the end of the stream (for MultiBitVector of every number of bits, whatever is in the padding).", "quantifier": "for all byte sequences, and for all objects of each class and all proper prefixes of their written form; objects within the size limits of the serialisation properties of their classes", "why_tests_cant": "A test can only try a few byte sequences; that the reader accepts nothing but what the writer writes is about all of them.", "anchors": ["include/sim_ds/basic.hpp: read_val, read_vec, read_string", "include/sim_ds/BitVector.hpp: Read, Write", "include/sim_ds/SuccinctBitVector.hpp: Read, Write", "include/sim_ds/FitVector.hpp: FitVector(istream), Write", "include/sim_ds/DacVector.hpp: Read, Write", "include/sim_ds/WaveletTree.hpp: Read, Write", "include/sim_ds/MultipleVector.hpp: LoadFrom, StoreTo", "include/sim_ds/MultiBitVector.hpp: Read, Write", "include/sim_ds/string_util/Samc.hpp: Read, Write", "include/sim_ds/string_util/SuffixArray.hpp: Read, Write"]}
{"id": "C98", "title": "BOM and Turbo-BOM: how much of the text is read", "statement": "Let the key have m characters and the text n. With a finished oracle BOM calls the oracle (which reads one character of the text each time) at least m times for each match and at most m*(n-m+1) times; exactly n/m times if no character of the text occurs in the key. Turbo-BOM, for m >= 2 and w = m/2, calls the oracle at least m times for each match and at most m*(n/w + 1 + matches) times, and its KMP part makes at most 2*(n+w) + m*matches comparisons: linear in the text but for the matches. If no character of the text occurs in the key it calls the oracle exactly (n+w)/(m+w) times. The cost of the matches is real: a run of m equal characters in a run of n takes at least m*(n-m+1) calls, so Turbo-BOM is not linear.", "quantifier": "all keys without NUL whose oracle is finished, all texts without the byte after the arrays", "why_tests_cant": "The number of reads cannot be seen from the result of a search; tests time a few inputs.", "anchors": ["include/sim_ds/string_util/PatternMatching.hpp: Bom::find_all", "include/sim_ds/string_util/PatternMatching.hpp: TurboBom::find_all", "include/sim_ds/string_util/PatternMatching.hpp: TurboBom::kmp_search"]}
{"id": "C99", "title": "Succinct select: how many rounds the binary search takes", "statement": "select(i) looks up two entries of the table of every 512th one and searches between them. Let D be the number of blocks of 512 bits from the block of the last one before the group of 512 ones of i (the first block for i < 512) to the block of the last one of the group (the last block if the group is not full). The binary search makes n rounds with D < 2^(n+1) and 2^n < 2D, that is between floor and ceiling of log2 D, and the loop over the words of the block at most 7: for a one in word w of its block it reads the counts of the words 1 to w + 1, as far as the block and the vector go. So at most about log2 of the number of blocks in all, a bound independent of the length of the vector if the ones are spread evenly, exactly one round for i >= 512 in a vector of ones, and log2 of the whole length for a single one.", "quantifier": "all bit vectors built by any allowed history, shorter than 2^41 bits, all i in the domain of the table", "why_tests_cant": "Rounds cannot be seen from the result; tests time a few vectors.", "anchors": ["include/sim_ds/SuccinctBitVector.hpp: select"]}
{"id": "C100", "title": "The factor oracle is built with a linear number of steps", "statement": "For a text of m letters without zero bytes the constructor of FactorOracle (and so of the BOM matchers) calls _insert_trans at most m - 1 times, and transition at most 2(m - 1) times more often than that, so at most 3(m - 1) times. Exactly: _insert_trans is called once for each transition of the finished oracle that does not lead to the next state, and transition as often plus 2(m - d) times, where d is the number of different letters. Only the search for a free place inside _insert_trans may take longer (C53).", "quantifier": "all texts, all limits of the search for a free place for which the construction ends", "why_tests_cant": "The number of calls cannot be seen from the result; tests time a few texts.", "anchors": ["include/sim_ds/string_util/FactorOracle.hpp: _build, transition, _insert_trans"]}
{"id": "C101", "title": "The searches are interchangeable", "statement": "For a non-empty key of ASCII characters without NUL and an ASCII text without NUL that is at least as long, find_all of Simple, KMP, BM, QS and MS returns the same list of positions. So does BOM if its constructor ends, which it does for keys of up to 23 characters; for those TurboBOM returns a part of that list in the same order, and all of it if the key has up to five characters.", "quantifier": "all ASCII texts and non-empty ASCII keys that are not longer", "why_tests_cant": "Tests compare two searches on a few texts.", "anchors": ["include/sim_ds/string_util/PatternMatching.hpp: find_all", "include/sim_ds/string_util/FactorOracle.hpp"]}
{"id": "C102", "title": "The occurrences of a key stand next to each other in the suffix array", "statement": "If the suffix array of a text is right, the ranks whose entries are occurrences of a non-empty key form an interval, the entries there are the positions that find_all returns, and inside the interval the LCP entries are at least the length of the key while at its two ends they are smaller. Whether the array is right or not, the ranks form an interval for keys of one or two characters, for keys whose characters before the last never go down, and for keys no occurrence of which has a valley of the text inside. (False in general: for babaabaa and the key baa.)", "quantifier": "all non-empty texts and keys; for the first part all with a right suffix array; for the constructed array fewer than 2^31 - 1 characters", "why_tests_cant": "Binary search in the suffix array relies on it for every key; tests look at single entries.", "anchors": ["include/sim_ds/string_util/SuffixArray.hpp", "include/sim_ds/string_util/PatternMatching.hpp: Simple"]}
{"id": "C103", "title": "The construction of a factor oracle either never ends or each search for a place takes at most 257 m rounds", "statement": "Let the text have m letters, none of them NUL, with 257 m at most 2^32. Either the constructor of FactorOracle (and so of the BOM matchers) never ends, or each search for a place in it (_find_base) takes at most 257 m rounds; since there are fewer than m searches (C100) the whole construction then takes fewer than 257 m^2 rounds. With few letters for the size of the text (as in C53) it is the second case.", "quantifier": "all texts without NUL of up to 2^32 / 257 letters", "why_tests_cant": "That a run which has not ended after so many rounds never ends is a statement about infinitely many rounds; a test can only give up.", "anchors": ["include/sim_ds/string_util/FactorOracle.hpp: _build, _find_base, _insert_trans, _expand_block"]}
{"id": "C104", "title": "The suffixes are sorted in linear time", "statement": "For a text of n letters the sorting of the suffixes in the constructor of SuffixArray (Sais_ with everything it calls, over all levels of the recursion) takes at most 51 (n + 1) + 1536 steps; a step is a round of a loop or an element of a vector that is made or copied.", "quantifier": "all non-empty texts of bytes 1..127 below 2^31 - 1 letters", "why_tests_cant": "A bound on the work for texts of every length; a measurement covers single texts, and the comparisons of EqualLMSs_ have no bound of their own in the code.", "anchors": ["include/sim_ds/string_util/SuffixArray.hpp: Sais_, InducedSort_, Induce_, MakeBuckets_, Classified_, FindLMSs_, EqualLMSs_"]}
{"id": "C105", "title": "Space of Samc", "statement": "A Samc over N keys, the longest of L characters, has at least as many places as the keys, each with its terminator, have different prefixes, and at most (L+2)(1+(L+1)N^2); size_in_bytes() is the number of places + (L+1) tables of 256 codes + (L+3) codes + 24 bytes.", "quantifier": "all non-empty lists of NUL-free keys for which the constructor is defined, all code types, both implementations of the slot search; size condition as for Samc", "why_tests_cant": "The places of the search for a free slot depend on all keys together; tests look at single lists.", "anchors": ["include/sim_ds/string_util/Samc.hpp: Samc, SamcImpl, size_in_bytes"]}
{"id": "C106", "title": "Trie, Samc and SamcDict know the same keys", "statement": "For a Trie filled with some keys in any order and with repetitions, and a Samc and a SamcDict over the same keys: for every NUL-free string traverse returns a non-null pointer, accept returns true and lookup returns a number other than kSearchError either all or none, and all exactly if the string is one of the keys. The Samc has at least as many places as the Trie has nodes.", "quantifier": "all non-empty lists of NUL-free keys, all orders of the inserts, all NUL-free strings, all code types and index types for which the constructors are defined and the nodes have different indices; size condition as for Samc", "why_tests_cant": "An equivalence of three programs over all key sets; tests compare single answers.", "anchors": ["include/sim_ds/string_util/Samc.hpp: accept, SamcDict::lookup", "include/sim_ds/string_util/graph_util.hpp: Trie, insert, traverse, size"]}
{"id": "C107", "title": "The LCP array tells the repetitions of the text", "statement": "If the suffix array that SuffixArray built is right, then: (a) a word of m letters, m > 0, occurs at two different positions of the text exactly if some entry of the LCP array is at least m, so the largest entry is the length of the longest repeated factor; (b) the number of different non-empty factors of the text plus the sum of all entries of the LCP array is n (n + 1) / 2.", "quantifier": "all non-empty texts for which the constructor is defined and gives the right suffix array, all m; fewer than 2^31 - 1 characters", "why_tests_cant": "A statement about all factors of all texts; a test can only count the factors of a few texts.", "anchors": ["include/sim_ds/string_util/SuffixArray.hpp: SuffixArray, lcp"]}
{"id": "C108", "title": "Queries of the succinct structures read few cells", "statement": "rank and rank_0 of SuccinctBitVector read three array cells, an element of FitVector at most two. An element of DacVector whose value fits into the first j + 1 layers reads at most 9 j + 6 cells, so small values are cheap, and a WaveletTree over values below 2^h reads at most 5 h cells for operator[], rank(i) and AccessAndRank(i) and at most 4 h for rank(c, i). The bounds do not depend on the number of elements.", "quantifier": "all bit vectors; all non-empty lists of values below 2^63 (FitVector, DacVector with all widths for which the constructor is defined); all non-empty lists of bytes (WaveletTree); all positions", "why_tests_cant": "A test measures single inputs; the bound is about every vector and every position.", "anchors": ["include/sim_ds/SuccinctBitVector.hpp: rank_1, rank_0", "include/sim_ds/DacVector.hpp: operator[]", "include/sim_ds/WaveletTree.hpp: operator[], rank, AccessAndRank", "include/sim_ds/FitVector.hpp: operator[]"]}
{"id": "C109", "title": "A Samc is determined by the set of its keys", "statement": "Samc and SamcDict built from two lists with the same keys are the same object, whatever the order of the keys and however often a key is repeated, and the template argument LegacyBuild, which chooses the search for free places, does not change the object either. So sizes, ids and written files agree, and two Samc files are equal exactly if the sets of keys are.", "quantifier": "all code types from 1 to 64 bits; all lists of keys without NUL byte, of at most n keys of at most L bytes with (L + 2)(1 + (L + 1) n^2) < 2^64", "why_tests_cant": "A test compares single permutations of single key sets; the claim is about every list.", "anchors": ["include/sim_ds/string_util/Samc.hpp: constructor, y_check_, y_check_legacy_", "include/sim_ds/string_util/Samc.hpp: SamcDict"]}
{"id": "C110", "title": "The contents of a vector determine its file", "statement": "Two BitVectors, or two FitVectors of the same width, with the same elements are the same object and write the same bytes, however the elements came there, as long as the vectors were not cut inside a word (FitVector: not shrunk since last empty); different elements give different files. A vector that was cut writes the bits of removed elements too, so there equal contents can give different files.", "quantifier": "all pairs of histories of constructors, element writes, copies, push_back, resize, assign, fill and reserve", "why_tests_cant": "A test compares a few histories; the claim is about all pairs of histories that end with the same elements.", "anchors": ["include/sim_ds/BitVector.hpp: _resize, _assign, Write", "include/sim_ds/FitVector.hpp: resize, assign, push_back, Write"]}
{"id": "C111", "title": "Searching a Samc costs the length of the query, not the number of keys", "statement": "accept of a query of m bytes makes at most 4(m+1) accesses to arrays, and never more than 4(L+1) if no key is longer than L, however many keys there are; if no key begins with the first p+1 bytes of the query and the query has no byte 255, it stops after at most 4(p+1). SamcDict::lookup makes at most three more for a key, and the same holds for the early stop.", "quantifier": "all non-empty lists of keys without NUL for which the constructor is defined, all code types, both implementations of the slot search, all queries without NUL; size condition as for Samc", "why_tests_cant": "A test can time some queries; the claim bounds the accesses for every set of keys and every query.", "anchors": ["include/sim_ds/string_util/Samc.hpp: accept, in_range, lookup"]}
{"id": "C112", "title": "Building a Samc: the search with words reads about a 32nd of what the search bit by bit reads", "statement": "Let y be the first place at which all the indices of a character fall on free positions. y_check_legacy_ makes exactly one read for each index and each place up to y; y_check_ makes at most two reads for each index and each 64 places. So for a whole construction, with R reads for LegacyBuild = true and r for LegacyBuild = false, both give the same object, 32 r is at most R plus 63 for each key and depth, and R is at most n^3 + n for each depth, for n keys. The reads do not depend on the code type.", "quantifier": "all non-empty lists of keys without NUL of which the object fits 64 bits, all code types wide enough, both constructors", "why_tests_cant": "A test can time some constructions; the claim compares the two searches for every set of keys.", "anchors": ["include/sim_ds/string_util/Samc.hpp: _SamcImpl(begin, end), y_check_, y_check_legacy_"]}
{"id": "C113", "title": "CHT: the accesses of get, set and erase are bounded by the keys that crowd around a bucket", "statement": "After any history of set, erase and reserve that returned, for any key k there are K distinct keys that get reports, whose buckets (hash modulo bucket()) lie in a row of K consecutive buckets that reaches the bucket of k, such that get(k) reads slots and values at most 3K + 1 times. The same holds with 6K + 9 for a set that does not make the table grow, which returns, and with 3K + 3 for an erase that does not. So a call is cheap unless the hash puts many keys near each other, and never costs more than a fixed multiple of the number of used slots.", "quantifier": "all key widths, value widths from 1 to 63 and numbers of buckets, all bijective hashes, all histories that returned, all keys", "why_tests_cant": "How long a search runs depends on every key set before; tests try a few tables, and the claim holds for every history and every hash.", "anchors": ["include/sim_ds/CHT.hpp: ToClusterHead, get, set, erase"]}
{"id": "C114", "title": "Trie: a search costs the part of the query that is stored, an insert adds only the rest", "statement": "Let m be the length of the longest beginning of the key with its terminating NUL that is a beginning of a stored key with its NUL. A search for the key looks at exactly m + 1 nodes, however many keys are stored. An insert of the key looks at length + 2 nodes, adds exactly length + 1 - m nodes, and touches one item; inserting a stored key again adds no node.", "quantifier": "all item types, all histories of inserts that fit the index type, all keys and queries of any bytes", "why_tests_cant": "The number of nodes a call touches is not an output, and it depends on every key inserted before.", "anchors": ["include/sim_ds/string_util/graph_util.hpp: Trie::insert, Trie::traverse"]}
{"id": "C115", "title": "CDRWArray: the space", "statement": "An array of n elements keeps 7 bits per element for the bit lengths. The table for the values of w bits holds exactly the elements of w bits, has at most max(8, 4(c + 1)) slots for c such elements, and each slot takes w bits for the value, 4 bits of flags, and the bits of the index that the number of slots leaves. The whole array takes at most 7n + 8 times the sum over the nonzero elements of (bit length + bits of the index + 4), plus a term that depends only on the bits of the index. The order of the writes and the number of overwrites do not matter.", "quantifier": "all sizes from 1 to 2^60, all histories of at most 2^54 writes of values below 2^63 that do not change the bit length of a nonzero element, and all ranges of at most 2^54 values for the constructor from a range", "why_tests_cant": "The number of slots of a table is the result of a history of growth, and no call reports it; a test would measure one history.", "anchors": ["include/sim_ds/CDRWArray.hpp: CDRWArray, set", "include/sim_ds/CHT.hpp: CHT, set, _resize"]}
{"id": "C116", "title": "CHT: growth costs a constant per key", "statement": "A call of set evaluates the hash once, and once more for each key present if the load is reached (the size equals bucket() times the load). Any history of set calls on a new table, in any order and with any number of repeated keys, evaluates the hash once per call plus at most 2 (d + 1) times in all for d different keys, and not at all more as long as the table never grew. So the cost of growth is constant per key, averaged over the history.", "quantifier": "all key widths up to 60 bits, value widths from 1 to 63, numbers of buckets and loads from 1 to 99 that leave room for one key, all bijective hashes, all histories of at most 2^54 calls", "why_tests_cant": "The cost of a single call jumps when the table grows; a bound on the sum over all histories cannot be measured.", "anchors": ["include/sim_ds/CHT.hpp: set, reserve, _resize"]}
{"id": "C117", "title": "CDRWVector: reallocation costs a constant per element", "statement": "A call of push_back, pop_back, resize, reserve or shrink_to_fit that reallocates moves all elements of the vector, and one that does not moves none. Any history of push_back, pop_back, set, resize and clear on a vector constructed with n elements moves at most n plus twice the number of elements appended and removed, however the calls alternate.", "quantifier": "all vectors constructed with n >= 1 elements and all histories whose calls return; for the histories of C68 the calls do return", "why_tests_cant": "The cost of a single call jumps when the vector reallocates, both on growth and on shrinking; that no alternation of calls reallocates again and again cannot be tested.", "anchors": ["include/sim_ds/CDRWArray.hpp: CDRWVector, _allocate"]}
{"id": "C118", "title": "MultipleVector: block references take values of any integer type", "statement": "block(i).set_at(f, x) with x of any integer type, signed or not, stores x modulo the width of field f and leaves all other fields and records unchanged; block(i) = {x0, x1, ...} sets the first fields of the record. (Both fail: set_at is undefined when the field is wider than the type of x and than int, as in set_at(f, 5) for a field of five to eight bytes; operator= has no return statement and is undefined always.)", "quantifier": "all layouts of byte widths 1..8, histories of calls, records, fields, values and sizes of the type", "why_tests_cant": "A shift by the width of the type gives a different result on each machine and compiler, often the one hoped for; a test on one of them does not show that it is undefined.", "anchors": ["include/sim_ds/MultipleVector.hpp: BlockReference::set_at, _set_at, operator="]}
{"id": "C119", "title": "CDRWArray: a write costs a constant number of hash evaluations on average", "statement": "Let any history of set be made on a CDRWArray of n elements in which no nonzero element is replaced by a value of another bit length. Together the calls evaluate the hash of a table once for each value written other than zero, and at most twice more for each element that is not zero in the end, however the 63 tables grow.", "quantifier": "all sizes n from 1 to 2^60, all histories of at most 2^54 writes that keep bit lengths", "why_tests_cant": "A call of set moves a whole table when it grows; that the sum over all 63 tables and every order of writes stays below a constant per element cannot be tested.", "anchors": ["include/sim_ds/CDRWArray.hpp: CDRWArray::set", "include/sim_ds/CHT.hpp: set, reserve, _resize"]}
{"id": "C120", "title": "The containers of integers are interchangeable", "statement": "Let a non-empty list of fewer than 2^31 values below 2^63 be stored in a FitVector, in a DacVector that chooses its widths itself, in a CDRWArray and in an initialisable array. All four have the size of the list and give the same value at every index.", "quantifier": "all such lists; every cost function, limit of layers and order of ties in the choice of the widths", "why_tests_cant": "Tests compare the containers on a few lists; the packings differ with the bit lengths of all the values.", "anchors": ["include/sim_ds/FitVector.hpp: FitVector", "include/sim_ds/DacVector.hpp: DacVector", "include/sim_ds/CDRWArray.hpp: CDRWArray", "include/sim_ds/InitializableArray.hpp: InitializableArray"]}
{"id": "C121", "title": "The structures with rank agree", "statement": "For a non-empty list of values below 2^S, S = 1, 2, 3, a MultiBitVector filled element by element and built, and a WaveletTree of the list give the same elements, and the same rank at every element other than zero. For bits a SuccinctBitVector agrees with both: rank_1 at ones, rank_0 at zeros.", "quantifier": "all such lists, all positions", "why_tests_cant": "Counts before a position depend on the whole prefix; three different block layouts have to agree on every one.", "anchors": ["include/sim_ds/MultiBitVector.hpp: rank, build", "include/sim_ds/WaveletTree.hpp: rank, operator[]", "include/sim_ds/SuccinctBitVector.hpp: rank_1, rank_0"]}
{"id": "C122", "title": "Reading a file that was cut off leaves the stream failed", "statement": "Let an object of one of the serialisable classes be written and its file be cut off at any byte. When Read (or the constructor from a stream) gets the cut file and its behaviour is defined, the stream has its error bits set afterwards, whatever object was read into; from the whole file the stream stays good and the object is the one written. So testing the stream after Read tells a cut file from a whole one. For BitVector: cut within the first 16 bytes the result is undefined, cut later the vector has the right size, the bits that were in the file, and for the others the bits it had before Read (zeros in a new vector).", "quantifier": "all objects the classes build, all cut positions, all objects read into, all bytes behind the whole file", "why_tests_cant": "Every cut position of every file, and what indeterminate values do, cannot be tested.", "anchors": ["include/sim_ds/basic.hpp: read_val, read_vec, read_string", "include/sim_ds/BitVector.hpp: Read", "include/sim_ds/SuccinctBitVector.hpp: Read", "include/sim_ds/FitVector.hpp: FitVector(std::istream&)", "include/sim_ds/WaveletTree.hpp: Read", "include/sim_ds/MultipleVector.hpp: LoadFrom", "include/sim_ds/DacVector.hpp: Read", "include/sim_ds/MultiBitVector.hpp: Read", "include/sim_ds/string_util/Samc.hpp: Read", "include/sim_ds/string_util/SuffixArray.hpp: Read"]}
{"id": "C123", "title": "Read replaces what the object held", "statement": "When Read (LoadFrom) of a whole file succeeds, the object afterwards is the one in the file, whatever it held before.", "quantifier": "all serialisable classes with a Read into an existing object, all previous contents, all byte sequences", "why_tests_cant": "Tests read into new objects; that no earlier state leaks through needs all pairs of states and files.", "anchors": ["include/sim_ds/BitVector.hpp: Read", "include/sim_ds/SuccinctBitVector.hpp: Read", "include/sim_ds/MultiBitVector.hpp: Read", "include/sim_ds/string_util/Samc.hpp: Read", "include/sim_ds/MultipleVector.hpp: LoadFrom, set_element_sizes, StoreTo", "include/sim_ds/WaveletTree.hpp: Read"]}
{"id": "C124", "title": "Trie: items are numbered by the first inserts, and dfs sorts the keys", "statement": "The pointer that insert and traverse return for a key is the place number k of the items, where k is the number of different keys inserted before the first insert of this key (item_index() of its terminal node is k). Later inserts never move an item, and an insert makes a new place only for a new key. Whoever notes item_index() of the terminal nodes during dfs gets the numbers of the keys in the order of a dictionary, each key once.", "quantifier": "all item types, all histories of inserts with at most 2^w different prefixes (w bits of SizeType), all keys of any bytes; terminal() for an unsigned SizeType not shorter than int", "why_tests_cant": "Histories are unbounded; that no later insert renumbers an item is a statement about all continuations.", "anchors": ["include/sim_ds/string_util/graph_util.hpp: insert, traverse, dfs, terminal, item_index"]}
{"id": "C125", "title": "Files that the library did not write", "statement": "Whatever bytes an object was read from without the stream failing: reading the elements below the size that the object reports, or rank, or searching, stays inside its memory.", "quantifier": "all byte sequences, all positions below the reported size", "why_tests_cant": "Byte sequences are unbounded, and a fault outside memory need not show in a test.", "anchors": ["include/sim_ds/BitVector.hpp: Read, operator[]", "include/sim_ds/SuccinctBitVector.hpp: Read, rank_1", "include/sim_ds/FitVector.hpp: FitVector(std::istream&), operator[]", "include/sim_ds/MultipleVector.hpp: LoadFrom, nested_element, size", "include/sim_ds/MultiBitVector.hpp: Read, operator[], rank", "include/sim_ds/DacVector.hpp: Read, operator[]", "include/sim_ds/WaveletTree.hpp: Read, operator[]", "include/sim_ds/string_util/Samc.hpp: Read, accept", "include/sim_ds/string_util/SuffixArray.hpp: Read"]}
{"id": "C126", "title": "SuccinctBitVector, WaveletTree, MultiBitVector and DacVector are built in linear time", "statement": "Constructing a SuccinctBitVector from n bits makes at most n/32 + 14 accesses to array cells, with or without select. Constructing a WaveletTree from n values below 2^h makes at most n(2h + 1) + nh/32 + 16(2^h - 1): linear in the values, and 16 for every node of the complete tree, used or not. build() of a MultiBitVector with n words makes at most 67 n + 182. Constructing a DacVector from n values with k given widths makes at most n(6k + 2) + n(k - 1)/32 + 22k + 567.", "quantifier": "all bit vectors that can be built, all non-empty vectors of values below 2^h for 1 <= h <= 30, all MultiBitVectors with 1, 2 or 3 bits per element, all non-empty vectors of fewer than 2^31 values below 2^63 with widths that cover them", "why_tests_cant": "A bound for all sizes; a measurement covers finitely many.", "anchors": ["include/sim_ds/SuccinctBitVector.hpp: SuccinctBitVector(const BitVector&)", "include/sim_ds/WaveletTree.hpp: WaveletTree(const std::vector<T>&)", "include/sim_ds/MultiBitVector.hpp: build", "include/sim_ds/DacVector.hpp: DacVector(vector, unit_bit_list)"]}
{"id": "C127", "title": "Reading and writing a field of MultipleVector through a chosen integer type", "statement": "block(i).restricted_get<f, T>() returns the field, as get<f>() returns it, converted to T, for const objects as for others: a field wider than T is cut to its low bytes and read as T, a narrower one keeps its value. block(i).restricted_set<f, T>(x) returns x, replaces the low bytes of the field that T has, keeps the bytes above them and all other fields of all records, and restricted_get<f, T>() then returns x if the field is at least as wide as T, and otherwise the low bytes of x as a number that is not negative (a negative x does not come back).", "quantifier": "all field layouts of 1..8 bytes, all histories, all records and fields, all integer types of 1, 2, 4 and 8 bytes, all values", "why_tests_cant": "The two kinds of references have different code; all histories, layouts, types and values at once.", "anchors": ["include/sim_ds/MultipleVector.hpp: restricted_get, restricted_set, _get, _set, get_"]}
{"id": "C128", "title": "Builds with assertions", "statement": "In a build with assertions (without NDEBUG) calls inside of the domain neither abort nor change their result. In-place InitializableArray: for every history of fill and writes in range. CHT: the assertions on the arguments of get and set let through exactly the keys and values of the declared widths. CDRWArray: get, for every history that keeps the bit lengths of nonzero elements. WaveletTree: rank(c, i) where position i holds c. FactorOracle: the constructor for a non-empty NUL-free text gives an oracle exactly if it does so without assertions, and the same one. MultipleVector: set_nested_element and nested_element for fields and records that exist and values that fit, and they abort for others (values of 2^56 or more excepted, where the assertion shifts by 64 bits). Samc and SamcDict: the construction from sorted keys, lookup of any NUL-free string, and access (within the limits of C61) to a key without a byte 255. CDRWVector: the assertions of _allocate, for histories of push_back and set after construction with a power of two as size. The claim is false for CDRWVector in general (with 2^k elements, k from 4 on, repeated pop_back aborts when less than a third is left; resize and reserve abort for a new capacity that is not a power of two), for Samc with keys that are not sorted (the construction aborts, though without assertions it succeeds), for access to a key with a byte 255 (always aborts), for CDRWArray in general (a read aborts after a change of bit length) and for WaveletTree::rank(c, i) with any c other than the value at i, where it always aborts.", "quantifier": "all arrays, sizes, garbage memory and histories; all tables, keys and values; all CDRWArray histories of that kind; all non-empty lists of values below 2^30, all positions and all c below 2^height; all non-empty texts without zero bytes; all layouts and histories of MultipleVector, all fields, records and values; all sorted lists of NUL-free keys within the bounds of C59, all code widths, both searches", "why_tests_cant": "An assertion may fire only in a state that a long history produces; a test runs few histories.", "anchors": ["include/sim_ds/InitializableArray.hpp: _make_chain", "include/sim_ds/CHT.hpp: get, set", "include/sim_ds/CDRWArray.hpp: CDRWArray::get, CDRWVector::_allocate", "include/sim_ds/WaveletTree.hpp: rank(uint8_t, size_t)", "include/sim_ds/string_util/FactorOracle.hpp: _find_base, _insert_trans, set_next", "include/sim_ds/MultipleVector.hpp: set_nested_element, nested_element", "include/sim_ds/string_util/Samc.hpp: _SamcImpl, id, access"]}
