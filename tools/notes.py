FORCE = {}
NOTES = {
"C01": "Portable lookup and SWAR counts, all words.",
"C02": "Portable popcnt32 characterised exactly: its value for every word, right iff neither all even nor all odd nibbles are 0xF; full property refuted by C02_popcnt32_refuted.",
"C03": "All words; fields counted by an independent spec.",
"C04": "Portable cascades and the POPCNT build variant.",
"C05": "Portable cascade and the POPCNT build variant.",
"C06": "POPCNT build proved; the portable build is proved right only at 0 and off by 32 elsewhere.",
"C07": "BMI2 build proved for every word; portable build characterised exactly: right iff popcnt32 loses nothing of the low half or the one looked for is among those it counts; refuted for all-ones.",
"C08": "Index permutation, involution and preserved count for all six swaps.",
"C09": "Includes that WidthMask(>=64) is undefined behaviour in the model.",
"C10": "Portable branches.",
"C11": "Proved: correct exactly for zero; full property refuted. C11_clz256_value gives the wrong value that is returned for every nonzero word.",
"C12": "Bit-exact for every mask, and involution.",
"C16": "All histories of constructors, element writes and copies, push_back, resize, assign, fill, reserve; observations size, [], at (with exception), front, back, iteration.",
"C17": "All word arrays and ranges; every bit of every word.",
"C18": "Signed distances, unbounded integers for positions.",
"C19": "All reachable vectors of size below 2^64, any following bytes.",
"C47": "Values of any width, vectors, strings, and sequences of them.",
"C13": "Exact domain: every value for units 1..63; values outside the representable range are covered by C13_sizeFitsInUnits_domain.",
"C14": "Lists shorter than 2^31 (the counters are int).",
"C15": "The computed split itself is right (positive units, sum equal to the maximum bit length, at most max(levels,2) units); refuted as a whole because every non-empty call indexes one past its tables.",
"C20": "Every position below size(); rank(size()) settled exactly: right unless the size is a positive multiple of 64, where it reads out of bounds.",
"C21": "Proved inside the exact domain where the tip entry exists, for the BMI2 build and the portable build, where C21_select_exact_partial says for every such i exactly when the answer is right; refuted otherwise.",
"C22": "Both directions in the domain of select, BMI2 build, and portable build for words without saturated nibbles; C22_exact_partial says for every position in the domain exactly when the portable select inverts rank; refuted outside the domain of select in every build.",
"C23": "With and without the select tips, any following bytes.",
"C24": "All packed contents and widths 1..63, straddling elements included; C24_any_value says exactly what any 64-bit value does: the element gets its low bits and the rest is or-ed into the elements behind it, up to the end of the word in which the element ends; C24_oversized is a case of it on a vector that was built by pushes.",
"C25": "Histories of construction, push_back, element writes and copies, reserve, resize, resize with fill, assign. C25_stale exhibits the stale elements after shrinking; C25_default_ub the undefined shift of the default constructor.",
"C26": "Least width and all values; lists with a value of 2^63 or more hit an undefined shift (C26_too_large). C26_ints: vectors of signed values with at least one value that is not negative; negative ones come back modulo 2^width. C26_negative_ub: only negative values.",
"C27": "Any following bytes; also the empty vector.",
"C28": "All layouts with widths 1..8, histories of set, push_back and resize.",
"C29": "Fresh target; C29_load_appends settles loading into an object with a layout.",
"C30": "Widths 1..3, histories of set with growth. C30_any_value: what a value that is too wide does in a build without assertions.",
"C31": "Widths 1..3, every position holding a non-zero value, after build().",
"C32": "Given widths (C32_values) and the optimised split read leniently (C32_values_optimized); C32_optimized_oob shows the out-of-bounds read inside the split computation, C32_start_oob the one for a bad first unit. C32_large_ub and C32_negative_ub: one value of 64 bits or one negative value makes the construction undefined; C32_ints: signed containers of values that are not negative.",
"C33": "Depth of every value, serialisation of every built vector.",
"C34": "All non-empty lists of bytes; C34_access_wide extends to values below 2^30 modulo 256. C34_ints: vectors of signed values such as char; negative ones come back modulo 2^height. C34_negative_ub: only negative values.",
"C35": "All non-empty lists of bytes and, modulo 256 for the value, of values below 2^30. C35_ints: vectors of signed values, rank counts the values that agree modulo 2^height.",
"C36": "Exact domain proved from both sides; refuted outside of it (64 equal values, rank at the end).",
"C37": "Into any tree with the same number of nodes; C37_default shows what happens with a default constructed one.",
"C65": "Includes arbitrary padding bytes.",
"C38": "All sizes and histories; the cells start out with arbitrary contents.",
"C39": "All histories with arbitrary initial memory, for index types wide enough to hold the size rounded up to even; C39_too_narrow shows the need for that.",
"C40": "All lists, both orders; also the state after any number of pops. For containers of signed integers: C40_ints, and C40_negative_domain says that a negative value is never found as the least one next to one that is not negative.",
"C41": "Pops after pushes break the order (C41_interleaved_refuted); proved for pushes after any build and pops, the contents for every history, and all interleaved histories that never hold more than seven values (with eight the order is lost, C41_eight_refuted).",
"C42": "All lists over any type and every strict weak order.",
"C43": "All widths up to 63, proved from the inverse table, which is checked row by row; width 64 (the default) reads past the table. Xorshift alone also for width 64 and every K below 32 (C43_xorshift); C43_xorshift_domain: beyond it shifts by 64 or more.",
"C48": "All keys and texts.",
"C49": "Sharper than stated: only bytes after an occurrence matter; C49_strict_ub gives the exact condition for undefined behaviour without that byte.",
"C50": "The domain is also shown to be needed (three undefined cases). C50_returns: for all bytes, a search that returns is exact.",
"C51": "Texts may even hold bytes 0x80 to 0xFE; the other conditions are shown to be needed. C51_returns: for all bytes, a search that returns is exact.",
"C52": "Texts may even hold bytes 0x80 to 0xFE; the other conditions are shown to be needed. C52_returns: for all bytes, a search that returns is exact.",
"C53": "Refuted in full: for a text of 71 letters the search for a base never ends (list of free elements empty). Partial: for every non-empty NUL-free text the construction never goes out of range, and whenever it ends every factor is accepted. In full (the construction ends and every factor is accepted) for texts over two letters, texts of at most 23 characters, and in general when letters * (m - 2) / 2 + 2 elements fit into the first blocks.",
"C54": "Refuted: image reads one byte past check_ in the last state, so text+g is accepted if that byte is g. Partial: exact without that read, and when the byte does not occur in the word.",
"C55": "Refuted for the witness key (construction never ends). Partial: for any key whose oracle is finished and any text without the byte after the array, the result is exact; a false match is exhibited when that byte occurs. In full, with termination, for keys over two letters, keys of at most 23 characters, and keys with few letters for their size (C53_total).",
"C56": "Refuted: an occurrence of aaaaab is missed. Partial: totality (given the construction; unconditional under the condition of C53_total) and soundness, increasing order. C56_complete: nothing is missed when every short period of a long proper prefix of the key is a period of the whole key; in particular for keys of at most five symbols, for keys whose first symbol does not come again in the first half, and for runs of one symbol. C56_exact: this condition is exact, for every other key C56_missed gives a text whose last occurrence is not reported.",
"C57": "The number of inserts is not limited, only the number of different prefixes, and that limit is exact (C57_narrow_fits, C57_narrow_fails). For 64 bit SizeType and any bytes; for narrower SizeType with NUL-free keys and queries; an out of range access is exhibited for a narrow SizeType and a key with NUL.",
"C58": "dfs in pre-order by labels, bfs by length then labels; each node once, with its depth.",
"C66": "All histories of inserts.",
"C62": "Refuted: bacbab gets a wrong array. C62_swapped_partial says for every text of bytes 1..127 exactly which pairs of suffixes are in the wrong order (Swapped, a relation on the text alone), so the array is correct if and only if there is no such pair. Further: wrongly ordered suffixes agree up to a valley; sufficient conditions, and a simpler one if and only if when no two valleys are followed by the same letters. Empty texts and bytes above 127 are undefined; a NUL in the text can make the constructor undefined (C62_nul_ub) or the array wrong (C62_nul_domain).",
"C63": "Whenever the suffix array is correct.",
"C64": "Also for objects with a wrong array; C64_any is about texts of any bytes for which the constructor is defined.",
"C59": "C59_fits is exact in the code type: for key sets with (L+2)(1+(L+1)n^2) < 2^64 the constructor with W-bit codes gives the object with 64-bit codes if that has fewer than 2^W places, and writes out of range otherwise; C59_accept needs only the keys for the condition ((L+2)(1+(L+1)n^2) < 2^W). Also stated: an empty list, NUL bytes, and as many keys as the code type has values are outside the domain.",
"C60": "Size condition as in C59 (exact in C60_fits); equal keys share an id.",
"C61": "BMI2 build: exact for up to 512 different keys; above that there is a multiple K of 512 such that exactly the ids from K on (fewer than 512) read out of range (C61_access_threshold_partial). C61_access_refuted: this happens in every build with 513 keys of two bytes. Portable build: exact for fewer than 16 keys, refuted with 46 one-byte keys (sel, C07). The _fits_ forms need only that the object is constructed and has fewer than 2^41 places.",
"C67": "SamcDict: below 2^41 places. The _fits forms need only that the object is constructed.",
"C44": "Set/reserve/get for every bijective hash and every history, growth included; bounds: load 1..99 with at least one usable slot, quotient words of at most 63 bits, fewer than 2^55 calls (no 64 bit overflow). C44_default is the instance with SplitMixHash, load 50, 8 buckets. Strict reading of the default constructed member and too small tables are shown separately.",
"C45": "False: get never looks at the deleted mark, so an erased key is still reported (for every history); erase can mark another key, which is lost at the next growth. Proved parts: get of the other keys right after one erase; any mixture of set and erase during which the table is not copied (C45_quiet_partial: get gives the last value set). C45_never_ends: ten calls on a table with the default number of slots after which every slot is used and set of a new key goes round forever. See C87 for what holds of all histories.",
"C46": "False: set erases from the table after the right one and can lose another element (C46_array_refuted, five writes). Proved: histories in which a nonzero element of b bits keeps its bit length or is rewritten before any value of b + 1 bits was written (so any history of values whose bit lengths are never consecutive, C46_gaps_partial), and the constructor from a range; values below 2^63, because the table of width 64 is built with an undefined shift. C46_never_ends: twelve writes after which a set does not return. See C88 for what holds of all histories.",
"C68": "Proved for vectors constructed with at least one element under all calls, if a place (also of an element given up) keeps its bit length unless it is zero or no value with one bit more was written, resize does not bring back elements and no empty vector is shrunk. push_back on an empty vector is out of range; elements given up come back.",
"C69": "False as stated: a move by k is a move by k bits (C69_refuted), so begin() + k is element k only for width 1. Proved: the value read after any moves forward is the word of that width at that bit, width 1 is right, and moves back are right within a word. Operators that do not compile when used are listed in the file.",
"C70": "The intrinsics are modelled on lists of lanes as the manuals describe them; alignment is not. The AVX512 branch names functions that do not exist and is not modelled.",
"C71": "All the operators of the iterator that the range loops and standard algorithms use.",
"C72": "Counted versions of the functions, shown to give the results of the model, with bounds on the count.",
"C73": "A counted version of BuildLCP_, shown to give the array of the model, with a bound on the count; it holds for every permutation, so also where the array is not sorted (C62).",
"C74": "Sais_ with a limit on the depth equals Sais_; an LMS position has an L position before it, so each text is at most half as long.",
"C75": "The dynamic program is optimal for every cost function below 2^63; the object follows the estimate by C77. With max_levels = 2 a better split of two levels exists (refuted, for every std::sort).",
"C76": "Exact formula for size_in_bytes and bounds in bits.",
"C77": "Sandwich between the estimate of C75 and the estimate plus a constant per layer; the layers hold as many values as the estimate counts.",
"C78": "Accessors against the text; order and common prefixes from C63; the parts by the FitVector round trip.",
"C79": "Counting versions of the loops that compute the same results.",
"C80": "The depth of the chain of suffix links pays for the transitions; bound reached by the examples.",
"C81": "Every value is in one node of each level; C76 for every node.",
"C82": "Value, meaning as a count of node numbers, and undefined behaviour beyond the root.",
"C83": "Layout of the output, value read back from it, undefined behaviour for large sizes.",
"C84": "The division and the formatting of the float average are not modelled.",
"C85": "Refuted for vectors with one layer: the first path is asked for although there is none. Proved for two layers and more, and for the default object. The float quotient is a parameter of the model.",
"C86": "The result is a lower bound on the next shift that can do; the function is private and not used.",
"C87": "For every history of set, erase and reserve that returns: get returns, reports only the last value that was set, and reports a key right after it was set. A history may also not return (C45_never_ends).",
"C88": "For every history that returns, also those excluded from C46 and C68: an element reads as the last value written at its position or as zero, and as the value right after it was written. A set may also not return (C46_never_ends).",
"C89": "erase and reserve always return; set(k, v) fails to return exactly if all slots are used and get(k) does not report the key (such a state is reachable: C45_never_ends). Hash words of at most 60 bits, load at most 99, at most 2^55 calls.",
"C90": "print_for_debug, for every history of calls that returned and every table with fewer than 2^31 slots (the loop index is an int: with more, its increment is undefined, C90_print_ub). The reported keys are those get reports, which may include erased ones (C45).",
"C91": "Accesses to array cells are counted in a second copy of the functions (Verif/IArr/Cost.lean); the theorems say that this copy returns the same results. The constructor of the folklore variant value-initialises its cells and is not covered.",
"C92": "For every history of set and reserve; reserve characterised exactly (C92_reserve).",
"C93": "False: reserve(129) with the default load makes room for 128 elements (need_size uses 99 instead of 100), and reserve can make a table smaller (reserve(1) on a new table leaves 2 of 8 slots). Proved instead: bucket() does not change before 99 percent of n are there; C92_reserve says exactly how many slots there are.",
"C94": "For the signed and the short index types terminal() is true for every node (C94_other_domain); the tests of the repository use int (C94_int_domain).",
"C95": "In the domains in which the searches are correct. C95_simple_exact gives the exact number for Simple. C95_tight: the first bound is reached by all four.",
"C96": "Exact value of every entry of every table. C96_next_oob, C96_skip_oob: the entries that do not exist. C96_pattern_smallest_first: the order is by increasing distance.",
"C97": "All readers of the library. The padding bytes of the rank tips of MultiBitVector with one and three bits are not part of the model of the object, so for these only the part about cut off files is proved.",
"C98": "In the domain of C55 and C56 (the byte after the arrays does not occur in the text, the construction of the oracle ends). C98_turbo_sum: together at most 5n + 4m + 2m*matches. C98_turbo_run refutes linearity with runs, for m up to 2^23.",
"C99": "Domain of C21 (group of 512 ones begun in a full block), any in-word select. C99_select_total shows the counted select has a result with the instructions of the build.",
"C100": "Calls are counted in a second copy of the construction (Verif/FO/CostBuild.lean), which has the same outcome (C100_same). C100_exact gives the exact numbers: a list of the external transitions grows by one with each insertion, and a chain ends at the root exactly for a letter that is new. The steps of _find_base are not counted; they are unbounded for the text of C53_refuted.",
"C101": "A joint statement of C48 to C56 on their common domain. The byte after the key and after the array of the oracle is taken to be NUL (C49, C55, C56 say what happens otherwise). That TurboBOM may miss some is C56_refuted; that BOM may not end is C55_refuted.",
"C102": "C102_interval takes a right array as hypothesis, since C62 does not hold in general; C102_no_valley, C102_two and C102_ascending need none. C102_three_fails shows that three characters are too many in general.",
"C103": "A search with a free element goes round the ring of free elements once at most, then takes the first element of a new block; without a free element it stays at element 0 for ever. Each insertion adds one block at most, so the ring has at most 257 m elements. Proved through the counted construction of C100.",
"C104": "Proved through a counted copy of Sais_ that is shown to compute the same array. The comparisons of LMS substrings are linear together because each LMS position is the left side of one comparison at most and the substrings overlap in their ends only. Not counted: the growth of the vector in FindLMSs_ and what the constructor does after Sais_ (C73 counts the comparisons for the LCP array).",
"C105": "The lower bound is attained (example). Size limit: (L+2)(1+(L+1)N^2) < 2^64. The upper bound is what the search of a free slot can be shown to stay below; it is not shown to be attained.",
"C106": "Size limit as for Samc (C59).",
"C107": "Holds whenever the suffix array is right (C62 says when that is).",
"C108": "Counted are the accesses to words, directory entries and entries of the vectors of layers, paths and nodes.",
"C109": "Proved by showing that every character of every depth gets the least code that fits and every depth the least height; these conditions have only one solution. If the code type is too narrow, all the constructors are undefined alike.",
"C110": "The conditions are on the calls, not on the object; the theorems ending in _cut_domain show that they are needed.",
"C111": "Accesses to the code table, heads, labels and the words and directory of the leaves are counted; the counted functions return what the functions of the model return.",
"C112": "Reads of words (field_bits) and of bits of the vector of free places are counted; the counted functions return what the functions of the model return. The upper bounds are not claimed to be attained.",
"C113": "Each read and each write of an element of arr_ or values_ counts once, each test of a flag reads again, as in the code. The counted functions return what the functions of the model return. A set that makes the table grow is not bounded here; one on a table whose slots are all used never returns (C45).",
"C114": "The counted functions return what the functions of the model return. A node counts once each time container_ is indexed and once when it is added; the lookups in the map of edges inside a node (at most 256 entries) are not counted. Only the number of different prefixes of the keys inserted before has to fit the index type.",
"C115": "A write that changes the bit length of a nonzero element goes to the wrong table (C46), so these are outside the claim. The table for values of 64 bits is not counted: its construction is undefined (C46). Counted are the elements times the width of each FitVector, not the rounding to words or the members.",
"C116": "Counted is one for each run of the part of set behind the check of the load (one evaluation of the hash, one search), also inside _resize. The search itself is bounded in C113. Histories with erase are outside the claim.",
"C117": "Counted are the elements written into the new array by _allocate. Histories with reserve and shrink_to_fit are outside the bound on the sum: these ask for a capacity, and shrink_to_fit followed by push_back moves all elements each time.",
"C118": "Proved for fields not wider than max(4, sizeof T); refuted for all wider fields and for operator=.",
"C119": "Counted are runs of lines 118-170 of CHT.hpp, each with one evaluation of the hash and one search. Histories that change bit lengths are outside because of the fault of C46.",
"C120": "The out of bounds accesses of the choice of widths are taken as harmless, as in C32; see C15.",
"C121": "rank of a MultiBitVector at a zero is undefined (C31_zero).",
"C122": "A short read stores the bytes that are left and sets the error bits, later reads store nothing; an incompletely stored value of read_val is indeterminate (outcome undefined). An allocation of a size read from the file that fails is not modelled.",
"C123": "Proved for BitVector, SuccinctBitVector, MultiBitVector, Samc and SamcDict for any bytes. False for MultipleVector: LoadFrom appends to the field table, so the fields of the file stand behind the old ones (C123_fields_partial); into an object of the same layout the contents are right (C123_same_layout_partial), but storing it again and loading that file leaves half of the records (C123_store_again_refuted, for every vector). False for WaveletTree: Read keeps the number of nodes, so after a read into a lower tree every query is out of range, and a read into a higher tree runs past the file (C123_height_refuted); right for equal heights.",
"C124": "The items are replaced by the keys (the nodes do not depend on the items), so that the list of items is the list of the different keys. C124_index, C124_insert, C124_stable, C124_dfs, all under the exact condition on the size. The address itself can change when the vector of items grows; places are modelled as indices.",
"C125": "False for all classes with a rank directory, a size of their own or tables, with files of a few bytes as witnesses (C125_*_refuted); no loader compares the sizes in a file with each other. Reading elements of a MultiBitVector is safe for every file (C125_multi_bit_vector_get). For BitVector, SuccinctBitVector, FitVector and MultipleVector the _partial theorems give the exact condition on the numbers in the file under which the queries are safe; a loader could check it. For Samc C125_samc_partial gives a sufficient condition. Missing: conditions for DacVector, WaveletTree, SuffixArray and for select. C125_fit_vector_width_ub: a width of 64 or more in the file is undefined behaviour already while reading.",
"C126": "Counting versions of the constructors, proved to return the same as the models. Counted: words, entries of directories, tips and nodes (also when a vector is created with zeros), every push_back of a bit as one, of a FitVector as two words. Not counted: what std::vector moves when it grows, and the search for the widths of a DacVector that is built without them.",
"C127": "Proved for both kinds of references, except: a const object read as a signed type of one byte whose lowest byte is 128 or more. There get_ shifts a negative number, which C++17 (set in CMakeLists.txt) leaves undefined (C127_get_refuted); compilers return the right value.",
"C128": "C128_inplace, C128_cht hold in full; C128_cdrw_partial and C128_wavelet_partial on part of the domain; C128_cdrw_refuted: a history after which get aborts; C128_wavelet_refuted: rank(c, i) aborts for every c that is not the value at i. C128_oracle: for NUL-free texts the construction with assertions gives an oracle exactly if it does so without, and the same one; C128_oracle_short: so it always does up to 23 characters; C128_oracle_never_ends: the text of C53_refuted gets none either. C128_nested: set_nested_element and nested_element of MultipleVector in the domain; C128_nested_domain: outside of it they abort; C128_nested_ub: but for values of 2^56 or more the assertion itself shifts by 64. C128_samc_lookup holds in full; C128_samc_build_partial for sorted keys, C128_samc_unsorted_refuted: keys in another order for which the construction aborts and without assertions works; C128_samc_access_partial (BMI2) and C128_samc_access_portable_partial (fewer than 16 keys): access to a key aborts exactly if it has a byte 255 (kEmptyChar), C128_samc_refuted: an instance. C128_vec_partial: push_back and set of CDRWVector; C128_vec_pop_refuted, C128_vec_resize_refuted: pop_back, resize and reserve abort in _allocate; C128_vec_empty: push_back on an empty vector aborts. Not covered: the assertions inside of CHT::set and _resize; those of FitVector, Heap, MultiBitVector and bit_util, which repeat conditions of the theorems on these classes.",
}
