{
 "claims": [
  {
   "property": "C01",
   "status": "proved",
   "theorems": [
    "Verif.Bits.C01_popcnt8",
    "Verif.Bits.C01_popcnt16",
    "Verif.Bits.C01_popcnt64"
   ],
   "note": "Portable lookup and SWAR counts, all words."
  },
  {
   "property": "C02",
   "status": "partial",
   "theorems": [
    "Verif.Bits.C02_popcnt32_partial",
    "Verif.Bits.C02_popcnt32_refuted",
    "Verif.Bits.C02_popcnt32_value"
   ],
   "note": "Portable popcnt32 characterised exactly: its value for every word, right iff neither all even nor all odd nibbles are 0xF; full property refuted by C02_popcnt32_refuted."
  },
  {
   "property": "C03",
   "status": "proved",
   "theorems": [
    "Verif.Bits.C03_popcnt11",
    "Verif.Bits.C03_popcnt10",
    "Verif.Bits.C03_popcnt111",
    "Verif.Bits.C03_popcnt110",
    "Verif.Bits.C03_popcnt101",
    "Verif.Bits.C03_popcnt100"
   ],
   "note": "All words; fields counted by an independent spec."
  },
  {
   "property": "C04",
   "status": "proved",
   "theorems": [
    "Verif.Bits.C04_ctz64",
    "Verif.Bits.C04_ctz32",
    "Verif.Bits.C04_ctz64_popcnt_build",
    "Verif.Bits.C04_ctz32_popcnt_build",
    "Verif.Bits.C04_unique"
   ],
   "note": "Portable cascades and the POPCNT build variant."
  },
  {
   "property": "C05",
   "status": "proved",
   "theorems": [
    "Verif.Bits.C05_clz64",
    "Verif.Bits.C05_clz64_popcnt_build",
    "Verif.Bits.C05_unique"
   ],
   "note": "Portable cascade and the POPCNT build variant."
  },
  {
   "property": "C06",
   "status": "partial",
   "theorems": [
    "Verif.Bits.C06_clz32_popcnt_build",
    "Verif.Bits.C06_clz32_partial",
    "Verif.Bits.C06_clz32_refuted"
   ],
   "note": "POPCNT build proved; the portable build is proved right only at 0 and off by 32 elsewhere."
  },
  {
   "property": "C07",
   "status": "partial",
   "theorems": [
    "Verif.Bits.C07_sel_bmi2_build",
    "Verif.Bits.C07_sel_partial",
    "Verif.Bits.C07_select_exists",
    "Verif.Bits.C07_sel_refuted",
    "Verif.Bits.C07_sel_exact_partial"
   ],
   "note": "BMI2 build proved for every word; portable build characterised exactly: right iff popcnt32 loses nothing of the low half or the one looked for is among those it counts; refuted for all-ones."
  },
  {
   "property": "C08",
   "status": "proved",
   "theorems": [
    "Verif.Bits.C08_swaps",
    "Verif.Bits.C08_swaps_involutive",
    "Verif.Bits.C08_swaps_keep_count"
   ],
   "note": "Index permutation, involution and preserved count for all six swaps."
  },
  {
   "property": "C09",
   "status": "proved",
   "theorems": [
    "Verif.Bits.C09_widthMask",
    "Verif.Bits.C09_widthMask_overflow",
    "Verif.Bits.C09_width_mask_constant",
    "Verif.Bits.C09_offsetMask",
    "Verif.Bits.C09_bextr",
    "Verif.Bits.C09_cnt"
   ],
   "note": "Includes that WidthMask(>=64) is undefined behaviour in the model."
  },
  {
   "property": "C10",
   "status": "proved",
   "theorems": [
    "Verif.Bits.C10_popcnt256",
    "Verif.Bits.C10_ctz256",
    "Verif.Bits.C10_isZero256",
    "Verif.Bits.C10_set256",
    "Verif.Bits.C10_copy256"
   ],
   "note": "Portable branches."
  },
  {
   "property": "C11",
   "status": "partial",
   "theorems": [
    "Verif.Bits.C11_clz256_partial",
    "Verif.Bits.C11_clz256_refuted",
    "Verif.Bits.C11_clz256_value"
   ],
   "note": "Proved: correct exactly for zero; full property refuted. C11_clz256_value gives the wrong value that is returned for every nonzero word."
  },
  {
   "property": "C12",
   "status": "proved",
   "theorems": [
    "Verif.Bits.C12_xorMap",
    "Verif.Bits.C12_xorMap_involutive"
   ],
   "note": "Bit-exact for every mask, and involution."
  },
  {
   "property": "C13",
   "status": "proved",
   "theorems": [
    "Verif.Calc.C13_sizeFitsInUnits",
    "Verif.Calc.C13_sizeFitsInUnits_domain",
    "Verif.Calc.C13_sizeFitsInBits",
    "Verif.Calc.C13_sizeFitsInBytes"
   ],
   "note": "Exact domain: every value for units 1..63; values outside the representable range are covered by C13_sizeFitsInUnits_domain."
  },
  {
   "property": "C14",
   "status": "proved",
   "theorems": [
    "Verif.Calc.C14_sizeFitsAsList",
    "Verif.Calc.C14_bitLengthFrequencies",
    "Verif.Calc.C14_cumulative"
   ],
   "note": "Lists shorter than 2^31 (the counters are int)."
  },
  {
   "property": "C15",
   "status": "partial",
   "theorems": [
    "Verif.Calc.C15_split_partial",
    "Verif.Calc.C15_split_refuted"
   ],
   "note": "The computed split itself is right (positive units, sum equal to the maximum bit length, at most max(levels,2) units); refuted as a whole because every non-empty call indexes one past its tables."
  },
  {
   "property": "C16",
   "status": "proved",
   "theorems": [
    "Verif.BV.C16_bitvector_is_list"
   ],
   "note": "All histories of constructors, element writes and copies, push_back, resize, assign, fill, reserve; observations size, [], at (with exception), front, back, iteration."
  },
  {
   "property": "C17",
   "status": "proved",
   "theorems": [
    "Verif.BV.C17_fill"
   ],
   "note": "All word arrays and ranges; every bit of every word."
  },
  {
   "property": "C18",
   "status": "proved",
   "theorems": [
    "Verif.BV.C18_advance",
    "Verif.BV.C18_agree",
    "Verif.BV.C18_order"
   ],
   "note": "Signed distances, unbounded integers for positions."
  },
  {
   "property": "C19",
   "status": "proved",
   "theorems": [
    "Verif.BV.C19_roundtrip"
   ],
   "note": "All reachable vectors of size below 2^64, any following bytes."
  },
  {
   "property": "C20",
   "status": "proved",
   "theorems": [
    "Verif.Succ.C20_rank",
    "Verif.Succ.C20_rank_end",
    "Verif.Succ.C20_rank_end_oob",
    "Verif.Succ.C20_default"
   ],
   "note": "Every position below size(); rank(size()) settled exactly: right unless the size is a positive multiple of 64, where it reads out of bounds."
  },
  {
   "property": "C21",
   "status": "partial",
   "theorems": [
    "Verif.Succ.C21_select_bmi2_partial",
    "Verif.Succ.C21_select_portable_partial",
    "Verif.Succ.C21_select_tip_oob",
    "Verif.Succ.C21_select_refuted",
    "Verif.Succ.C21_select_portable_refuted",
    "Verif.Succ.C21_select_exact_partial"
   ],
   "note": "Proved inside the exact domain where the tip entry exists, for the BMI2 build and the portable build, where C21_select_exact_partial says for every such i exactly when the answer is right; refuted otherwise."
  },
  {
   "property": "C22",
   "status": "partial",
   "theorems": [
    "Verif.Succ.C22_inverse_partial",
    "Verif.Succ.C22_exact_partial",
    "Verif.Succ.C22_inverse_portable_partial",
    "Verif.Succ.C22_refuted"
   ],
   "note": "Both directions in the domain of select, BMI2 build, and portable build for words without saturated nibbles; C22_exact_partial says for every position in the domain exactly when the portable select inverts rank; refuted outside the domain of select in every build."
  },
  {
   "property": "C23",
   "status": "proved",
   "theorems": [
    "Verif.Succ.C23_roundtrip"
   ],
   "note": "With and without the select tips, any following bytes."
  },
  {
   "property": "C24",
   "status": "proved",
   "theorems": [
    "Verif.Fit.C24_write_read",
    "Verif.Fit.C24_oversized",
    "Verif.Fit.C24_any_value"
   ],
   "note": "All packed contents and widths 1..63, straddling elements included; C24_any_value says exactly what any 64-bit value does: the element gets its low bits and the rest is or-ed into the elements behind it, up to the end of the word in which the element ends; C24_oversized is a case of it on a vector that was built by pushes."
  },
  {
   "property": "C25",
   "status": "proved",
   "theorems": [
    "Verif.Fit.C25_histories",
    "Verif.Fit.C25_stale",
    "Verif.Fit.C25_default_ub"
   ],
   "note": "Histories of construction, push_back, element writes and copies, reserve, resize, resize with fill, assign. C25_stale exhibits the stale elements after shrinking; C25_default_ub the undefined shift of the default constructor."
  },
  {
   "property": "C26",
   "status": "proved",
   "theorems": [
    "Verif.Fit.C26_ofVector",
    "Verif.Fit.C26_empty",
    "Verif.Fit.C26_too_large",
    "Verif.Fit.C26_ints",
    "Verif.Fit.C26_negative_ub"
   ],
   "note": "Least width and all values; lists with a value of 2^63 or more hit an undefined shift (C26_too_large). C26_ints: vectors of signed values with at least one value that is not negative; negative ones come back modulo 2^width. C26_negative_ub: only negative values."
  },
  {
   "property": "C27",
   "status": "proved",
   "theorems": [
    "Verif.Fit.C27_roundtrip",
    "Verif.Fit.C27_empty"
   ],
   "note": "Any following bytes; also the empty vector."
  },
  {
   "property": "C28",
   "status": "proved",
   "theorems": [
    "Verif.Mult.C28_histories",
    "Verif.Mult.C28_write_read"
   ],
   "note": "All layouts with widths 1..8, histories of set, push_back and resize."
  },
  {
   "property": "C29",
   "status": "proved",
   "theorems": [
    "Verif.Mult.C29_roundtrip",
    "Verif.Mult.C29_load_appends"
   ],
   "note": "Fresh target; C29_load_appends settles loading into an object with a layout."
  },
  {
   "property": "C30",
   "status": "proved",
   "theorems": [
    "Verif.MBit.C30_write_read",
    "Verif.MBit.C30_histories",
    "Verif.MBit.C30_any_value"
   ],
   "note": "Widths 1..3, histories of set with growth. C30_any_value: what a value that is too wide does in a build without assertions."
  },
  {
   "property": "C31",
   "status": "proved",
   "theorems": [
    "Verif.MBit.C31_rank",
    "Verif.MBit.C31_histories",
    "Verif.MBit.C31_zero"
   ],
   "note": "Widths 1..3, every position holding a non-zero value, after build()."
  },
  {
   "property": "C32",
   "status": "proved",
   "theorems": [
    "Verif.Dac.C32_values",
    "Verif.Dac.C32_values_optimized",
    "Verif.Dac.C32_optimized_oob",
    "Verif.Dac.C32_start_oob",
    "Verif.Dac.C32_empty",
    "Verif.Dac.C32_large_ub",
    "Verif.Dac.C32_ints",
    "Verif.Dac.C32_negative_ub"
   ],
   "note": "Given widths (C32_values) and the optimised split read leniently (C32_values_optimized); C32_optimized_oob shows the out-of-bounds read inside the split computation, C32_start_oob the one for a bad first unit. C32_large_ub and C32_negative_ub: one value of 64 bits or one negative value makes the construction undefined; C32_ints: signed containers of values that are not negative."
  },
  {
   "property": "C33",
   "status": "proved",
   "theorems": [
    "Verif.Dac.C33_depth",
    "Verif.Dac.C33_roundtrip",
    "Verif.Dac.C33_default"
   ],
   "note": "Depth of every value, serialisation of every built vector."
  },
  {
   "property": "C34",
   "status": "proved",
   "theorems": [
    "Verif.Wave.C34_access",
    "Verif.Wave.C34_access_wide",
    "Verif.Wave.C34_empty_ub",
    "Verif.Wave.C34_ints",
    "Verif.Wave.C34_negative_ub"
   ],
   "note": "All non-empty lists of bytes; C34_access_wide extends to values below 2^30 modulo 256. C34_ints: vectors of signed values such as char; negative ones come back modulo 2^height. C34_negative_ub: only negative values."
  },
  {
   "property": "C35",
   "status": "proved",
   "theorems": [
    "Verif.Wave.C35_rank",
    "Verif.Wave.C35_rank_wide",
    "Verif.Wave.C35_ints"
   ],
   "note": "All non-empty lists of bytes and, modulo 256 for the value, of values below 2^30. C35_ints: vectors of signed values, rank counts the values that agree modulo 2^height."
  },
  {
   "property": "C36",
   "status": "partial",
   "theorems": [
    "Verif.Wave.C36_rank_partial",
    "Verif.Wave.C36_rank_own",
    "Verif.Wave.C36_rank_domain",
    "Verif.Wave.C36_rank_refuted"
   ],
   "note": "Exact domain proved from both sides; refuted outside of it (64 equal values, rank at the end)."
  },
  {
   "property": "C37",
   "status": "proved",
   "theorems": [
    "Verif.Wave.C37_roundtrip",
    "Verif.Wave.C37_roundtrip_same_height",
    "Verif.Wave.C37_default"
   ],
   "note": "Into any tree with the same number of nodes; C37_default shows what happens with a default constructed one."
  },
  {
   "property": "C38",
   "status": "proved",
   "theorems": [
    "Verif.IArr.C38_histories",
    "Verif.IArr.C38_range",
    "Verif.IArr.C38_out_of_range"
   ],
   "note": "All sizes and histories; the cells start out with arbitrary contents."
  },
  {
   "property": "C39",
   "status": "proved",
   "theorems": [
    "Verif.IArr.C39_histories",
    "Verif.IArr.C39_too_narrow"
   ],
   "note": "All histories with arbitrary initial memory, for index types wide enough to hold the size rounded up to even; C39_too_narrow shows the need for that."
  },
  {
   "property": "C40",
   "status": "proved",
   "theorems": [
    "Verif.Heap.C40_drain",
    "Verif.Heap.C40_front",
    "Verif.Heap.C40_ints",
    "Verif.Heap.C40_ints_nonneg",
    "Verif.Heap.C40_negative_domain"
   ],
   "note": "All lists, both orders; also the state after any number of pops. For containers of signed integers: C40_ints, and C40_negative_domain says that a negative value is never found as the least one next to one that is not negative."
  },
  {
   "property": "C41",
   "status": "partial",
   "theorems": [
    "Verif.Heap.C41_push_contents",
    "Verif.Heap.C41_pop_contents",
    "Verif.Heap.C41_pop_empty_ub",
    "Verif.Heap.C41_front_partial",
    "Verif.Heap.C41_interleaved_refuted",
    "Verif.Heap.C41_seven_partial",
    "Verif.Heap.C41_eight_refuted"
   ],
   "note": "Pops after pushes break the order (C41_interleaved_refuted); proved for pushes after any build and pops, the contents for every history, and all interleaved histories that never hold more than seven values (with eight the order is lost, C41_eight_refuted)."
  },
  {
   "property": "C42",
   "status": "proved",
   "theorems": [
    "Verif.Heap.C42_sort",
    "Verif.Heap.C42_sort_default"
   ],
   "note": "All lists over any type and every strict weak order."
  },
  {
   "property": "C43",
   "status": "proved",
   "theorems": [
    "Verif.Hash.C43_ihash_hash",
    "Verif.Hash.C43_hash_ihash",
    "Verif.Hash.C43_injective",
    "Verif.Hash.C43_multiply",
    "Verif.Hash.C43_xorshift",
    "Verif.Hash.C43_xorshift_domain",
    "Verif.Hash.C43_width64_oob"
   ],
   "note": "All widths up to 63, proved from the inverse table, which is checked row by row; width 64 (the default) reads past the table. Xorshift alone also for width 64 and every K below 32 (C43_xorshift); C43_xorshift_domain: beyond it shifts by 64 or more."
  },
  {
   "property": "C44",
   "status": "proved",
   "theorems": [
    "Verif.CHT.C44_map",
    "Verif.CHT.C44_default",
    "Verif.CHT.C44_strict_ub",
    "Verif.CHT.C44_small_domain"
   ],
   "note": "Set/reserve/get for every bijective hash and every history, growth included; bounds: load 1..99 with at least one usable slot, quotient words of at most 63 bits, fewer than 2^55 calls (no 64 bit overflow). C44_default is the instance with SplitMixHash, load 50, 8 buckets. Strict reading of the default constructed member and too small tables are shown separately."
  },
  {
   "property": "C45",
   "status": "partial",
   "theorems": [
    "Verif.CHT.C45_erase_refuted",
    "Verif.CHT.C45_others_partial",
    "Verif.CHT.C45_other_key_lost",
    "Verif.CHT.C45_one_bucket_ub",
    "Verif.CHT.C45_quiet_partial",
    "Verif.CHT.C45_full_domain",
    "Verif.CHT.C45_never_ends"
   ],
   "note": "False: get never looks at the deleted mark, so an erased key is still reported (for every history); erase can mark another key, which is lost at the next growth. Proved parts: get of the other keys right after one erase; any mixture of set and erase during which the table is not copied (C45_quiet_partial: get gives the last value set). C45_never_ends: ten calls on a table with the default number of slots after which every slot is used and set of a new key goes round forever. See C87 for what holds of all histories."
  },
  {
   "property": "C46",
   "status": "partial",
   "theorems": [
    "Verif.CDRW.C46_array_partial",
    "Verif.CDRW.C46_of_list",
    "Verif.CDRW.C46_array_refuted",
    "Verif.CDRW.C46_wide_ub",
    "Verif.CDRW.C46_strict_ub",
    "Verif.CDRW.C46_empty_oob",
    "Verif.CDRW.C46_never_ends",
    "Verif.CDRW.C46_sparse_partial",
    "Verif.CDRW.C46_gaps_partial"
   ],
   "note": "False: set erases from the table after the right one and can lose another element (C46_array_refuted, five writes). Proved: histories in which a nonzero element of b bits keeps its bit length or is rewritten before any value of b + 1 bits was written (so any history of values whose bit lengths are never consecutive, C46_gaps_partial), and the constructor from a range; values below 2^63, because the table of width 64 is built with an undefined shift. C46_never_ends: twelve writes after which a set does not return. See C88 for what holds of all histories."
  },
  {
   "property": "C47",
   "status": "proved",
   "theorems": [
    "Verif.Serial.C47_item_roundtrip",
    "Verif.Serial.C47_roundtrip",
    "Verif.Serial.C47_size_vec"
   ],
   "note": "Values of any width, vectors, strings, and sequences of them."
  },
  {
   "property": "C48",
   "status": "proved",
   "theorems": [
    "Verif.PM.C48_simple"
   ],
   "note": "All keys and texts."
  },
  {
   "property": "C49",
   "status": "proved",
   "theorems": [
    "Verif.PM.C49_kmp",
    "Verif.PM.C49_kmp_terminated",
    "Verif.PM.C49_strict_ub",
    "Verif.PM.C49_past_byte",
    "Verif.PM.C49_empty_key"
   ],
   "note": "Sharper than stated: only bytes after an occurrence matter; C49_strict_ub gives the exact condition for undefined behaviour without that byte."
  },
  {
   "property": "C50",
   "status": "proved",
   "theorems": [
    "Verif.PM.C50_bm",
    "Verif.PM.C50_empty_key_ub",
    "Verif.PM.C50_key_ub",
    "Verif.PM.C50_text_ub",
    "Verif.PM.C50_last_character",
    "Verif.PM.C50_returns"
   ],
   "note": "The domain is also shown to be needed (three undefined cases). C50_returns: for all bytes, a search that returns is exact."
  },
  {
   "property": "C51",
   "status": "proved",
   "theorems": [
    "Verif.PM.C51_qs",
    "Verif.PM.C51_short_text_ub",
    "Verif.PM.C51_key_ub",
    "Verif.PM.C51_text_ub",
    "Verif.PM.C51_returns"
   ],
   "note": "Texts may even hold bytes 0x80 to 0xFE; the other conditions are shown to be needed. C51_returns: for all bytes, a search that returns is exact."
  },
  {
   "property": "C52",
   "status": "proved",
   "theorems": [
    "Verif.PM.C52_ms",
    "Verif.PM.C52_short_text_ub",
    "Verif.PM.C52_key_ub",
    "Verif.PM.C52_returns"
   ],
   "note": "Texts may even hold bytes 0x80 to 0xFE; the other conditions are shown to be needed. C52_returns: for all bytes, a search that returns is exact."
  },
  {
   "property": "C53",
   "status": "partial",
   "theorems": [
    "Verif.FO.C53_no_ub",
    "Verif.FO.C53_factors_partial",
    "Verif.FO.C53_refuted",
    "Verif.FO.C53_empty_ub",
    "Verif.FO.C53_fuel",
    "Verif.FO.C53_total",
    "Verif.FO.C53_two_letters",
    "Verif.FO.C53_short"
   ],
   "note": "Refuted in full: for a text of 71 letters the search for a base never ends (list of free elements empty). Partial: for every non-empty NUL-free text the construction never goes out of range, and whenever it ends every factor is accepted. In full (the construction ends and every factor is accepted) for texts over two letters, texts of at most 23 characters, and in general when letters * (m - 2) / 2 + 2 elements fit into the first blocks."
  },
  {
   "property": "C54",
   "status": "partial",
   "theorems": [
    "Verif.FO.C54_full_length_partial",
    "Verif.FO.C54_full_length_past_partial",
    "Verif.FO.C54_refuted"
   ],
   "note": "Refuted: image reads one byte past check_ in the last state, so text+g is accepted if that byte is g. Partial: exact without that read, and when the byte does not occur in the word."
  },
  {
   "property": "C55",
   "status": "partial",
   "theorems": [
    "Verif.FO.C55_bom_partial",
    "Verif.FO.C55_total",
    "Verif.FO.C55_two_letters",
    "Verif.FO.C55_short",
    "Verif.FO.C55_refuted",
    "Verif.FO.C55_strict_oob"
   ],
   "note": "Refuted for the witness key (construction never ends). Partial: for any key whose oracle is finished and any text without the byte after the array, the result is exact; a false match is exhibited when that byte occurs. In full, with termination, for keys over two letters, keys of at most 23 characters, and keys with few letters for their size (C53_total)."
  },
  {
   "property": "C56",
   "status": "partial",
   "theorems": [
    "Verif.FO.C56_turbo_partial",
    "Verif.FO.C56_ends",
    "Verif.FO.C56_refuted",
    "Verif.FO.C56_missed",
    "Verif.FO.C56_exact",
    "Verif.FO.C56_complete",
    "Verif.FO.C56_complete_short",
    "Verif.FO.C56_complete_first",
    "Verif.FO.C56_complete_run",
    "Verif.FO.C56_total"
   ],
   "note": "Refuted: an occurrence of aaaaab is missed. Partial: totality (given the construction; unconditional under the condition of C53_total) and soundness, increasing order. C56_complete: nothing is missed when every short period of a long proper prefix of the key is a period of the whole key; in particular for keys of at most five symbols, for keys whose first symbol does not come again in the first half, and for runs of one symbol. C56_exact: this condition is exact, for every other key C56_missed gives a text whose last occurrence is not reported."
  },
  {
   "property": "C57",
   "status": "proved",
   "theorems": [
    "Verif.Trie.C57_map",
    "Verif.Trie.C57_pointer",
    "Verif.Trie.C57_narrow",
    "Verif.Trie.C57_narrow_oob",
    "Verif.Trie.C57_narrow_fits",
    "Verif.Trie.C57_fits",
    "Verif.Trie.C57_narrow_fails"
   ],
   "note": "The number of inserts is not limited, only the number of different prefixes, and that limit is exact (C57_narrow_fits, C57_narrow_fails). For 64 bit SizeType and any bytes; for narrower SizeType with NUL-free keys and queries; an out of range access is exhibited for a narrow SizeType and a key with NUL."
  },
  {
   "property": "C58",
   "status": "proved",
   "theorems": [
    "Verif.Trie.C58_dfs",
    "Verif.Trie.C58_bfs",
    "Verif.Trie.C58_dfs_fits",
    "Verif.Trie.C58_bfs_fits"
   ],
   "note": "dfs in pre-order by labels, bfs by length then labels; each node once, with its depth."
  },
  {
   "property": "C59",
   "status": "proved",
   "theorems": [
    "Verif.Samc.C59_accept",
    "Verif.Samc.C59_empty_ub",
    "Verif.Samc.C59_nul_domain",
    "Verif.Samc.C59_fits",
    "Verif.Samc.C59_defined",
    "Verif.Samc.C59_narrow_ub"
   ],
   "note": "C59_fits is exact in the code type: for key sets with (L+2)(1+(L+1)n^2) < 2^64 the constructor with W-bit codes gives the object with 64-bit codes if that has fewer than 2^W places, and writes out of range otherwise; C59_accept needs only the keys for the condition ((L+2)(1+(L+1)n^2) < 2^W). Also stated: an empty list, NUL bytes, and as many keys as the code type has values are outside the domain."
  },
  {
   "property": "C60",
   "status": "proved",
   "theorems": [
    "Verif.Samc.C60_lookup",
    "Verif.Samc.C60_fits"
   ],
   "note": "Size condition as in C59 (exact in C60_fits); equal keys share an id."
  },
  {
   "property": "C61",
   "status": "partial",
   "theorems": [
    "Verif.Samc.C61_access_bmi2_partial",
    "Verif.Samc.C61_access_512",
    "Verif.Samc.C61_access_portable_refuted",
    "Verif.Samc.C61_access_portable_bmi2",
    "Verif.Samc.C61_access_threshold_partial",
    "Verif.Samc.C61_access_portable_partial",
    "Verif.Samc.C61_access_refuted",
    "Verif.Samc.C61_fits_partial",
    "Verif.Samc.C61_fits_portable_partial"
   ],
   "note": "BMI2 build: exact for up to 512 different keys; above that there is a multiple K of 512 such that exactly the ids from K on (fewer than 512) read out of range (C61_access_threshold_partial). C61_access_refuted: this happens in every build with 513 keys of two bytes. Portable build: exact for fewer than 16 keys, refuted with 46 one-byte keys (sel, C07). The _fits_ forms need only that the object is constructed and has fewer than 2^41 places."
  },
  {
   "property": "C62",
   "status": "partial",
   "theorems": [
    "Verif.SA.C62_refuted",
    "Verif.SA.C62_local_partial",
    "Verif.SA.C62_exact_partial",
    "Verif.SA.C62_inner_partial",
    "Verif.SA.C62_empty_ub",
    "Verif.SA.C62_nonascii_oob",
    "Verif.SA.C62_nul_ub",
    "Verif.SA.C62_nul_domain",
    "Verif.SA.C62_iff_partial",
    "Verif.SA.C62_swapped_partial"
   ],
   "note": "Refuted: bacbab gets a wrong array. C62_swapped_partial says for every text of bytes 1..127 exactly which pairs of suffixes are in the wrong order (Swapped, a relation on the text alone), so the array is correct if and only if there is no such pair. Further: wrongly ordered suffixes agree up to a valley; sufficient conditions, and a simpler one if and only if when no two valleys are followed by the same letters. Empty texts and bytes above 127 are undefined; a NUL in the text can make the constructor undefined (C62_nul_ub) or the array wrong (C62_nul_domain)."
  },
  {
   "property": "C63",
   "status": "proved",
   "theorems": [
    "Verif.SA.C63_lcp"
   ],
   "note": "Whenever the suffix array is correct."
  },
  {
   "property": "C64",
   "status": "proved",
   "theorems": [
    "Verif.SA.C64_roundtrip",
    "Verif.SA.C64_any"
   ],
   "note": "Also for objects with a wrong array; C64_any is about texts of any bytes for which the constructor is defined."
  },
  {
   "property": "C65",
   "status": "proved",
   "theorems": [
    "Verif.MBit.C65_roundtrip"
   ],
   "note": "Includes arbitrary padding bytes."
  },
  {
   "property": "C66",
   "status": "proved",
   "theorems": [
    "Verif.Trie.C66_size",
    "Verif.Trie.C66_fits"
   ],
   "note": "All histories of inserts."
  },
  {
   "property": "C67",
   "status": "proved",
   "theorems": [
    "Verif.Samc.C67_samc_roundtrip",
    "Verif.Samc.C67_dict_roundtrip",
    "Verif.Samc.C67_samc_fits",
    "Verif.Samc.C67_dict_fits"
   ],
   "note": "SamcDict: below 2^41 places. The _fits forms need only that the object is constructed."
  },
  {
   "property": "C68",
   "status": "partial",
   "theorems": [
    "Verif.CDRW.C68_vector_partial",
    "Verif.CDRW.C68_shrink_empty_ub",
    "Verif.CDRW.C68_push_empty_ub",
    "Verif.CDRW.C68_stale_refuted"
   ],
   "note": "Proved for vectors constructed with at least one element under all calls, if a place (also of an element given up) keeps its bit length unless it is zero or no value with one bit more was written, resize does not bring back elements and no empty vector is shrunk. push_back on an empty vector is out of range; elements given up come back."
  },
  {
   "property": "C69",
   "status": "partial",
   "theorems": [
    "Verif.Fit.C69_moves_partial",
    "Verif.Fit.C69_width_one",
    "Verif.Fit.C69_back",
    "Verif.Fit.C69_refuted"
   ],
   "note": "False as stated: a move by k is a move by k bits (C69_refuted), so begin() + k is element k only for width 1. Proved: the value read after any moves forward is the word of that width at that bit, width 1 is right, and moves back are right within a word. Operators that do not compile when used are listed in the file."
  },
  {
   "property": "C70",
   "status": "proved",
   "theorems": [
    "Verif.Bits.Vec.C70_swap_mmx",
    "Verif.Bits.Vec.C70_xorMap_avx2",
    "Verif.Bits.Vec.C70_isZero256_avx2",
    "Verif.Bits.Vec.C70_set256_avx2"
   ],
   "note": "The intrinsics are modelled on lists of lanes as the manuals describe them; alignment is not. The AVX512 branch names functions that do not exist and is not modelled."
  },
  {
   "property": "C71",
   "status": "proved",
   "theorems": [
    "Verif.Dac.C71_iterate"
   ],
   "note": "All the operators of the iterator that the range loops and standard algorithms use."
  },
  {
   "property": "C72",
   "status": "proved",
   "theorems": [
    "Verif.PM.C72_kmp_linear"
   ],
   "note": "Counted versions of the functions, shown to give the results of the model, with bounds on the count."
  },
  {
   "property": "C73",
   "status": "proved",
   "theorems": [
    "Verif.SA.C73_lcp_linear"
   ],
   "note": "A counted version of BuildLCP_, shown to give the array of the model, with a bound on the count; it holds for every permutation, so also where the array is not sorted (C62)."
  },
  {
   "property": "C74",
   "status": "proved",
   "theorems": [
    "Verif.SA.C74_depth"
   ],
   "note": "Sais_ with a limit on the depth equals Sais_; an LMS position has an L position before it, so each text is at most half as long."
  },
  {
   "property": "C75",
   "status": "partial",
   "theorems": [
    "Verif.Calc.C75_optimal_partial",
    "Verif.Calc.C75_limited_refuted",
    "Verif.Dac.C75_object_partial"
   ],
   "note": "The dynamic program is optimal for every cost function below 2^63; the object follows the estimate by C77. With max_levels = 2 a better split of two levels exists (refuted, for every std::sort)."
  },
  {
   "property": "C76",
   "status": "proved",
   "theorems": [
    "Verif.Succ.C76_space"
   ],
   "note": "Exact formula for size_in_bytes and bounds in bits."
  },
  {
   "property": "C77",
   "status": "proved",
   "theorems": [
    "Verif.Dac.C77_size"
   ],
   "note": "Sandwich between the estimate of C75 and the estimate plus a constant per layer; the layers hold as many values as the estimate counts."
  },
  {
   "property": "C78",
   "status": "proved",
   "theorems": [
    "Verif.SA.C78_suffix",
    "Verif.SA.C78_order",
    "Verif.SA.C78_write_parts"
   ],
   "note": "Accessors against the text; order and common prefixes from C63; the parts by the FitVector round trip."
  },
  {
   "property": "C79",
   "status": "proved",
   "theorems": [
    "Verif.Heap.C79_sort",
    "Verif.Heap.C79_build",
    "Verif.Heap.C79_push_pop"
   ],
   "note": "Counting versions of the loops that compute the same results."
  },
  {
   "property": "C80",
   "status": "proved",
   "theorems": [
    "Verif.FO.C80_external",
    "Verif.FO.C80_all"
   ],
   "note": "The depth of the chain of suffix links pays for the transitions; bound reached by the examples."
  },
  {
   "property": "C81",
   "status": "proved",
   "theorems": [
    "Verif.Wave.C81_space"
   ],
   "note": "Every value is in one node of each level; C76 for every node."
  },
  {
   "property": "C82",
   "status": "proved",
   "theorems": [
    "Verif.Wave.C82_nodeDiff",
    "Verif.Wave.C82_nodeDiff_ub"
   ],
   "note": "Value, meaning as a count of node numbers, and undefined behaviour beyond the root."
  },
  {
   "property": "C83",
   "status": "proved",
   "theorems": [
    "Verif.Log.C83_show",
    "Verif.Log.C83_default",
    "Verif.Log.C83_show_ub"
   ],
   "note": "Layout of the output, value read back from it, undefined behaviour for large sizes."
  },
  {
   "property": "C84",
   "status": "proved",
   "theorems": [
    "Verif.SA.C84_report",
    "Verif.SA.C84_longest"
   ],
   "note": "The division and the formatting of the float average are not modelled."
  },
  {
   "property": "C85",
   "status": "partial",
   "theorems": [
    "Verif.Dac.C85_status_partial",
    "Verif.Dac.C85_refuted",
    "Verif.Dac.C85_default"
   ],
   "note": "Refuted for vectors with one layer: the first path is asked for although there is none. Proved for two layers and more, and for the default object. The float quotient is a parameter of the model."
  },
  {
   "property": "C86",
   "status": "proved",
   "theorems": [
    "Verif.Samc.C86_shifts",
    "Verif.Samc.C86_shifts_ub"
   ],
   "note": "The result is a lower bound on the next shift that can do; the function is private and not used."
  },
  {
   "property": "C87",
   "status": "proved",
   "theorems": [
    "Verif.CHT.C87_safe",
    "Verif.CHT.C87_set_get"
   ],
   "note": "For every history of set, erase and reserve that returns: get returns, reports only the last value that was set, and reports a key right after it was set. A history may also not return (C45_never_ends)."
  },
  {
   "property": "C88",
   "status": "proved",
   "theorems": [
    "Verif.CDRW.C88_array",
    "Verif.CDRW.C88_array_set_get",
    "Verif.CDRW.C88_vector",
    "Verif.CDRW.C88_vector_set_get"
   ],
   "note": "For every history that returns, also those excluded from C46 and C68: an element reads as the last value written at its position or as zero, and as the value right after it was written. A set may also not return (C46_never_ends)."
  },
  {
   "property": "C89",
   "status": "proved",
   "theorems": [
    "Verif.CHT.C89_returns"
   ],
   "note": "erase and reserve always return; set(k, v) fails to return exactly if all slots are used and get(k) does not report the key (such a state is reachable: C45_never_ends). Hash words of at most 60 bits, load at most 99, at most 2^55 calls."
  },
  {
   "property": "C90",
   "status": "proved",
   "theorems": [
    "Verif.CHT.C90_print",
    "Verif.CHT.C90_print_ub"
   ],
   "note": "print_for_debug, for every history of calls that returned and every table with fewer than 2^31 slots (the loop index is an int: with more, its increment is undefined, C90_print_ub). The reported keys are those get reports, which may include erased ones (C45)."
  },
  {
   "property": "C91",
   "status": "proved",
   "theorems": [
    "Verif.IArr.C91_folklore",
    "Verif.IArr.C91_inplace",
    "Verif.IArr.C91_histories"
   ],
   "note": "Accesses to array cells are counted in a second copy of the functions (Verif/IArr/Cost.lean); the theorems say that this copy returns the same results. The constructor of the folklore variant value-initialises its cells and is not covered."
  },
  {
   "property": "C92",
   "status": "proved",
   "theorems": [
    "Verif.CHT.C92_set",
    "Verif.CHT.C92_reserve",
    "Verif.CHT.C92_space",
    "Verif.CHT.C92_room"
   ],
   "note": "For every history of set and reserve; reserve characterised exactly (C92_reserve)."
  },
  {
   "property": "C93",
   "status": "partial",
   "theorems": [
    "Verif.CHT.C93_room_partial",
    "Verif.CHT.C93_room_refuted",
    "Verif.CHT.C93_shrinks"
   ],
   "note": "False: reserve(129) with the default load makes room for 128 elements (need_size uses 99 instead of 100), and reserve can make a table smaller (reserve(1) on a new table leaves 2 of 8 slots). Proved instead: bucket() does not change before 99 percent of n are there; C92_reserve says exactly how many slots there are."
  },
  {
   "property": "C94",
   "status": "proved",
   "theorems": [
    "Verif.Trie.C94_nodes",
    "Verif.Trie.C94_nodes_fits",
    "Verif.Trie.C94_other_domain",
    "Verif.Trie.C94_int_domain"
   ],
   "note": "For the signed and the short index types terminal() is true for every node (C94_other_domain); the tests of the repository use int (C94_int_domain)."
  },
  {
   "property": "C95",
   "status": "proved",
   "theorems": [
    "Verif.PM.C95_simple",
    "Verif.PM.C95_simple_exact",
    "Verif.PM.C95_bm",
    "Verif.PM.C95_qs",
    "Verif.PM.C95_ms",
    "Verif.PM.C95_tight"
   ],
   "note": "In the domains in which the searches are correct. C95_simple_exact gives the exact number for Simple. C95_tight: the first bound is reached by all four."
  },
  {
   "property": "C96",
   "status": "proved",
   "theorems": [
    "Verif.PM.C96_next",
    "Verif.PM.C96_next_oob",
    "Verif.PM.C96_skip",
    "Verif.PM.C96_skip_oob",
    "Verif.PM.C96_delta1",
    "Verif.PM.C96_pattern",
    "Verif.PM.C96_delta2",
    "Verif.PM.C96_pattern_smallest_first"
   ],
   "note": "Exact value of every entry of every table. C96_next_oob, C96_skip_oob: the entries that do not exist. C96_pattern_smallest_first: the order is by increasing distance."
  },
  {
   "property": "C97",
   "status": "proved",
   "theorems": [
    "Verif.Serial.C97_bit_vector",
    "Verif.Serial.C97_succinct",
    "Verif.Serial.C97_fit_vector",
    "Verif.Serial.C97_wavelet_tree",
    "Verif.Serial.C97_multiple_vector",
    "Verif.Serial.C97_multi_bit_vector",
    "Verif.Serial.C97_dac_vector",
    "Verif.Serial.C97_samc",
    "Verif.Serial.C97_samc_dict",
    "Verif.Serial.C97_suffix_array",
    "Verif.Serial.C97_cut_bit_vector",
    "Verif.Serial.C97_cut_succinct",
    "Verif.Serial.C97_cut_fit_vector",
    "Verif.Serial.C97_cut_wavelet_tree",
    "Verif.Serial.C97_cut_multiple_vector",
    "Verif.Serial.C97_cut_dac_vector",
    "Verif.Serial.C97_cut_samc",
    "Verif.Serial.C97_cut_samc_fits",
    "Verif.Serial.C97_cut_samc_dict",
    "Verif.Serial.C97_cut_samc_dict_fits",
    "Verif.Serial.C97_cut_suffix_array",
    "Verif.Serial.C97_cut_suffix_array_any",
    "Verif.Serial.C97_cut_multi_bit_vector"
   ],
   "note": "All readers of the library. The padding bytes of the rank tips of MultiBitVector with one and three bits are not part of the model of the object, so for these only the part about cut off files is proved."
  },
  {
   "property": "C98",
   "status": "proved",
   "theorems": [
    "Verif.FO.C98_bom",
    "Verif.FO.C98_turbo",
    "Verif.FO.C98_turbo_sum",
    "Verif.FO.C98_turbo_alien",
    "Verif.FO.C98_turbo_run"
   ],
   "note": "In the domain of C55 and C56 (the byte after the arrays does not occur in the text, the construction of the oracle ends). C98_turbo_sum: together at most 5n + 4m + 2m*matches. C98_turbo_run refutes linearity with runs, for m up to 2^23."
  },
  {
   "property": "C99",
   "status": "proved",
   "theorems": [
    "Verif.Succ.C99_select",
    "Verif.Succ.C99_select_words",
    "Verif.Succ.C99_select_log",
    "Verif.Succ.C99_select_dense",
    "Verif.Succ.C99_select_ones",
    "Verif.Succ.C99_select_total"
   ],
   "note": "Domain of C21 (group of 512 ones begun in a full block), any in-word select. C99_select_total shows the counted select has a result with the instructions of the build."
  },
  {
   "property": "C100",
   "status": "proved",
   "theorems": [
    "Verif.FO.C100_same",
    "Verif.FO.C100_linear",
    "Verif.FO.C100_exact"
   ],
   "note": "Calls are counted in a second copy of the construction (Verif/FO/CostBuild.lean), which has the same outcome (C100_same). C100_exact gives the exact numbers: a list of the external transitions grows by one with each insertion, and a chain ends at the root exactly for a letter that is new. The steps of _find_base are not counted; they are unbounded for the text of C53_refuted."
  },
  {
   "property": "C101",
   "status": "proved",
   "theorems": [
    "Verif.FO.C101_same",
    "Verif.FO.C101_short"
   ],
   "note": "A joint statement of C48 to C56 on their common domain. The byte after the key and after the array of the oracle is taken to be NUL (C49, C55, C56 say what happens otherwise). That TurboBOM may miss some is C56_refuted; that BOM may not end is C55_refuted."
  },
  {
   "property": "C102",
   "status": "proved",
   "theorems": [
    "Verif.SA.C102_interval",
    "Verif.SA.C102_no_valley",
    "Verif.SA.C102_two",
    "Verif.SA.C102_ascending",
    "Verif.SA.C102_three_fails"
   ],
   "note": "C102_interval takes a right array as hypothesis, since C62 does not hold in general; C102_no_valley, C102_two and C102_ascending need none. C102_three_fails shows that three characters are too many in general."
  },
  {
   "property": "C103",
   "status": "proved",
   "theorems": [
    "Verif.FO.C103_bounded",
    "Verif.FO.C103_dichotomy",
    "Verif.FO.C103_total"
   ],
   "note": "A search with a free element goes round the ring of free elements once at most, then takes the first element of a new block; without a free element it stays at element 0 for ever. Each insertion adds one block at most, so the ring has at most 257 m elements. Proved through the counted construction of C100."
  },
  {
   "property": "C104",
   "status": "proved",
   "theorems": [
    "Verif.SA.C104_linear"
   ],
   "note": "Proved through a counted copy of Sais_ that is shown to compute the same array. The comparisons of LMS substrings are linear together because each LMS position is the left side of one comparison at most and the substrings overlap in their ends only. Not counted: the growth of the vector in FindLMSs_ and what the constructor does after Sais_ (C73 counts the comparisons for the LCP array)."
  },
  {
   "property": "C105",
   "status": "proved",
   "theorems": [
    "Verif.Samc.C105_space"
   ],
   "note": "The lower bound is attained (example). Size limit: (L+2)(1+(L+1)N^2) < 2^64. The upper bound is what the search of a free slot can be shown to stay below; it is not shown to be attained."
  },
  {
   "property": "C106",
   "status": "proved",
   "theorems": [
    "Verif.Samc.C106_agree"
   ],
   "note": "Size limit as for Samc (C59)."
  },
  {
   "property": "C107",
   "status": "proved",
   "theorems": [
    "Verif.SA.C107_repeats",
    "Verif.SA.C107_factors"
   ],
   "note": "Holds whenever the suffix array is right (C62 says when that is)."
  },
  {
   "property": "C108",
   "status": "proved",
   "theorems": [
    "Verif.Reads.C108_rank",
    "Verif.Reads.C108_fit",
    "Verif.Reads.C108_dac",
    "Verif.Reads.C108_wave"
   ],
   "note": "Counted are the accesses to words, directory entries and entries of the vectors of layers, paths and nodes."
  },
  {
   "property": "C109",
   "status": "proved",
   "theorems": [
    "Verif.Samc.C109_set",
    "Verif.Samc.C109_legacy",
    "Verif.Samc.C109_dict",
    "Verif.Samc.C109_file"
   ],
   "note": "Proved by showing that every character of every depth gets the least code that fits and every depth the least height; these conditions have only one solution. If the code type is too narrow, all the constructors are undefined alike."
  },
  {
   "property": "C110",
   "status": "proved",
   "theorems": [
    "Verif.BV.C110_bitvector",
    "Verif.BV.C110_bitvector_cut_domain",
    "Verif.Fit.C110_fitvector",
    "Verif.Fit.C110_fitvector_cut_domain"
   ],
   "note": "The conditions are on the calls, not on the object; the theorems ending in _cut_domain show that they are needed."
  },
  {
   "property": "C111",
   "status": "proved",
   "theorems": [
    "Verif.Samc.C111_accept",
    "Verif.Samc.C111_lookup"
   ],
   "note": "Accesses to the code table, heads, labels and the words and directory of the leaves are counted; the counted functions return what the functions of the model return."
  },
  {
   "property": "C112",
   "status": "proved",
   "theorems": [
    "Verif.Samc.C112_search",
    "Verif.Samc.C112_build",
    "Verif.Samc.C112_types"
   ],
   "note": "Reads of words (field_bits) and of bits of the vector of free places are counted; the counted functions return what the functions of the model return. The upper bounds are not claimed to be attained."
  },
  {
   "property": "C113",
   "status": "proved",
   "theorems": [
    "Verif.CHT.C113_get",
    "Verif.CHT.C113_set",
    "Verif.CHT.C113_erase"
   ],
   "note": "Each read and each write of an element of arr_ or values_ counts once, each test of a flag reads again, as in the code. The counted functions return what the functions of the model return. A set that makes the table grow is not bounded here; one on a table whose slots are all used never returns (C45)."
  },
  {
   "property": "C114",
   "status": "proved",
   "theorems": [
    "Verif.Trie.C114_traverse",
    "Verif.Trie.C114_insert"
   ],
   "note": "The counted functions return what the functions of the model return. A node counts once each time container_ is indexed and once when it is added; the lookups in the map of edges inside a node (at most 256 entries) are not counted. Only the number of different prefixes of the keys inserted before has to fit the index type."
  },
  {
   "property": "C115",
   "status": "proved",
   "theorems": [
    "Verif.CDRW.C115_tables",
    "Verif.CDRW.C115_bits",
    "Verif.CDRW.C115_range"
   ],
   "note": "A write that changes the bit length of a nonzero element goes to the wrong table (C46), so these are outside the claim. The table for values of 64 bits is not counted: its construction is undefined (C46). Counted are the elements times the width of each FitVector, not the rounding to words or the members."
  },
  {
   "property": "C116",
   "status": "proved",
   "theorems": [
    "Verif.CHT.C116_set",
    "Verif.CHT.C116_history"
   ],
   "note": "Counted is one for each run of the part of set behind the check of the load (one evaluation of the hash, one search), also inside _resize. The search itself is bounded in C113. Histories with erase are outside the claim."
  },
  {
   "property": "C117",
   "status": "proved",
   "theorems": [
    "Verif.CDRW.C117_history",
    "Verif.CDRW.C117_returns",
    "Verif.CDRW.C117_call"
   ],
   "note": "Counted are the elements written into the new array by _allocate. Histories with reserve and shrink_to_fit are outside the bound on the sum: these ask for a capacity, and shrink_to_fit followed by push_back moves all elements each time."
  },
  {
   "property": "C118",
   "status": "partial",
   "theorems": [
    "Verif.Mult.C118_set_at_partial",
    "Verif.Mult.C118_set_at_refuted",
    "Verif.Mult.C118_assign_refuted"
   ],
   "note": "Proved for fields not wider than max(4, sizeof T); refuted for all wider fields and for operator=."
  },
  {
   "property": "C119",
   "status": "proved",
   "theorems": [
    "Verif.CDRW.C119_returns",
    "Verif.CDRW.C119_history"
   ],
   "note": "Counted are runs of lines 118-170 of CHT.hpp, each with one evaluation of the hash and one search. Histories that change bit lengths are outside because of the fault of C46."
  },
  {
   "property": "C120",
   "status": "proved",
   "theorems": [
    "Verif.Same.C120_containers"
   ],
   "note": "The out of bounds accesses of the choice of widths are taken as harmless, as in C32; see C15."
  },
  {
   "property": "C121",
   "status": "proved",
   "theorems": [
    "Verif.Same.C121_ranks",
    "Verif.Same.C121_bits"
   ],
   "note": "rank of a MultiBitVector at a zero is undefined (C31_zero)."
  },
  {
   "property": "C122",
   "status": "proved",
   "theorems": [
    "Verif.Serial.C122_bit_vector",
    "Verif.Serial.C122_succinct",
    "Verif.Serial.C122_fit_vector",
    "Verif.Serial.C122_wavelet_tree",
    "Verif.Serial.C122_multiple_vector",
    "Verif.Serial.C122_dac_vector",
    "Verif.Serial.C122_samc",
    "Verif.Serial.C122_samc_dict",
    "Verif.Serial.C122_suffix_array",
    "Verif.Serial.C122_multi_bit_vector",
    "Verif.Serial.C122_bit_vector_exact"
   ],
   "note": "A short read stores the bytes that are left and sets the error bits, later reads store nothing; an incompletely stored value of read_val is indeterminate (outcome undefined). An allocation of a size read from the file that fails is not modelled."
  },
  {
   "property": "C123",
   "status": "partial",
   "theorems": [
    "Verif.Mult.C123_fields_partial",
    "Verif.Mult.C123_same_layout_partial",
    "Verif.Mult.C123_store_again_refuted",
    "Verif.Serial.C123_bit_vector",
    "Verif.Serial.C123_succinct",
    "Verif.Serial.C123_multi_bit_vector",
    "Verif.Serial.C123_samc",
    "Verif.Serial.C123_samc_dict",
    "Verif.Wave.C123_height_refuted",
    "Verif.Wave.C123_same_height_partial"
   ],
   "note": "Proved for BitVector, SuccinctBitVector, MultiBitVector, Samc and SamcDict for any bytes. False for MultipleVector: LoadFrom appends to the field table, so the fields of the file stand behind the old ones (C123_fields_partial); into an object of the same layout the contents are right (C123_same_layout_partial), but storing it again and loading that file leaves half of the records (C123_store_again_refuted, for every vector). False for WaveletTree: Read keeps the number of nodes, so after a read into a lower tree every query is out of range, and a read into a higher tree runs past the file (C123_height_refuted); right for equal heights."
  },
  {
   "property": "C124",
   "status": "proved",
   "theorems": [
    "Verif.Trie.C124_index",
    "Verif.Trie.C124_insert",
    "Verif.Trie.C124_stable",
    "Verif.Trie.C124_dfs"
   ],
   "note": "The items are replaced by the keys (the nodes do not depend on the items), so that the list of items is the list of the different keys. C124_index, C124_insert, C124_stable, C124_dfs, all under the exact condition on the size. The address itself can change when the vector of items grows; places are modelled as indices."
  },
  {
   "property": "C125",
   "status": "partial",
   "theorems": [
    "Verif.Serial.C125_bit_vector_partial",
    "Verif.Serial.C125_bit_vector_refuted",
    "Verif.Serial.C125_succinct_partial",
    "Verif.Serial.C125_succinct_refuted",
    "Verif.Serial.C125_fit_vector_partial",
    "Verif.Serial.C125_fit_vector_refuted",
    "Verif.Serial.C125_multi_bit_vector_get",
    "Verif.Serial.C125_multi_bit_vector_refuted",
    "Verif.Serial.C125_fit_vector_width_ub",
    "Verif.Serial.C125_multiple_vector_partial",
    "Verif.Serial.C125_multiple_vector_refuted",
    "Verif.Serial.C125_dac_vector_refuted",
    "Verif.Serial.C125_wavelet_tree_refuted",
    "Verif.Serial.C125_samc_partial",
    "Verif.Serial.C125_samc_refuted",
    "Verif.Serial.C125_suffix_array_refuted"
   ],
   "note": "False for all classes with a rank directory, a size of their own or tables, with files of a few bytes as witnesses (C125_*_refuted); no loader compares the sizes in a file with each other. Reading elements of a MultiBitVector is safe for every file (C125_multi_bit_vector_get). For BitVector, SuccinctBitVector, FitVector and MultipleVector the _partial theorems give the exact condition on the numbers in the file under which the queries are safe; a loader could check it. For Samc C125_samc_partial gives a sufficient condition. Missing: conditions for DacVector, WaveletTree, SuffixArray and for select. C125_fit_vector_width_ub: a width of 64 or more in the file is undefined behaviour already while reading."
  },
  {
   "property": "C126",
   "status": "proved",
   "theorems": [
    "Verif.Dac.C126_dac",
    "Verif.MBit.C126_multi_bit_vector",
    "Verif.Reads.C126_succinct",
    "Verif.Reads.C126_wave"
   ],
   "note": "Counting versions of the constructors, proved to return the same as the models. Counted: words, entries of directories, tips and nodes (also when a vector is created with zeros), every push_back of a bit as one, of a FitVector as two words. Not counted: what std::vector moves when it grows, and the search for the widths of a DacVector that is built without them."
  },
  {
   "property": "C127",
   "status": "partial",
   "theorems": [
    "Verif.Mult.C127_get_partial",
    "Verif.Mult.C127_get_refuted",
    "Verif.Mult.C127_set"
   ],
   "note": "Proved for both kinds of references, except: a const object read as a signed type of one byte whose lowest byte is 128 or more. There get_ shifts a negative number, which C++17 (set in CMakeLists.txt) leaves undefined (C127_get_refuted); compilers return the right value."
  },
  {
   "property": "C128",
   "status": "partial",
   "theorems": [
    "Verif.CHT.C128_cht",
    "Verif.CDRW.C128_cdrw_partial",
    "Verif.CDRW.C128_cdrw_refuted",
    "Verif.CDRW.C128_vec_partial",
    "Verif.CDRW.C128_vec_pop_refuted",
    "Verif.CDRW.C128_vec_resize_refuted",
    "Verif.CDRW.C128_vec_empty",
    "Verif.FO.C128_oracle",
    "Verif.FO.C128_oracle_short",
    "Verif.FO.C128_oracle_never_ends",
    "Verif.IArr.C128_inplace",
    "Verif.Mult.C128_nested",
    "Verif.Mult.C128_nested_domain",
    "Verif.Mult.C128_nested_ub",
    "Verif.Samc.C128_samc_lookup",
    "Verif.Samc.C128_samc_access_partial",
    "Verif.Samc.C128_samc_access_portable_partial",
    "Verif.Samc.C128_samc_refuted",
    "Verif.Samc.C128_samc_build_partial",
    "Verif.Samc.C128_samc_unsorted_refuted",
    "Verif.Wave.C128_wavelet_partial",
    "Verif.Wave.C128_wavelet_refuted"
   ],
   "note": "C128_inplace, C128_cht hold in full; C128_cdrw_partial and C128_wavelet_partial on part of the domain; C128_cdrw_refuted: a history after which get aborts; C128_wavelet_refuted: rank(c, i) aborts for every c that is not the value at i. C128_oracle: for NUL-free texts the construction with assertions gives an oracle exactly if it does so without, and the same one; C128_oracle_short: so it always does up to 23 characters; C128_oracle_never_ends: the text of C53_refuted gets none either. C128_nested: set_nested_element and nested_element of MultipleVector in the domain; C128_nested_domain: outside of it they abort; C128_nested_ub: but for values of 2^56 or more the assertion itself shifts by 64. C128_samc_lookup holds in full; C128_samc_build_partial for sorted keys, C128_samc_unsorted_refuted: keys in another order for which the construction aborts and without assertions works; C128_samc_access_partial (BMI2) and C128_samc_access_portable_partial (fewer than 16 keys): access to a key aborts exactly if it has a byte 255 (kEmptyChar), C128_samc_refuted: an instance. C128_vec_partial: push_back and set of CDRWVector; C128_vec_pop_refuted, C128_vec_resize_refuted: pop_back, resize and reserve abort in _allocate; C128_vec_empty: push_back on an empty vector aborts. Not covered: the assertions inside of CHT::set and _resize; those of FitVector, Heap, MultiBitVector and bit_util, which repeat conditions of the theorems on these classes."
  }
 ]
}