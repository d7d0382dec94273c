{
 "claims": [
  {
   "property": "C01",
   "status": "proved",
   "theorems": [
    "CBT.C01_flat_build_decode"
   ],
   "note": "All valid sets with 3 <= u <= 2^62 and fewer than 2^32 elements; u = 2 is covered by C32."
  },
  {
   "property": "C02",
   "status": "proved",
   "theorems": [
    "CBT.C02_level_build_decode"
   ],
   "note": "binTrie and binTrie_il."
  },
  {
   "property": "C03",
   "status": "proved",
   "theorems": [
    "CBT.C03_fast_build_decode"
   ],
   "note": "Word sizes 8, 16, 32, 64; 2^(lg-1) < u <= 2^62."
  },
  {
   "property": "C04",
   "status": "partial",
   "theorems": [
    "CBT.C04_flat_runs_decode_partial",
    "CBT.C04_flat_runs_decode_iff",
    "CBT.C04_flat_runs_negation",
    "CBT.C04_flat_runs_decode_exact"
   ],
   "note": "The unrestricted claim is false (C04_flat_runs_negation: out-of-bounds read). C04_flat_runs_decode_iff gives, for every valid set, the exact condition under which decoding works; C04_flat_runs_decode_exact states it from the set and the number of readable bits alone, and that decoding reads out of bounds otherwise."
  },
  {
   "property": "C05",
   "status": "proved",
   "theorems": [
    "CBT.C05_level_runs_decode"
   ],
   "note": "binTrie and binTrie_il."
  },
  {
   "property": "C06",
   "status": "partial",
   "theorems": [
    "CBT.C06_fast_runs_decode_partial",
    "CBT.C06_fast_runs_negation",
    "CBT.C06_fast_runs_decode_exact"
   ],
   "note": "Proved when the uninitialised member empty_trie is false; refuted when it is true; the _exact theorem gives the decoded list for either value."
  },
  {
   "property": "C07",
   "status": "proved",
   "theorems": [
    "CBT.C07_seq_intersect_plain"
   ],
   "note": "1..16 plain flat/level-wise tries of one height in any mixture; hardware_concurrency() must not return 0, since even the sequential call takes its logarithm. The unused result of AND, which may be computed from an indeterminate bool, is ignored here; see C54."
  },
  {
   "property": "C08",
   "status": "partial",
   "theorems": [
    "CBT.C08_seq_intersect_runs_partial",
    "CBT.C08_seq_intersect_runs_negation",
    "CBT.C08_seq_runs_returned",
    "CBT.C08_seq_runs_exact_partial",
    "CBT.C08_par_runs_exact_partial",
    "CBT.C08_par_oob_seq_partial"
   ],
   "note": "Result and no undefined behaviour for all mixtures, except run-encoded flat tries whose last level collapsed and whose zeros are not readable after bTrie; for those the statement is false (negation theorem). Without any such condition: whatever is returned is the intersection, and C08_seq_runs_exact_partial says exactly, from the sets and the number of bits readable after a bit vector, when it is returned and that the call reads out of bounds otherwise. C08_par_runs_exact_partial says the same of parallel calls, and C08_par_oob_seq_partial that they read out of bounds only where the sequential call does."
  },
  {
   "property": "C09",
   "status": "proved",
   "theorems": [
    "CBT.C09_fast_seq_intersect_plain"
   ],
   "note": "All four word sizes. The unused result of AND, which may be computed from an indeterminate bool, is ignored here; see C54."
  },
  {
   "property": "C10",
   "status": "proved",
   "theorems": [
    "CBT.C10_fast_seq_intersect_runs"
   ],
   "note": "All four word sizes, any mixture of plain and run-encoded tries, arbitrary values of the members the constructor leaves unwritten."
  },
  {
   "property": "C11",
   "status": "proved",
   "theorems": [
    "CBT.C11_parallel_plain"
   ],
   "note": "Height at least 2 and 1 to 65535 hardware threads, every interleaving; result is also shown to be the common elements in increasing order. The unused result of AND, which may be computed from an indeterminate bool, is ignored here; see C54."
  },
  {
   "property": "C12",
   "status": "partial",
   "theorems": [
    "CBT.C12_parallel_runs_partial",
    "CBT.C12_parallel_runs_negation",
    "CBT.C12_parallel_order_negation",
    "CBT.C12_parallel_runs_result_partial",
    "CBT.C12_parallel_runs_lost_partial",
    "CBT.C08_par_runs_exact_partial"
   ],
   "note": "False in general (two refutations with concrete tries: elements lost, result not sorted). Proved when no set of a run-encoded trie contains a full aligned block of 2^(height - floor(log2(hw))) elements. Proved without that condition: the exact list returned, as a function of the sets and of which tries are run-encoded, and exactly which common elements are missing. C08_par_runs_exact_partial includes flat tries whose last level collapsed: the exact list, or an out-of-bounds read, and when."
  },
  {
   "property": "C13",
   "status": "partial",
   "theorems": [
    "CBT.C13_fast_parallel_plain",
    "CBT.C13_fast_parallel_runs_partial",
    "CBT.C13_fast_parallel_runs_negation",
    "CBT.C13_fast_parallel_height1_negation",
    "CBT.C32_fast_height1_parallel",
    "CBT.C13_fast_parallel_runs_result_partial",
    "CBT.C13_fast_parallel_runs_lost_partial"
   ],
   "note": "Proved for plain fast tries of height at least 2; for run-aware calls as C12, including the exact result; for height 1 the exact result is proved (equal only with one hardware thread). False for run-aware calls in general and for height 1 (refuted)."
  },
  {
   "property": "C14",
   "status": "partial",
   "theorems": [
    "CBT.C14_parallel_runs_sound",
    "CBT.C14_fast_parallel_runs_sound",
    "CBT.C14_parallel_runs_returned",
    "CBT.C14_parallel_runs_returned_all",
    "CBT.C14_fast_height1_negation",
    "CBT.C16_runs_outcomes"
   ],
   "note": "Flat and level-wise tries: every element returned is common and none is repeated, for all built or run-encoded tries of every height and 1 to 65535 hardware threads (C14_parallel_runs_returned_all); the only other outcome is an out-of-bounds read (C16_runs_outcomes), which happens at height 1 and for collapsed flat tries, exactly as C32_height1_intersect and C08_par_runs_exact_partial say. Fast tries: proved for height at least 2, false for height 1 with two or more hardware threads (every list of sets that are not all full)."
  },
  {
   "property": "C15",
   "status": "proved",
   "theorems": [
    "CBT.C15_different_heights",
    "CBT.C15_fast_different_heights"
   ],
   "note": "Any tries, any mode, any environment."
  },
  {
   "property": "C16",
   "status": "partial",
   "theorems": [
    "CBT.C16_no_tries",
    "CBT.C16_up_to_16",
    "CBT.C16_more_than_16",
    "CBT.C16_fast_more_than_16",
    "CBT.C32_height1_intersect",
    "CBT.C16_runs_outcomes",
    "CBT.C16_more_than_16_all",
    "CBT.C16_negation",
    "CBT.C16_parallel_negation"
   ],
   "note": "False of the code as stated: calls on one trie read out of bounds, for run-encoded flat tries that collapse (C16_negation) and in parallel for level-wise tries of height 1 (C16_parallel_negation). Up to 16: as C07, C08, C11, C14. For all tries that can be built, a run-aware call on 1 to 16 of them returns distinct common elements or reads out of bounds (C16_runs_outcomes); exactly when: C08_seq_runs_exact_partial, C08_par_runs_exact_partial, C32_height1_intersect. More than 16: always out of bounds, also with collapsed flat tries."
  },
  {
   "property": "C17",
   "status": "proved",
   "theorems": [
    "CBT.C17_gather"
   ],
   "note": ""
  },
  {
   "property": "C18",
   "status": "proved",
   "theorems": [
    "CBT.C18_parallel_for",
    "CBT.C18_zero_threads",
    "CBT.C18_loop"
   ],
   "note": ""
  },
  {
   "property": "C19",
   "status": "partial",
   "theorems": [
    "CBT.C19_flat_roundtrip_partial",
    "CBT.C19_flat_roundtrip_order_negation"
   ],
   "note": "For every flat trie state and every sdsl format meeting the stated contract, with left-to-right evaluation of the two serialize calls; C++ leaves the order unspecified and with the other order the claim is refuted."
  },
  {
   "property": "C20",
   "status": "partial",
   "theorems": [
    "CBT.C20_level_roundtrip_partial",
    "CBT.C20_level_il_negation",
    "CBT.C20_level_il_repaired_negation"
   ],
   "note": "binTrie: proved for every trie. binTrie_il: refuted, serialize reads through an invalid pointer and load leaves the rank supports without a vector. C20_level_il_repaired_negation: even if serialize wrote through the right pointer, what load makes of the bytes could not be decoded, for any set."
  },
  {
   "property": "C21",
   "status": "proved",
   "theorems": [
    "CBT.C21_fast_roundtrip"
   ],
   "note": "Every word size, every fast trie state, every sdsl format meeting the stated contract."
  },
  {
   "property": "C22",
   "status": "partial",
   "theorems": [
    "CBT.C22_return_partial",
    "CBT.C22_fast_return_iff",
    "CBT.C22_fast_return_negation"
   ],
   "note": "Flat and level-wise: proved. Fast: false, with the exact condition under which it happens to hold."
  },
  {
   "property": "C23",
   "status": "proved",
   "theorems": [
    "CBT.C23_force_brute",
    "CBT.C23_limits"
   ],
   "note": "Reference intersection (std::sort/std::set_intersection by contract). C23_limits covers the degenerate argument lists."
  },
  {
   "property": "C24",
   "status": "partial",
   "theorems": [
    "CBT.C24_sound_partial",
    "CBT.C24_increasing_partial",
    "CBT.C24_complete_partial",
    "CBT.C24_returned_exact_partial",
    "CBT.C24_returned_complete_partial",
    "CBT.C24_ends_partial",
    "CBT.C24_missing_negation",
    "CBT.C24_oob_negation",
    "CBT.C24_oob_tail_negation",
    "CBT.C24_exact_partial",
    "CBT.C24_common_last_partial"
   ],
   "note": "False of the code: a common element can be missed, and vectors are read past their end, even when they start with the same element (negations). Proved: on two or more non-empty increasing vectors the function always ends, returning or reading past the end of a vector; when it returns, it has appended in order exactly the common elements minus those passed over in the first round (Spec.passedOver), hence the whole intersection when no vector starts above the first; it does return when the vector that ends first ends in an element of all, and none starts above the first. C24_exact_partial states in all cases what it does, as a search on lists without positions (Spec.Walk): the result, or where it reads past the end."
  },
  {
   "property": "C25",
   "status": "proved",
   "theorems": [
    "CBT.C25_trieMeasure"
   ],
   "note": "Flat tries (plain and il have the same trieMeasure). u <= 2^62, set size < 2^32."
  },
  {
   "property": "C26",
   "status": "proved",
   "theorems": [
    "CBT.C26_trieMeasure_runs"
   ],
   "note": "Exact count and inequality; holds also when the last level collapses."
  },
  {
   "property": "C27",
   "status": "partial",
   "theorems": [
    "CBT.C27_flat_runs_twice_partial",
    "CBT.C27_level_runs_twice_partial",
    "CBT.C27_fast_runs_twice_partial",
    "CBT.C27_flat_runs_twice_iff",
    "CBT.C27_level_runs_twice_iff",
    "CBT.C27_fast_runs_twice_iff",
    "CBT.C27_flat_runs_twice_pad_iff",
    "CBT.C27_level_runs_twice_pad_iff",
    "CBT.C27_fast_runs_twice_pad_iff",
    "CBT.C27_runs_twice_negation"
   ],
   "note": "The unrestricted claim is refuted (C27_runs_twice_negation, even with 64 readable zeros after the vectors). The `_iff` theorems say exactly which sets survive when reads past the end of a vector fail: those without a full aligned block of four numbers (of two words for fast tries); the `_partial` theorems show these survive whatever follows the vectors. The `_pad_iff` theorems say exactly which sets survive when any given number of zeros can be read after the end of each vector, for each family."
  },
  {
   "property": "C28",
   "status": "proved",
   "theorems": [
    "CBT.C28_flat_appends",
    "CBT.C28_level_appends",
    "CBT.C28_fast_appends"
   ],
   "note": "For every trie reachable by constructors and any number of encodeRuns calls, from any vectors (for flat tries: any state at all); says what a decode that returns has appended. That it returns is C01 to C06."
  },
  {
   "property": "C29",
   "status": "partial",
   "theorems": [
    "CBT.C29_flat_negation",
    "CBT.C29_level_negation",
    "CBT.C29_fast_negation"
   ],
   "note": "The claim is false: for flat and level-wise tries it fails for every vector; for fast tries whenever the uninitialised runs_encoded is false."
  },
  {
   "property": "C30",
   "status": "proved",
   "theorems": [
    "CBT.C30_flat_size",
    "CBT.C30_level_size",
    "CBT.C30_fast_size"
   ],
   "note": "Bits of the bit vectors (and number of words for fast tries). Size of sdsl rank directories is not modelled."
  },
  {
   "property": "C31",
   "status": "proved",
   "theorems": [
    "CBT.C31_order_irrelevant",
    "CBT.C31_order_irrelevant_runs",
    "CBT.C31_fast_order_irrelevant",
    "CBT.C31_fast_order_irrelevant_plain",
    "CBT.C31_single"
   ],
   "note": "Run-aware version on the tries covered by C08."
  },
  {
   "property": "C32",
   "status": "partial",
   "theorems": [
    "CBT.C32_flat_negation",
    "CBT.C32_level_partial",
    "CBT.C32_level_parallel_negation",
    "CBT.C32_height1_intersect",
    "CBT.C32_fast_partial",
    "CBT.C32_fast_ctor_negation",
    "CBT.C13_fast_parallel_height1_negation",
    "CBT.C32_fast_height1_parallel"
   ],
   "note": "Proved for level-wise (u = 2) and fast (one word) tries built, decoded and intersected sequentially; exact result of every parallel call at height 1; refuted for flat tries over u = 2 (every set), for fast tries over at most half a word (every set) and for parallel intersection at height 1."
  },
  {
   "property": "C33",
   "status": "partial",
   "theorems": [
    "CBT.C33_load_used_partial",
    "CBT.C33_load_used_negation"
   ],
   "note": "The claim is false; the partial theorem says exactly what load leaves in the object."
  },
  {
   "property": "C34",
   "status": "proved",
   "theorems": [
    "CBT.C34_fast",
    "CBT.C34_tries",
    "CBT.C34_tries_parts",
    "CBT.C34_long_lists"
   ],
   "note": "Lists shorter than 2^30; C34_long_lists shows why (the seek offset wraps). C34_tries_parts says what stands in the file for one list, for each choice of the options."
  },
  {
   "property": "C35",
   "status": "proved",
   "theorems": [
    "CBT.C35_fast_end_to_end",
    "CBT.C35_fast_parallel_plain",
    "CBT.C35_fast_parallel_runs_sound",
    "CBT.C35_fast_parallel_runs_negation",
    "CBT.C35_fast_no_queries",
    "CBT.C35_fast_bad_queries",
    "CBT.C35_fast_parallel_runs_exact",
    "CBT.C35_fast_exact"
   ],
   "note": "Rank types 0 and 2 (for 1 see C36). Beyond the claim: parallel queries are correct on files without runs and only sound on files with runs, where C35_fast_parallel_runs_negation refutes more and C35_fast_parallel_runs_exact states the answers. C35_fast_exact covers all modes at once. C35_fast_no_queries and C35_fast_bad_queries show why there must be queries, non-empty and with existing ids."
  },
  {
   "property": "C36",
   "status": "partial",
   "theorems": [
    "CBT.C36_tries_header",
    "CBT.C36_fast_header_partial",
    "CBT.C36_fast_header_negation"
   ],
   "note": "Holds for build_tries; false for build_fastTries with rank type 1, proved for every file in C36_fast_header_negation; holds for all other rank types."
  },
  {
   "property": "C37",
   "status": "proved",
   "theorems": [
    "CBT.C37_prefixOf",
    "CBT.C37_prefixOf_decodable"
   ],
   "note": ""
  },
  {
   "property": "C38",
   "status": "proved",
   "theorems": [
    "CBT.C38_gap"
   ],
   "note": ""
  },
  {
   "property": "C39",
   "status": "partial",
   "theorems": [
    "CBT.C39_rle_partial",
    "CBT.C39_every_set_partial",
    "CBT.C39_negation"
   ],
   "note": "False of the code: the last run is never charged (C39_negation: a single run costs 0). Proved: what Rle returns for every set, in terms of its maximal runs."
  },
  {
   "property": "C40",
   "status": "proved",
   "theorems": [
    "CBT.C40_elements_coded"
   ],
   "note": ""
  },
  {
   "property": "C41",
   "status": "partial",
   "theorems": [
    "CBT.C41_level_empty_partial",
    "CBT.C41_flat_fast_negation",
    "CBT.C41_level_runs_negation"
   ],
   "note": "Proved for plain level-wise tries; false for flat and fast tries (constructor never succeeds) and for run-aware use."
  },
  {
   "property": "C42",
   "status": "partial",
   "theorems": [
    "CBT.C42_sequential_env_partial",
    "CBT.C42_no_hint_negation"
   ],
   "note": "Proved for hardware_concurrency() != 0; refuted for 0."
  },
  {
   "property": "C43",
   "status": "partial",
   "theorems": [
    "CBT.C43_tries_end_to_end_partial",
    "CBT.C43_tries_parallel_plain_partial",
    "CBT.C43_tries_parallel_runs_sound_partial",
    "CBT.C43_tries_parallel_runs_negation",
    "CBT.C43_tries_level_il_negation",
    "CBT.C43_tries_block_negation",
    "CBT.C43_tries_bad_queries",
    "CBT.C43_tries_parallel_runs_exact_partial",
    "CBT.C43_tries_exact_partial"
   ],
   "note": "False in the default parallel mode with runs, for rank type 1 level-wise and for rank type 1 with other block sizes (negations). Proved otherwise; with runs, flat tries that collapse to nothing are excluded. C43_tries_parallel_runs_exact_partial states the answers in the default mode with runs, and C43_tries_exact_partial those in all modes and for all collections, with the exact condition for the read out of bounds of flat tries with runs."
  },
  {
   "property": "C44",
   "status": "partial",
   "theorems": [
    "CBT.C44_min_size_partial",
    "CBT.C44_fast_min_size_partial",
    "CBT.C44_min_size_no_list_partial",
    "CBT.C44_fast_min_size_no_list_partial",
    "CBT.C44_min_size_negation",
    "CBT.C44_fast_min_size_negation"
   ],
   "note": "False of the code: lists of exactly m elements are dropped as well (n > min_size). Proved for both builders and every collection: the file holds what is documented for m+1; what is documented for m if no list has exactly m elements; otherwise the number of sets written is too small."
  },
  {
   "property": "C45",
   "status": "partial",
   "theorems": [
    "CBT.C45_positions_partial",
    "CBT.C45_parallel_positions_partial",
    "CBT.C45_fast_positions_partial",
    "CBT.C45_fast_parallel_positions_partial",
    "CBT.C45_positions_negation",
    "CBT.C45_exact_partial",
    "CBT.C45_fast_exact_partial"
   ],
   "note": "False of the code: ids count kept lists only, and even the default filter drops empty lists (witness). Proved for both pairs of tools, from the collection to the answers: queries about the first k lists, none of which is dropped, are answered by position in the complete collection. The two exact theorems cover all modes and collections, including the lossy parallel queries with runs."
  },
  {
   "property": "C46",
   "status": "partial",
   "theorems": [
    "CBT.C46_flat_size_negation",
    "CBT.C46_level_size_negation",
    "CBT.C46_fast_size_negation"
   ],
   "note": "False of every trie; proved is the exact difference for all tries: two bytes too few for flat and level-wise tries (the two uint16_t heights are counted as uint8_t), 14 bytes too many for fast tries (sizeof of the vector instead of the eight-byte length). binTrie_il has no serialized size to compare with (C20)."
  },
  {
   "property": "C47",
   "status": "partial",
   "theorems": [
    "CBT.C47_flat_partial",
    "CBT.C47_level_partial",
    "CBT.C47_fast_partial",
    "CBT.C47_flat_orphan_negation",
    "CBT.C47_level_orphan_negation",
    "CBT.C47_fast_orphan_negation",
    "CBT.C47_level_changed_negation",
    "CBT.C47_flat_changed_negation",
    "CBT.C47_fast_changed_negation"
   ],
   "note": "False: the rank supports of a copy keep pointing to the original. Proved: the copy works while the original lives unmodified; for every set, decoding it after the original was destroyed is undefined; witnesses for a changed original. That sdsl copies the pointer is a contract."
  },
  {
   "property": "C48",
   "status": "partial",
   "theorems": [
    "CBT.C48_totals_partial",
    "CBT.C48_negation"
   ],
   "note": "Proved for counts, trie, trie-run and run-length totals (64 bits). The gap total is false of the code: every kept list adds a further number, 32 bits for the first list (C48_negation). Universe at least 3 (C25)."
  },
  {
   "property": "C49",
   "status": "partial",
   "theorems": [
    "CBT.C49_classic_twice",
    "CBT.C49_classic_hangs",
    "CBT.C49_empty",
    "CBT.C49_cbv_prefix",
    "CBT.C49_cbv_twice",
    "CBT.C49_pom_partial",
    "CBT.C49_pom_hangs",
    "CBT.C49_pom_zero",
    "CBT.C49_classic_negation",
    "CBT.C49_cbv_iff",
    "CBT.C49_pom_negation"
   ],
   "note": "False of the code; the exact behaviour is proved for every collection: the last list is processed twice (second time as copies of its last element) if kept; classic_coders and pom do not end if it is not kept; cbv_coding stops at the first short list; an empty collection uses an indeterminate length; pom has undefined behaviour on a kept list containing 0. Consequences for all collections of sets: classic_coders and pom never print the right number of lists; cbv_coding prints the right numbers exactly if there are short lists and all come after the lists to keep. For cbv_coding the statements are about lists of increasing numbers below 2^32, since it writes outside its vector for others."
  },
  {
   "property": "C50",
   "status": "partial",
   "theorems": [
    "CBT.C50_tries_log",
    "CBT.C50_fast_log",
    "CBT.C50_readme_format",
    "CBT.C50_tools",
    "CBT.C50_not_a_number",
    "CBT.C50_blank_line_negation",
    "CBT.C50_lenient_negation"
   ],
   "note": "Proved for all such texts: read exactly if the numbers are below 2^31 (2^64 for the fast tool), otherwise an exception; a word without digits is an exception wherever it is. The rejection half is false: digits followed by anything and negative numbers are accepted (witnesses), and a blank line is read as an empty query, with which neither tool gets through (all logs)."
  },
  {
   "property": "C51",
   "status": "partial",
   "theorems": [
    "CBT.C51_build_options_partial",
    "CBT.C51_query_options_partial",
    "CBT.C51_missing_value_negation",
    "CBT.C51_out_name_negation",
    "CBT.C51_no_arguments_negation",
    "CBT.C51_not_a_number",
    "CBT.C51_not_a_number_negation",
    "CBT.C51_bad_limit"
   ],
   "note": "Proved for every sequence of well-formed options. Excluded, and shown to fail: an output file named like an option, a missing value at the end (null pointer, for every sequence of options before it), and build_tries without arguments. Numbers are given in decimal without sign; the two binary flags as t or f. Values that are no numbers: as word size or block size they count as 0 without a message (build_fastTries then writes nothing), as size limits they end the program with an exception."
  },
  {
   "property": "C52",
   "status": "proved",
   "theorems": [
    "CBT.C52_from_levels",
    "CBT.C52_from_levels_runs",
    "CBT.C52_from_empty_levels_runs",
    "CBT.C52_from_empty_levels_partial"
   ],
   "note": "Universe at least 3. What the run-encoded result decodes to: C04. Beyond the statement: arrays of empty levels give a trie that decodes to nothing with runs, and cannot be decoded without."
  },
  {
   "property": "C53",
   "status": "partial",
   "theorems": [
    "CBT.C53_tries_session_partial",
    "CBT.C53_fast_session_partial",
    "CBT.C53_tries_session_exact_partial",
    "CBT.C53_fast_session_exact_partial",
    "CBT.C53_negation"
   ],
   "note": "False of the code as stated: C53_negation is a session whose answers lack elements. Proved for every collection, log and sequence of well-formed options, under the conditions that C35, C43, C50 and C51 show to be needed: no --rank il for fast or level-wise tries, no parallel execution with runs, no empty query, valid set numbers, universes above the smallest, for flat run-encoded tries no list that collapses completely. Ids count kept lists (C45). The two exact theorems drop the conditions about parallel execution with runs and collapsing lists, and state what is answered then. The times in the results file are not modelled."
  },
  {
   "property": "C54",
   "status": "partial",
   "theorems": [
    "CBT.C54_negation",
    "CBT.C54_fast_negation",
    "CBT.C54_seq_exact_partial",
    "CBT.C54_fast_seq_exact_partial",
    "CBT.C54_returned_partial",
    "CBT.C54_fast_returned_partial",
    "CBT.C54_parallel_exact_partial",
    "CBT.C54_fast_parallel_exact_partial",
    "CBT.C54_parallel_short_partial",
    "CBT.C54_fast_parallel_short_partial",
    "CBT.C54_parallel_safer_partial",
    "CBT.C54_fast_parallel_safer_partial"
   ],
   "note": "False: AND returns `existLeft || existRight` although one of them may not have been written; for every set without 0 (fast: without an element in the first word) intersecting its trie alone reads such a value. Proved exactly for the sequential call when it is read (condition LeftFirst on the sets) and that the result is the intersection otherwise; in both modes, a call that does not read such a value returns what C07, C09, C11, C13 state. The value read never influences the result vector, and the other properties ignore the read. The parallel call is characterised as exactly: the condition is the same, but only on blocks inside the threads' tasks, so a parallel call is never worse than the sequential one; with too few levels for the threads it does what the sequential call does."
  },
  {
   "property": "C55",
   "status": "partial",
   "theorems": [
    "CBT.C55_no_invalid_free_partial",
    "CBT.C55_fast_no_invalid_free_partial",
    "CBT.C55_sequential_partial",
    "CBT.C55_fast_sequential_partial",
    "CBT.C55_leak_exact_partial",
    "CBT.C55_fast_leak_exact_partial",
    "CBT.C55_leak_zero_iff_partial",
    "CBT.C55_fast_leak_zero_iff_partial",
    "CBT.C55_negation",
    "CBT.C55_runs_leak_exact_partial",
    "CBT.C55_fast_runs_leak_exact_partial"
   ],
   "note": "False: arrays of tasks that were replaced by their halves are never freed. Proved for all inputs: no array is used or freed after it was freed, or freed without having been allocated; sequential calls allocate nothing; the exact number of arrays leaked, for plain tries and, with runs, for plain and run-encoded tries; for plain tries, that it is 0 exactly if there is no common block at the cut or at most one thread would be idle."
  },
  {
   "property": "C56",
   "status": "proved",
   "theorems": [
    "CBT.C56_race_free",
    "CBT.C56_fast_race_free",
    "CBT.C56_same",
    "CBT.C56_fast_same",
    "CBT.C56_results_listed",
    "CBT.C56_output_listed",
    "CBT.C56_sections_listed",
    "CBT.C56_fast_sections_listed",
    "CBT.C56_body_listed"
   ],
   "note": "No hypotheses on the tries or the machine. The two `same` theorems say that the accesses are those of the Intersect the other properties speak of; the `listed` theorems that no write and no section is missing from them: C56_body_listed with or without runs, C56_sections_listed and C56_fast_sections_listed for whole plain calls. Contract: reading sdsl structures does not write."
  },
  {
   "property": "C57",
   "status": "partial",
   "theorems": [
    "CBT.C57_mac_partial",
    "CBT.C57_fast_mac_partial",
    "CBT.C57_mac_sequential_partial",
    "CBT.C57_fast_mac_sequential_partial",
    "CBT.C57_mac_exact_partial",
    "CBT.C57_fast_mac_exact_partial",
    "CBT.C57_pin_partial",
    "CBT.C57_negation",
    "CBT.C57_runs_mac_exact_partial",
    "CBT.C57_fast_runs_mac_exact_partial"
   ],
   "note": "False with 64 or more hardware threads (C57_negation): CPU_SET shifts a 32-bit int by the number of the thread. Proved for fewer than 64 hardware threads and for sequential calls, tries in any state; the exact condition, 32 threads, in terms of the sets, for plain tries and, with runs, for plain and run-encoded tries."
  },
  {
   "property": "C58",
   "status": "proved",
   "theorems": [
    "CBT.C58_counters_change_nothing",
    "CBT.C58_fast_counters_change_nothing",
    "CBT.C58_plain_reads",
    "CBT.C58_fast_plain_reads",
    "CBT.C58_runs_reads",
    "CBT.C58_fast_runs_reads",
    "CBT.C58_bound",
    "CBT.C58_fast_bound",
    "CBT.C58_runs_save",
    "CBT.C58_fast_runs_save",
    "CBT.C58_runs_parallel_reads",
    "CBT.C58_fast_runs_parallel_reads",
    "CBT.C58_runs_parallel_exact",
    "CBT.C58_fast_runs_parallel_exact",
    "CBT.C58_runs_parallel_shallow",
    "CBT.C58_fast_runs_parallel_shallow",
    "CBT.C58_runs_parallel_even",
    "CBT.C58_fast_runs_parallel_even"
   ],
   "note": "Exact numbers of getNode, getLeftChild/getRightChild and getWord calls, from the sets alone, in every case the statement names. Also for run-aware parallel calls, which are outside the statement: C58_runs_parallel_exact says exactly what they read on fewer than 2^16 hardware threads (they skip what they lose, see C12), C58_runs_parallel_even that it is the same as sequentially when no large block is collapsed in only some tries. The rank queries and bit reads inside these calls are not counted."
  },
  {
   "property": "C59",
   "status": "partial",
   "theorems": [
    "CBT.C59_encoding_partial",
    "CBT.C59_fast_partial",
    "CBT.C59_flat_runs_exact",
    "CBT.C59_flat_runs_negation",
    "CBT.C59_fast_runs_negation",
    "CBT.C59_no_options_negation",
    "CBT.C59_fast_runs_exact",
    "CBT.C59_flat_runs_oob"
   ],
   "note": "Exact counts and sizes from the command line. False: flat tries with runs that lose their last level (exact condition given), fast tries with runs when the uninitialised empty_trie is true (exact condition given), test_encoding without options, and the cases of C60."
  },
  {
   "property": "C60",
   "status": "partial",
   "theorems": [
    "CBT.C59_encoding_partial",
    "CBT.C59_fast_partial",
    "CBT.C60_rank_v5_negation",
    "CBT.C60_rank_v5_size_negation",
    "CBT.C60_fast_rank_il_negation",
    "CBT.C60_min_size_negation",
    "CBT.C60_min_size_witness_negation"
   ],
   "note": "False: rank_type is a bool, min_size a uint32_t. The partial theorems of C59 give the sizes for the rank support asked for in the remaining cases."
  },
  {
   "property": "C61",
   "status": "partial",
   "theorems": [
    "CBT.C61_verdict_partial",
    "CBT.C61_plain_partial",
    "CBT.C61_queries_negation",
    "CBT.C61_flat_runs_negation",
    "CBT.C61_exact_partial",
    "CBT.C61_level_il_negation",
    "CBT.C61_minus_negation"
   ],
   "note": "From build_tries to the printed verdict, relative to the answers of intersection_query_log on the same threads. False for unknown sets, empty logs, logs with a minus sign, flat tries that run encoding makes unreadable, and binTrie_il, whose files are not loaded. C61_exact_partial states what happens up to and at the first query about an unreadable trie."
  },
  {
   "property": "C62",
   "status": "partial",
   "theorems": [
    "CBT.C62_without_word_size_partial",
    "CBT.C62_shifted_negation",
    "CBT.C62_fast_files_negation"
   ],
   "note": "False: the header read lacks the word size. Proved for the file without its two bytes."
  },
  {
   "property": "C63",
   "status": "proved",
   "theorems": [
    "CBT.C63_adaptive",
    "CBT.C63_fast_adaptive",
    "CBT.C63_runs_adaptive",
    "CBT.C63_fast_runs_adaptive",
    "CBT.C63_mixed_adaptive",
    "CBT.C63_fast_mixed_adaptive",
    "CBT.C63_needed",
    "CBT.C63_runs_needed",
    "CBT.C63_runs_parallel_adaptive",
    "CBT.C63_fast_runs_parallel_adaptive",
    "CBT.C63_mixed_parallel_adaptive",
    "CBT.C63_fast_mixed_parallel_adaptive"
   ],
   "note": "The bound for every partition certificate (sizes exact, with floor(log2)), for all calls, sequential or parallel; with all tries run-encoded also for certificates with runs. Beyond the statement, the converse: a certificate can be made from the nodes read of one trie."
  },
  {
   "property": "C64",
   "status": "proved",
   "theorems": [
    "CBT.C64_flat_blocks",
    "CBT.C64_level_blocks",
    "CBT.C64_fast_blocks",
    "CBT.C64_flat_bits",
    "CBT.C64_level_bits",
    "CBT.C64_fast_bits"
   ],
   "note": "Bits of the bit vectors and words of the last level; the bits sdsl adds (rank supports, headers, padding) are not counted. Exact numbers for each class; the bounds on these numbers hold for every set; the _bits theorems state them in bits and words for each class."
  },
  {
   "property": "C65",
   "status": "partial",
   "theorems": [
    "CBT.C65_counters_change_nothing",
    "CBT.C65_flat_partial",
    "CBT.C65_level_partial",
    "CBT.C65_fast_partial",
    "CBT.C65_flat_negation",
    "CBT.C65_level_negation",
    "CBT.C65_fast_negation",
    "CBT.C65_flat_looks",
    "CBT.C65_level_looks",
    "CBT.C65_fast_looks"
   ],
   "note": "The reads are bounded as claimed; the memory is not: the vectors created have 3*2^h - 2 (flat) or 2*2^h - 2 (level-wise, fast) bits whatever the set, proved exactly; the negations give one number below 2^62. The `looks` theorems give the number of elements read exactly: for every bit, the elements without it and the smallest element of each half block with it."
  },
  {
   "property": "C66",
   "status": "proved",
   "theorems": [
    "CBT.C66_counters_change_nothing",
    "CBT.C66_flat",
    "CBT.C66_level",
    "CBT.C66_fast",
    "CBT.C66_level_bound"
   ],
   "note": "Run-encoded flat tries where they can be decoded (C04); run-encoded fast tries read nothing if the unwritten empty_trie is true (C06), which is part of the statement."
  },
  {
   "property": "C67",
   "status": "proved",
   "theorems": [
    "CBT.C67_universe",
    "CBT.C67_round_up",
    "CBT.C67_different",
    "CBT.C67_level_different",
    "CBT.C67_fast_different"
   ],
   "note": "log2 as an exact integer logarithm, see DESIGN.md."
  },
  {
   "property": "C68",
   "status": "partial",
   "theorems": [
    "CBT.C68_flat_partial",
    "CBT.C68_fast_partial",
    "CBT.C68_flat_iff",
    "CBT.C68_fast_iff",
    "CBT.C68_flat_negation",
    "CBT.C68_fast_negation"
   ],
   "note": "False of flat and fast tries: the number of elements is a uint32_t. Proved for every length below 2^64: the trie holds the first k elements, k from 1 to 2^32 and congruent to the length; it holds the set exactly if there are at most 2^32 elements. Level-wise tries hold sets of any size (C02_level_build_decode)."
  },
  {
   "property": "C69",
   "status": "proved",
   "theorems": [
    "CBT.C69_plain",
    "CBT.C69_runs",
    "CBT.C69_fast_plain",
    "CBT.C69_fast_runs"
   ],
   "note": "A caller program (Spec.inStages) over the modelled constructors and Intersect; any number of groups, by induction. Flat and fast intermediate tries need sets of fewer than 2^32 elements, fast tries height at least 2 (C13)."
  },
  {
   "property": "C70",
   "status": "partial",
   "theorems": [
    "CBT.C70_flat_state",
    "CBT.C70_flat_file",
    "CBT.C70_level_state",
    "CBT.C70_level_file",
    "CBT.C70_fast_state",
    "CBT.C70_fast_file",
    "CBT.C70_fast_plain_same_partial",
    "CBT.C70_fast_runs_same_partial",
    "CBT.C70_fast_negation"
   ],
   "note": "Different sets give different tries and files, proved for all classes, plain and run-encoded (files with the operands of the flat serialize evaluated from left to right, C19). That the same set always gives the same file is false of fast tries: two members are written without having been initialised; the exact condition is proved. In the model the flat and level-wise constructors and encodeRuns are functions of the set, so there it holds by construction."
  },
  {
   "property": "C71",
   "status": "partial",
   "theorems": [
    "CBT.C71_plain",
    "CBT.C71_runs_partial",
    "CBT.C71_runs_exact",
    "CBT.C71_fast_plain",
    "CBT.C71_fast_runs",
    "CBT.C71_runs_negation"
   ],
   "note": "The client program is Spec.lookup / Spec.fastLookup (SpecNav.lean): it uses only getNode, getLeftChild, getRightChild and getWord. Proved for plain tries of every class and for run-encoded level-wise and fast tries. False of run-encoded flat tries whose last level collapsed (C71_runs_negation); C71_runs_exact says exactly which numbers cannot be looked up."
  },
  {
   "property": "C72",
   "status": "proved",
   "theorems": [
    "CBT.C72_counters_change_nothing",
    "CBT.C72_flat",
    "CBT.C72_level",
    "CBT.C72_fast",
    "CBT.C72_level_bound",
    "CBT.C72_flat_bound",
    "CBT.C72_fast_bound"
   ],
   "note": "Exact counts of node reads, child calls, word reads and collected positions; the specification counts blocks with elements (storedAt, storedAbove) and prefixes (survivingPrefixes, fullBlock). Each element of memory collected is one push_back on ones_to_write."
  },
  {
   "property": "C73",
   "status": "partial",
   "theorems": [
    "CBT.C73_order_negation",
    "CBT.C73_flat_partial",
    "CBT.C73_level_partial",
    "CBT.C73_fast_partial",
    "CBT.C73_flat_repeated",
    "CBT.C73_level_repeated",
    "CBT.C73_fast_repeated",
    "CBT.C73_flat_iff",
    "CBT.C73_level_iff",
    "CBT.C73_fast_iff",
    "CBT.C73_intersect_partial"
   ],
   "note": "False of the code (negation): an unordered vector gives a trie with other numbers in it. Proved: what the trie of any vector holds (`Spec.seen`, a valid set, never larger than the vector), without undefined behaviour; that repetitions in an ordered vector do no harm; and, for vectors without repetitions, that the elements are kept exactly if the vector is increasing (fast tries: if its words come in order) and below the power of two."
  },
  {
   "property": "C74",
   "status": "partial",
   "theorems": [
    "CBT.C74_negation",
    "CBT.C74_true_on_plain",
    "CBT.C74_fast_true_on_plain",
    "CBT.C74_false_on_runs_partial",
    "CBT.C74_fast_false_on_runs_partial",
    "CBT.C74_false_on_runs_iff",
    "CBT.C74_false_exact_partial",
    "CBT.C74_false_exact"
   ],
   "note": "False of the code (C74_negation): runs=false on run-encoded tries leaves elements out. Proved: runs=true is right for plain tries (sequential and parallel, parallel from height 2 on; all trie classes). Exactly: runs=false leaves out the common elements in a full block of four (fast tries: of two words) of a run-encoded set, and nothing else, in sequential and parallel calls; so it is right iff there are none (C74_false_on_runs_iff). C74_false_exact says when run-encoded flat tries that cannot be read everywhere make the call, sequential or parallel, read out of bounds; for height 1 C74_false_exact_partial (sequential) and C32_height1_intersect (parallel) do."
  },
  {
   "property": "C75",
   "status": "proved",
   "theorems": [
    "CBT.C75_history",
    "CBT.C75_fast_history"
   ],
   "note": "By induction over the program: every object holds its set and has its own rank counts, before and after every operation. That the rules are needed: C04_flat_runs_negation, C06_fast_runs_negation, C12_parallel_runs_negation, C13_fast_parallel_height1_negation, C15_different_heights, C20_level_il_negation, C74."
  },
  {
   "property": "C76",
   "status": "proved",
   "theorems": [
    "CBT.C76_schedule_any",
    "CBT.C76_fast_schedule_any"
   ],
   "note": "Equality of outcomes, errors included, for arbitrary answers of the tries. The threads of the model perform pushes to result vectors and writes to the output; reads of the shared tries are not interleaved because nothing writes them (C56)."
  },
  {
   "property": "C77",
   "status": "proved",
   "theorems": [
    "CBT.C77_plain_any",
    "CBT.C77_fast_plain_any",
    "CBT.C77_outcome_any",
    "CBT.C77_fast_outcome_any"
   ],
   "note": "By induction on the levels: the tasks found by the search for tasks give, one after the other, what the sequential search gives, or both fail. For height 1 the claim is false (C32). For run-aware calls it is false (C12)."
  },
  {
   "property": "C78",
   "status": "proved",
   "theorems": [
    "CBT.C78_runs_parallel_any",
    "CBT.C78_fast_runs_parallel_any",
    "CBT.C78_runs_parallel",
    "CBT.C78_fast_runs_parallel",
    "CBT.C78_converse_false"
   ],
   "note": "For tries in any state, including such that no constructor makes; the counters are those of C58. C78_converse_false shows that the implication cannot be turned around. Which elements are dropped from well built tries is said by C12."
  },
  {
   "property": "C79",
   "status": "proved",
   "theorems": [
    "CBT.C79_counters_change_nothing",
    "CBT.C79_fast_counters_change_nothing",
    "CBT.C79_threads_any",
    "CBT.C79_fast_threads_any",
    "CBT.C79_hardware",
    "CBT.C79_fast_hardware",
    "CBT.C79_plain_exact",
    "CBT.C79_fast_plain_exact",
    "CBT.C79_runs_exact",
    "CBT.C79_fast_runs_exact",
    "CBT.C79_busy",
    "CBT.C79_fast_busy",
    "CBT.C79_runs_busy",
    "CBT.C79_fast_runs_busy"
   ],
   "note": "Upper bound in any state of the tries. The lower bound is for at most 16 tries made by the constructors (the code has 16 slots)."
  },
  {
   "property": "C80",
   "status": "proved",
   "theorems": [
    "CBT.C80_span_any",
    "CBT.C80_fast_span_any",
    "CBT.C80_share",
    "CBT.C80_fast_share",
    "CBT.C80_no_extra_work",
    "CBT.C80_fast_no_extra_work",
    "CBT.C80_runs_no_extra_work",
    "CBT.C80_fast_runs_no_extra_work",
    "CBT.C80_speedup_negation"
   ],
   "note": "Counts of reads, not times. C80_speedup_negation is the last sentence of the statement."
  },
  {
   "property": "C81",
   "status": "partial",
   "theorems": [
    "CBT.C81_exact_allowed",
    "CBT.C81_nearest_allowed",
    "CBT.C81_some_universe",
    "CBT.C81_exact",
    "CBT.C81_flat",
    "CBT.C81_level",
    "CBT.C81_fast",
    "CBT.C81_top_negation",
    "CBT.C81_bits_negation",
    "CBT.C81_gap",
    "CBT.C81_rle"
   ],
   "note": "Proved for universes up to 2^61 (level-wise 2^62). False for flat and fast tries over 2^62, where rounding makes the height 63 and the number of nodes does not fit 64 bits (C81_top_negation). C81_bits_negation: with rounding, universes with the same number of bits may get different heights, so C67 needs exact logarithms. C81_rle: the run-length measure grows by at most two bits for each element."
  },
  {
   "property": "C82",
   "status": "proved",
   "theorems": [
    "CBT.C82_record_changes_nothing",
    "CBT.C82_flat",
    "CBT.C82_level",
    "CBT.C82_fast"
   ],
   "note": "Exact: the queue peaks at the number of elements (flat, level-wise) or of non-empty words (fast), for every valid set."
  },
  {
   "property": "C83",
   "status": "partial",
   "theorems": [
    "CBT.C83_tries",
    "CBT.C83_fast",
    "CBT.C83_unnoticed_negation",
    "CBT.C83_measures",
    "CBT.C83_coders_negation",
    "CBT.C83_coders_first",
    "CBT.C83_coders_hangs",
    "CBT.C83_cbv_outside",
    "CBT.C83_coders_length",
    "CBT.C83_coders_header",
    "CBT.C83_pom_negation",
    "CBT.C83_pom_torn",
    "CBT.C83_pom_zero",
    "CBT.C83_pom_first",
    "CBT.C83_pom_hangs",
    "CBT.C83_pom_length",
    "CBT.C83_pom_header"
   ],
   "note": "The exact behaviour is proved for every cut. False as stated: the end of the file is looked at only where the length of a list is read, so missing lists go unnoticed (C83_unnoticed_negation), and a cut among the elements of a kept list makes the builder use indeterminate values (last part of C83_tries and C83_fast). C83_measures: the same for the measures tool. classic_coders and cbv_coding make up a list where a kept one is cut and count it (C83_coders_negation), use a variable without a value if nothing was read into it (C83_coders_first), and classic_coders does not end if the cut falls in a list that is not kept (C83_coders_hangs). If the list made up ends with a smaller value than it contains, cbv_coding writes outside its vector (C83_cbv_outside). C83_coders_length and C83_coders_header: cuts within the length of a list and within the first two numbers. C83_pom_*: the same for pom, which in addition divides by the first element (C83_pom_zero)."
  },
  {
   "property": "C84",
   "status": "partial",
   "theorems": [
    "CBT.C84_decode_words",
    "CBT.C84_one_block",
    "CBT.C84_negation",
    "CBT.C84_seq_runs_exact",
    "CBT.C84_par_runs_exact"
   ],
   "note": "False of the code: decoding reads past the allocated words exactly if the set consists of full blocks of four and the smallest maximal full blocks need more bits than are left in the last word (C84_decode_words; the number of bits is given from the set). It never works with more than 32 such blocks (C84_negation) and always with one (C84_one_block). For Intersect the exact condition and result are proved with a number of readable bits for each trie. That words are allocated this way is a fact about sdsl that is not checked."
  },
  {
   "property": "C85",
   "status": "partial",
   "theorems": [
    "CBT.C85_fast",
    "CBT.C85_tries",
    "CBT.C85_tries_cut_negation"
   ],
   "note": "C85_fast: proved in full for files of build_fastTries (rank type other than 1, C36). C85_tries: bytes behind the last trie do not matter to intersection_query_log. C85_tries_cut_negation: it is false that intersection_query_log needs only the tries it is asked about; if any trie is missing at the end, values that were not read are used, whatever is asked."
  },
  {
   "property": "C86",
   "status": "proved",
   "theorems": [
    "CBT.C86_flat",
    "CBT.C86_level",
    "CBT.C86_fast",
    "CBT.C86_flat_large",
    "CBT.C86_level_large",
    "CBT.C86_fast_large"
   ],
   "note": "Exact for valid sets (flat and fast: fewer than 2^32 elements, see C68). The `large` theorems hold for all vectors. Logarithms are exact here; with rounding see C81."
  },
  {
   "property": "C87",
   "status": "partial",
   "theorems": [
    "CBT.C87_tries_same",
    "CBT.C87_fast_same",
    "CBT.C87_tries_totals",
    "CBT.C87_fast_totals",
    "CBT.C87_tries_returns",
    "CBT.C87_fast_returns",
    "CBT.C87_tries_no_output",
    "CBT.C87_fast_no_output",
    "CBT.C87_tries_size_negation",
    "CBT.C87_fast_size_negation"
   ],
   "note": "Proved: the numbers of lists and elements, that the builders end (for binTrie_il exactly if nothing is to be written), and that the totals are the same without output file, on any input. False: the size behind the bits per integer is not the size of the file; the exact difference is proved on any input: the header, and for every trie 2 bytes too few (build_tries) or 14 too many (build_fastTries). The division itself is in float and not modelled."
  },
  {
   "property": "C88",
   "status": "partial",
   "theorems": [
    "CBT.C88_options_partial",
    "CBT.C88_measures_partial",
    "CBT.C88_missing_value_negation",
    "CBT.C88_bad_value_negation"
   ],
   "note": "Proved for command lines in which every --min_length is followed by a number. Exactly the others are where it is false: a null pointer is made a string if nothing follows the last --min_length, and an exception ends the program if what follows is no number. The words of the program name and the collection are ones other than --min_length, since the tools look at these, too."
  },
  {
   "property": "C89",
   "status": "partial",
   "theorems": [
    "CBT.C89_builders",
    "CBT.C89_checkers",
    "CBT.C89_no_log",
    "CBT.C89_stats_negation",
    "CBT.C89_query_fast_negation",
    "CBT.C89_query_log_negation",
    "CBT.C89_no_log_negation"
   ],
   "note": "True of the builders, of the programs that check encodings, and of intersection_query_log without query log. False of the statistics tools, of the query tools without collection and of the programs that check intersections, which go on: undefined behaviour for every command line (with some query, in the case of intersection_query_log). Without query log the query tool for fast tries and the programs that check intersections read outside a vector unless the collection is empty (C89_no_log_negation); if they do end, they have answered no query (C89_no_log)."
  },
  {
   "property": "C90",
   "status": "partial",
   "theorems": [
    "CBT.C90_plain",
    "CBT.C90_fast_plain",
    "CBT.C90_runs_order",
    "CBT.C90_fast_runs_order",
    "CBT.C90_runs_added",
    "CBT.C90_fast_runs_added",
    "CBT.C90_runs_parallel_order",
    "CBT.C90_fast_runs_parallel_order",
    "CBT.C90_runs_parallel_added",
    "CBT.C90_fast_runs_parallel_added",
    "CBT.C90_runs_fewer_elements_negation"
   ],
   "note": "Plain tries: proved in full, for all modes and machines. Run-aware calls, sequential, and parallel on fewer than 2^16 hardware threads: the order does not matter, and adding tries costs nothing for the tries that were there. False that removing elements never makes more read of run-encoded tries (C90_runs_fewer_elements_negation)."
  },
  {
   "property": "C91",
   "status": "partial",
   "theorems": [
    "CBT.C91_counted_partial",
    "CBT.C91_fast_counted_partial",
    "CBT.C91_lost",
    "CBT.C91_fast_lost",
    "CBT.C91_divides",
    "CBT.C91_fast_divides",
    "CBT.C91_lost_negation",
    "CBT.C91_fast_lost_negation",
    "CBT.C91_divides_negation",
    "CBT.C91_exact",
    "CBT.C91_fast_exact",
    "CBT.C91_prefix",
    "CBT.C91_fast_prefix",
    "CBT.C91_runs_exact",
    "CBT.C91_fast_runs_exact",
    "CBT.C91_first_four_negation"
   ],
   "note": "False of the code: pieces of work are counted in uint16_t variables, so a call on a machine with 65536 or more hardware threads can lose everything (C91_lost_negation), nearly everything (C91_first_four_negation) or divide by zero (C91_divides_negation). C91_exact gives the outcome for all plain tries and all numbers of hardware threads below 2^32, C91_runs_exact for run-aware calls on run-encoded tries, C91_prefix says that what is returned is always a prefix of the intersection; C91_counted says when it is all of it."
  },
  {
   "property": "C92",
   "status": "proved",
   "theorems": [
    "CBT.C92_short_sets",
    "CBT.C92_fast_short_sets",
    "CBT.C92_few_threads",
    "CBT.C92_fast_few_threads",
    "CBT.C92_sharp",
    "CBT.C92_fast_sharp",
    "CBT.C92_tries_session",
    "CBT.C92_fast_session",
    "CBT.C92_tries_session_lengths",
    "CBT.C92_fast_session_lengths"
   ],
   "note": "Run-encoded flat tries that cannot be read at all (C04) are excluded: CodedTrie says which they are, and the session theorem asks that no query stumbles over one. C92_sharp: from four hardware threads on the limit is the best possible. C92_few_threads: with fewer threads only the whole universe has to be excluded."
  },
  {
   "property": "C93",
   "status": "proved",
   "theorems": [
    "CBT.C93_flat",
    "CBT.C93_level",
    "CBT.C93_fast",
    "CBT.C93_flat_gain",
    "CBT.C93_level_gain",
    "CBT.C93_fast_gain",
    "CBT.C93_tries",
    "CBT.C93_fast_tries"
   ],
   "note": "Of the formats of sdsl it is asked that more bits do not take fewer bytes (SpecGrow). size_in_bytes is compared where it does not wrap around. C93_*_gain: bits are saved exactly if an aligned block of four numbers, of two words for fast tries, consists of elements. Interleaved level-wise tries, whose serialize has undefined behaviour (C20), are in C93_level only as far as their vectors go."
  },
  {
   "property": "C94",
   "status": "partial",
   "theorems": [
    "CBT.C94_same_sets",
    "CBT.C94_fast_same_sets",
    "CBT.C94_more_sets",
    "CBT.C94_fast_more_sets",
    "CBT.C94_more_threads_partial",
    "CBT.C94_fast_more_threads_partial",
    "CBT.C94_more_sets_safe",
    "CBT.C94_more_threads_safe_partial",
    "CBT.C94_more_threads_negation",
    "CBT.C94_more_elements_negation"
   ],
   "note": "Proved in full: order, repetition, kind of trie and schedule do not matter (the same list is returned), and further tries never add elements. More hardware threads never add elements as long as the tries are deep enough for threads to be started (C94_more_threads_partial); false beyond, where the call is sequential and complete (C94_more_threads_negation). False that further elements in the sets never remove elements from the result (C94_more_elements_negation). CodedTrie excludes run-encoded flat tries that cannot be read (C04); C94_more_sets_safe and C94_more_threads_safe_partial are for all tries that can be built: what does not read out of bounds does not with further sets or threads either."
  },
  {
   "property": "C95",
   "status": "partial",
   "theorems": [
    "CBT.C95_tries_script_partial",
    "CBT.C95_tries_positions_partial",
    "CBT.C95_fast_script_partial",
    "CBT.C95_agree_partial",
    "CBT.C95_negation",
    "CBT.C95_other_words"
   ],
   "note": "Fast tries: proved for the scripts' command lines, all collections of lists with 4096 to 15000 elements and all logs; with --runs t and --parallel t the universe must have at least 2^14 numbers per hardware thread (log2 hw + 14 <= height; C92_fast_sharp shows what happens otherwise). build_tries: its script drops lists of exactly 4096 elements, so the same log names other lists (C95_negation); right if there are none (C95_tries_positions_partial) and, with --runs t, no list consists of full blocks of four only (C04). C92 gained the variants C92_tries_session_lengths and C92_fast_session_lengths, with the bound on the lists kept instead of on --max_size."
  },
  {
   "property": "C96",
   "status": "proved",
   "theorems": [
    "CBT.C96_flat_decode",
    "CBT.C96_level_decode",
    "CBT.C96_fast_decode",
    "CBT.C96_intersect_any",
    "CBT.C96_fast_intersect_any",
    "CBT.C96_intersect",
    "CBT.C96_fast_intersect"
   ],
   "note": "A model in which every difference that is an amount of a shift, and the number of levels left to a thread, is checked (Model/Shifts) is equal to the model of all other theorems, which computes them on natural numbers: for flat and level-wise tries in any state except parallel calls at height 1, and for all tries that constructors and encodeRuns make, in every mode and with any number of hardware threads. That parallel calls at height 1 can fail for other reasons is C32."
  },
  {
   "property": "C97",
   "status": "partial",
   "theorems": [
    "CBT.C97_check_partial",
    "CBT.C97_v5_negation",
    "CBT.C97_v5_unchecked_negation",
    "CBT.C97_runs_oob",
    "CBT.C97_runs_negation",
    "CBT.C97_space"
   ],
   "note": "scripts/spaceFastTries.sh: proved for all its command lines and all collections (C97_space). scripts/test_encoding.sh: false of the lines under 'Rank v5', which print what the lines for il 512 print and do not depend on rank_support_v5 at all; false of the lines with --runs t --levelwise f on collections with a list of full blocks of four only, where a read past the end of a vector happens (C97_runs_oob, with a witness; how many bits can be read there is pad). Right otherwise (C97_check_partial)."
  },
  {
   "property": "C98",
   "status": "partial",
   "theorems": [
    "CBT.C98_plain",
    "CBT.C98_il",
    "CBT.C98_trie_negation",
    "CBT.C98_build_negation",
    "CBT.C98_measures_negation",
    "CBT.C98_check_negation"
   ],
   "note": "build_tries without runs (C98_plain, any input) and with rank type 1 (C98_il): the same file whether or not copies are elided; build_fastTries, test_encoding and test_fastTrie with rank_support_v5 copy no trie. False otherwise: with runs, build_tries follows a dangling pointer for every collection with a kept list; so do measures for every list, and test_fastTrie with rank_support_v for every list over more than one word. C++14 (CMakeLists.txt:9) permits, but does not require, leaving out these copies. That a rank support may not be queried after its vector was destroyed is a contract of sdsl."
  },
  {
   "property": "C99",
   "status": "proved",
   "theorems": [
    "CBT.C99_tries",
    "CBT.C99_fast",
    "CBT.C99_count",
    "CBT.C99_leak",
    "CBT.C99_sequential"
   ],
   "note": "The other theorems about the query tools use a model with one call of Intersect for each query; C99_tries and C99_fast show, for every command line, file and log, that the model with the ten calls of the tools does the same, under any schedules. C99_count: the number of queries printed and the lines of the results file. C99_leak gives the memory left allocated for plain tries, ten times that of C55; C99_sequential: none in sequential mode. What each call takes in time is not modelled."
  },
  {
   "property": "C100",
   "status": "proved",
   "theorems": [
    "CBT.C100_decode",
    "CBT.C100_fast_decode",
    "CBT.C100_plain",
    "CBT.C100_parallel",
    "CBT.C100_runs",
    "CBT.C100_runs_parallel",
    "CBT.C100_fast",
    "CBT.C100_fast_parallel",
    "CBT.C100_fast_runs",
    "CBT.C100_fast_runs_parallel",
    "CBT.C100_one",
    "CBT.C100_runs_conditions"
   ],
   "note": "The bits of the tries are arbitrary; the only assumptions are those of the types (levels of fewer than 2^64 bits, words that fit) and that rank answers belong to the vectors. For fast tries the stored number of bits has to match the height. For tries marked as run-encoded: not marked as empty, and for the level-wise classes the stored height is the number of levels; C100_runs_conditions shows that both are needed. With runs in parallel mode elements can be missing (C12); C100_runs_parallel shows that the call returns, without duplicates and with common elements only."
  },
  {
   "property": "C101",
   "status": "proved",
   "theorems": [
    "CBT.C101_decode",
    "CBT.C101_level_decode",
    "CBT.C101_fast_decode",
    "CBT.C101_intersect",
    "CBT.C101_fast_intersect",
    "CBT.C101_blame",
    "CBT.C101_runs_blame",
    "CBT.C101_fast_blame",
    "CBT.C101_converse_false"
   ],
   "note": "Heights as far as the shifts are defined: 64 bits, 63 with runs. Fewer than 2^16 hardware threads. C101_converse_false shows that a call can return although the decoding of one of the tries does not."
  },
  {
   "property": "C102",
   "status": "partial",
   "theorems": [
    "CBT.C102_other_files",
    "CBT.C102_same_answers",
    "CBT.C102_lines",
    "CBT.C102_results_partial",
    "CBT.C102_log_lost_negation"
   ],
   "note": "False if the results file is the query log: C102_log_lost_negation shows for all logs and collections that the log is emptied before it is read, its new first line is taken for a query, and the tool ends with an exception nobody catches. C102_other_files holds of all runs, C102_lines of all that end normally with a results file that is not an input. C102_results_partial has the limits of C53 (with parallel execution only plain tries). A results file that is the collection is not modelled: what is still read of it depends on the buffer of the stream."
  },
  {
   "property": "C103",
   "status": "partial",
   "theorems": [
    "CBT.C103_other_files",
    "CBT.C103_fast_other_files",
    "CBT.C103_output",
    "CBT.C103_fast_output",
    "CBT.C103_unwritable",
    "CBT.C103_again",
    "CBT.C103_fast_again",
    "CBT.C103_input_lost_negation"
   ],
   "note": "False if the output is the input (C103_input_lost_negation, for every collection): opening the output empties the file before it is read, and the universe is used without having been written. Everything else is proved for all runs: C103_other_files of both builders also of runs that fail; C103_fast_again for equal values of the members that are never written (C70)."
  },
  {
   "property": "C104",
   "status": "partial",
   "theorems": [
    "CBT.C104_tries_partial",
    "CBT.C104_fast_partial",
    "CBT.C104_count_negation",
    "CBT.C104_fast_count_negation",
    "CBT.C104_left_out_negation",
    "CBT.C104_fast_answers_partial",
    "CBT.C104_fast_answers_long",
    "CBT.C104_fast_last_partial"
   ],
   "note": "False (C104_count_negation, C104_fast_count_negation): for the single list of the numbers below 2^30 the header announces 31 tries and one follows; intersection_query_log then fails, while intersection_querylog_fastTrie answers (C104_fast_answers_long). If that list is to be left out, tries of other sets are written (C104_left_out_negation). The partial theorems: the tries themselves are those of the kept lists, of whatever length, if the lists left out are shorter than 2^30; nothing is said about the count; intersection_querylog_fastTrie answers correctly about those of them that the header announces (C104_fast_answers_partial, sequential), which are all of them if only the last list is long (C104_fast_last_partial). C34 is the full claim for lists shorter than 2^30."
  },
  {
   "property": "C105",
   "status": "proved",
   "theorems": [
    "CBT.C105_tries",
    "CBT.C105_fast",
    "CBT.C105_selection",
    "CBT.C105_texts"
   ],
   "note": "As equivalences, for files with any contents and logs with at least one query; a log without queries is C35_fast_no_queries. In the equivalences the j-th query is given the same machine and schedule in both runs; C105_selection has one machine and schedule for all (that schedules do not matter is C76)."
  },
  {
   "property": "C106",
   "status": "partial",
   "theorems": [
    "CBT.C106_reads_partial",
    "CBT.C106_positions",
    "CBT.C106_sums_partial",
    "CBT.C106_sums_exact",
    "CBT.C106_division_exact",
    "CBT.C106_plain",
    "CBT.C106_runs_exact",
    "CBT.C106_empty_negation",
    "CBT.C106_large_negation",
    "CBT.C106_built_negation"
   ],
   "note": "False: for files with the run-encoded trie of a full universe the measurements of rank_support_il divide by zero (C106_empty_negation; C106_division_exact and C106_runs_exact say exactly when), ranks of 2^31 and more are added as negative numbers (C106_large_negation; C106_sums_exact gives the sum), and the files of build_tries have a longer header than the program expects (C106_built_negation). Proved: what is read from files with the expected header, that all positions lie inside the vectors for every sequence of random numbers, and that on files of plain tries all measurements print the same, right sum (C106_plain). The rank supports are taken to answer as their contract says."
  },
  {
   "property": "C107",
   "status": "partial",
   "theorems": [
    "CBT.C107_tries_exact",
    "CBT.C107_fast_exact",
    "CBT.C107_tries_answers_partial",
    "CBT.C107_fast_answers",
    "CBT.C107_tries_parallel_plain_partial",
    "CBT.C107_fast_parallel_plain",
    "CBT.C107_tries_parallel_runs_sound_partial",
    "CBT.C107_fast_parallel_runs_sound",
    "CBT.C107_tries_repeated_partial",
    "CBT.C107_fast_repeated",
    "CBT.C107_tries_right_iff_partial",
    "CBT.C107_fast_right_iff",
    "CBT.C107_tries_order_negation",
    "CBT.C107_tries_universe_negation",
    "CBT.C107_fast_order_negation"
   ],
   "note": "False: lists out of order or beyond the universe are built without complaint, and the answers lack elements or have invented ones (the three negations). Proved: exactly which file is written, that of the collection of what is seen of the lists (C107_tries_exact, C107_fast_exact, failures included); that the query tools, sequential, or parallel on files without runs, answer with the intersections of what is seen, and parallel on files with runs with parts of them; and that repetitions, and for fast tries any order inside a word, do no harm. C107_tries_right_iff_partial and C107_fast_right_iff say exactly when the answer for a list without repetitions is right. _partial as in C43: supported rank types and block sizes, and run-encoded flat tries that do not collapse."
  }
 ]
}
