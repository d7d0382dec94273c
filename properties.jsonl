{"id": "C01", "title": "Flat trie: build then decode is the identity", "statement": "Building a flatBinTrie (or flatBinTrie_il) from a non-empty strictly increasing vector of integers below u and calling decode on it appends exactly that vector, in order, to the output, with no out-of-bounds access.", "quantifier": "every universe u from 3 to 2^62 (other universes: C86) and every non-empty strictly increasing vector of fewer than 2^32 (more: C68) values < u", "why_tests_cant": "The set of inputs is infinite (every set over every universe); a test only samples a few sets.", "anchors": ["include/flatBinTrie.hpp: flatBinTrie(set,u), getNode, getLeftChild, getRightChild, recursiveDecode, decode", "include/flatBinTrie_il.hpp: same symbols"]}
{"id": "C02", "title": "Level-wise trie: build then decode is the identity", "statement": "Building a binTrie (or binTrie_il) from a non-empty strictly increasing vector of integers below u and calling decode appends exactly that vector, with no out-of-bounds access.", "quantifier": "every universe u from 2 to 2^63 (other universes: C86) and every non-empty strictly increasing vector of fewer than 2^64 values < u", "why_tests_cant": "The set of inputs is infinite (every set over every universe); a test only samples a few sets.", "anchors": ["include/binTrie.hpp: binTrie(set,u), getNode, getLeftChild, getRightChild, recursiveDecode, decode", "include/binTrie_il.hpp: same symbols"]}
{"id": "C03", "title": "Fast trie: build then decode is the identity for every word size", "statement": "Building a fastBinaryTrie with 8, 16, 32 or 64 bit words from a non-empty strictly increasing vector of integers below u and calling decode appends exactly that vector, with no out-of-bounds access.", "quantifier": "every word size in {8,16,32,64}, every universe u of more than half the word size and at most 2^62 (other universes: C86), every non-empty strictly increasing vector of fewer than 2^32 (more: C68) values < u", "why_tests_cant": "The set of inputs is infinite (every set over every universe); a test only samples a few sets.", "anchors": ["include/fastBinaryTrie.hpp: fastBinaryTrie(set,u), getNode, getWord, getLeftChild, getRightChild, recursiveDecode, decode"]}
{"id": "C04", "title": "Flat trie: encoding runs does not change the set", "statement": "After encodeRuns on a freshly built flatBinTrie, decode still yields exactly the original vector and reads only inside the bit vectors.", "quantifier": "every universe u from 3 to 2^62 and every non-empty strictly increasing vector of fewer than 2^32 values < u", "why_tests_cant": "The failing sets are those where every populated aligned block of four is full; whether the stray read matters depends on heap contents, so a test can pass by luck.", "anchors": ["include/flatBinTrie.hpp: encodeRuns, writeCompressTrie, writeOnes, getNode, runsRecursiveDecode", "include/flatBinTrie_il.hpp: same symbols"]}
{"id": "C05", "title": "Level-wise trie: encoding runs does not change the set", "statement": "After encodeRuns on a freshly built binTrie or binTrie_il, decode still yields exactly the original vector, with no out-of-bounds access.", "quantifier": "every universe u from 2 to 2^63 and every non-empty strictly increasing vector of fewer than 2^64 values < u", "why_tests_cant": "The set of inputs is infinite (every set over every universe); a test only samples a few sets.", "anchors": ["include/binTrie.hpp: encodeRuns, writeCompressTrie, writeOnes, runsRecursiveDecode", "include/binTrie_il.hpp: same symbols"]}
{"id": "C06", "title": "Fast trie: encoding runs does not change the set", "statement": "After encodeRuns on a freshly built fastBinaryTrie, decode still yields exactly the original vector.", "quantifier": "every word size, every universe within the limits of C03, every non-empty strictly increasing vector of fewer than 2^32 values, and every value that uninitialised members may hold", "why_tests_cant": "Besides the infinite input space, decode consults a member that the constructor never initialises, so a test passes or fails depending on what was in memory.", "anchors": ["include/fastBinaryTrie.hpp: encodeRuns, writeCompressTrie, writeOnes, runsRecursiveDecode, decode, empty_trie"]}
{"id": "C07", "title": "Sequential intersection of plain tries", "statement": "Intersect(Ts, false, false) over 1 to 16 plain tries of one height returns exactly the common elements of the represented sets, strictly increasing, without duplicates and with no out-of-bounds access.", "quantifier": "every list of 1..16 tries (flat and level-wise may be mixed) over every list of non-empty sets and universes within the limits of C01 and C02, every machine that reports at least one hardware thread (none: C42)", "why_tests_cant": "The set of inputs is infinite (every set over every universe); a test only samples a few sets.", "anchors": ["src/intersection.cpp: Intersect, AND"]}
{"id": "C08", "title": "Sequential intersection of run-encoded tries", "statement": "Intersect(Ts, true, false) over 1 to 16 tries returns exactly the common elements, strictly increasing, whether each trie is run-encoded or plain.", "quantifier": "every list of 1..16 tries within the limits of C01 and C02, each independently plain or run-encoded", "why_tests_cant": "The set of inputs is infinite (every set over every universe); a test only samples a few sets.", "anchors": ["src/intersection.cpp: Intersect, runsAND"]}
{"id": "C09", "title": "Sequential intersection of plain fast tries", "statement": "Intersect(Ts, false, false) over 1 to 16 plain fast tries returns exactly the common elements, strictly increasing.", "quantifier": "every word size and every list of 1..16 sets over one universe within the limits of C03, every machine that reports at least one hardware thread (none: C42)", "why_tests_cant": "The set of inputs is infinite (every set over every universe); a test only samples a few sets.", "anchors": ["src/fastTrieIntersection.cpp: Intersect, AND"]}
{"id": "C10", "title": "Sequential intersection of run-encoded fast tries", "statement": "Intersect(Ts, true, false) over 1 to 16 fast tries, each plain or run-encoded, returns exactly the common elements, strictly increasing.", "quantifier": "every word size and every list of 1..16 sets over one universe within the limits of C03, each independently plain or run-encoded, every machine that reports at least one hardware thread (none: C42)", "why_tests_cant": "The set of inputs is infinite (every set over every universe); a test only samples a few sets.", "anchors": ["src/fastTrieIntersection.cpp: Intersect, runsAND"]}
{"id": "C11", "title": "Parallel intersection of plain tries equals the sequential one", "statement": "Intersect(Ts, false, true) returns the same vector as Intersect(Ts, false, false): same elements in the same order.", "quantifier": "every list of 1..16 plain tries of height at least 2, every hardware thread count from 1 to 65535, every interleaving of the worker threads", "why_tests_cant": "The result depends on the machine's thread count and on the schedule; a test sees one machine and one schedule.", "anchors": ["src/intersection.cpp: Intersect, partialAND, AND", "include/parallel_for.hpp: parallel_for"]}
{"id": "C12", "title": "Parallel intersection of run-encoded tries equals the sequential one", "statement": "Intersect(Ts, true, true) returns the same vector as Intersect(Ts, true, false): same elements in the same order.", "quantifier": "every list of 1..16 tries of one height, every hardware thread count, every interleaving of the worker threads", "why_tests_cant": "The outcome depends on the machine's thread count and on which high subtrees are full; with one or two hardware threads the problem may be invisible.", "anchors": ["src/intersection.cpp: Intersect, partialAND, runsAND"]}
{"id": "C13", "title": "Parallel intersection of fast tries equals the sequential one", "statement": "For fast tries, Intersect(Ts, runs, true) returns the same vector as Intersect(Ts, runs, false).", "quantifier": "every word size, every list of 1..16 tries, every hardware thread count, every interleaving", "why_tests_cant": "The outcome depends on thread count, schedule and on which high subtrees are full.", "anchors": ["src/fastTrieIntersection.cpp: Intersect, partialAND, AND, runsAND"]}
{"id": "C14", "title": "Parallel run-aware intersection never invents or repeats an element", "statement": "Every element returned by Intersect(Ts, true, true) is a common element of all sets, and no element is returned twice.", "quantifier": "every list of 1..16 tries (plain or run-encoded), every hardware thread count, every interleaving", "why_tests_cant": "Needs all tries, all thread counts and all schedules.", "anchors": ["src/intersection.cpp: Intersect, partialAND, runsAND", "src/fastTrieIntersection.cpp: same symbols"]}
{"id": "C15", "title": "Tries of different heights", "statement": "Intersect on a non-empty list of tries whose heights are not all equal returns the empty vector, whatever the tries contain.", "quantifier": "every list of tries with at least two different heights, both flags", "why_tests_cant": "Infinite inputs.", "anchors": ["src/intersection.cpp: Intersect", "src/fastTrieIntersection.cpp: Intersect"]}
{"id": "C16", "title": "Capacity limit of Intersect", "statement": "Intersect is only defined for 1 to 16 tries: no access is out of bounds up to 16, and with more than 16 tries of equal positive height it indexes its fixed arrays out of bounds, as it does on an empty list.", "quantifier": "every number of tries", "why_tests_cant": "Undefined behaviour beyond the limit may go unnoticed in a test run.", "anchors": ["src/intersection.cpp: Intersect, AND, runsAND", "src/fastTrieIntersection.cpp: Intersect"]}
{"id": "C17", "title": "Gathering of thread results is schedule independent", "statement": "The vector assembled from the worker threads is the concatenation of the threads' results in thread order, for both the sequential gather and the parallel gather (more than 450000 elements), whatever the interleaving of the threads' pushes and writes.", "quantifier": "every number of threads, every family of per-thread results, every complete interleaving", "why_tests_cant": "Schedules cannot be enumerated by running.", "anchors": ["src/intersection.cpp: Intersect lines 366-419", "src/fastTrieIntersection.cpp: Intersect lines 389-443", "include/parallel_for.hpp: parallel_for"]}
{"id": "C18", "title": "parallel_for partitions the iteration space", "statement": "parallel_for(n, k, f) with k > 0 calls f on contiguous ranges that together cover every index 0..n-1 exactly once and no other index.", "quantifier": "every n and every k > 0 (with n below 2^31)", "why_tests_cant": "Two unbounded integer parameters.", "anchors": ["include/parallel_for.hpp: parallel_for", "include/parallel_for_macos.hpp: parallel_for"]}
{"id": "C19", "title": "Flat trie: serialize then load", "statement": "Loading the bytes written by serialize gives a trie with the same height, flags and bits, consumes exactly those bytes, and answers decode identically.", "quantifier": "every flat trie and every continuation of the stream", "why_tests_cant": "Infinite inputs.", "anchors": ["include/flatBinTrie.hpp: serialize, load", "include/flatBinTrie_il.hpp: serialize, load"]}
{"id": "C20", "title": "Level-wise trie: serialize then load", "statement": "Loading the bytes written by serialize gives a trie with the same levels and flags, consumes exactly those bytes, and answers decode identically.", "quantifier": "every level-wise trie and every continuation of the stream", "why_tests_cant": "Infinite inputs; for the il variant the bytes written come from an invalid address.", "anchors": ["include/binTrie.hpp: serialize, load", "include/binTrie_il.hpp: serialize, load"]}
{"id": "C21", "title": "Fast trie: serialize then load", "statement": "Loading the bytes written by serialize into a default-constructed fastBinaryTrie gives a trie with the same height, flags, bits and words, consumes exactly those bytes, and answers decode identically.", "quantifier": "every word size, every fast trie with heights below 2^16 (and, as every constructor leaves it, the height in bits that belongs to its height) and every continuation of the stream", "why_tests_cant": "Infinite inputs.", "anchors": ["include/fastBinaryTrie.hpp: serialize, load"]}
{"id": "C22", "title": "serialize returns the number of bytes written", "statement": "The value returned by serialize is the number of bytes it wrote to the stream.", "quantifier": "every trie of every kind", "why_tests_cant": "Infinite inputs; the two numbers can coincide by accident.", "anchors": ["include/flatBinTrie.hpp: serialize", "include/binTrie.hpp: serialize", "include/fastBinaryTrie.hpp: serialize"]}
{"id": "C23", "title": "Reference intersection by repeated merging", "statement": "forceBruteIntersection on a non-empty list of strictly increasing vectors returns exactly the common elements, strictly increasing, whichever order std::sort leaves vectors of equal size in.", "quantifier": "every non-empty list of fewer than 65536 strictly increasing vectors and every admissible outcome of the unstable sort", "why_tests_cant": "The set of inputs is infinite (every set over every universe); a test only samples a few sets.", "anchors": ["src/intersection.cpp: forceBruteIntersection", "src/fastTrieIntersection.cpp: forceBruteIntersection"]}
{"id": "C24", "title": "Barbay-Kenyon intersection", "statement": "barbayKenyon on two or more non-empty strictly increasing vectors terminates and appends exactly the common elements without reading outside the vectors.", "quantifier": "every list of k >= 2 non-empty strictly increasing vectors", "why_tests_cant": "The failing cases depend on relative first elements and on what lies past the end of a vector.", "anchors": ["src/barbay_and_kenyon.cpp: barbayKenyon, exponentialSearch, binarySearch"]}
{"id": "C25", "title": "Trie measure counts distinct prefixes", "statement": "trieMeasure of a freshly built flat trie equals the number of distinct non-empty binary prefixes of the elements: the sum over lengths 1..h of the number of distinct prefixes of that length.", "quantifier": "every universe u from 3 to 2^62 and every non-empty strictly increasing vector of fewer than 2^32 values < u", "why_tests_cant": "The set of inputs is infinite (every set over every universe); a test only samples a few sets.", "anchors": ["include/flatBinTrie.hpp: trieMeasure", "tools/measures.cpp: Trie"]}
{"id": "C26", "title": "Run encoding never costs edges", "statement": "trieMeasure after encodeRuns equals the number of populated aligned blocks that survive pruning, and is at most trieMeasure before encodeRuns.", "quantifier": "every universe u from 3 to 2^62 and every non-empty strictly increasing vector of fewer than 2^32 values < u", "why_tests_cant": "The set of inputs is infinite (every set over every universe); a test only samples a few sets.", "anchors": ["include/flatBinTrie.hpp: trieMeasure, encodeRuns", "tools/measures.cpp: Trie"]}
{"id": "C27", "title": "Encoding runs twice", "statement": "Calling encodeRuns on a trie that is already run-encoded leaves the represented set unchanged.", "quantifier": "every trie produced by the constructor followed by encodeRuns", "why_tests_cant": "Infinite inputs; harmless whenever nothing was pruned.", "anchors": ["include/flatBinTrie.hpp: encodeRuns, writeCompressTrie", "include/binTrie.hpp: encodeRuns", "include/fastBinaryTrie.hpp: encodeRuns"]}
{"id": "C28", "title": "decode appends in increasing order", "statement": "decode leaves the previous contents of the output vector in place and appends strictly increasing values, all below 2^height.", "quantifier": "every trie produced by a constructor, with or without encodeRuns, and every previous content of the vector", "why_tests_cant": "The set of inputs is infinite (every set over every universe); a test only samples a few sets.", "anchors": ["include/flatBinTrie.hpp: decode", "include/binTrie.hpp: decode", "include/fastBinaryTrie.hpp: decode"]}
{"id": "C29", "title": "Universe-less constructor", "statement": "Constructing a trie from a vector alone (no universe argument) gives a trie that decodes to that vector.", "quantifier": "every non-empty strictly increasing vector and every value of uninitialised members", "why_tests_cant": "The object is left uninitialised; what a test sees depends on memory contents.", "anchors": ["include/flatBinTrie.hpp: flatBinTrie(set)", "include/binTrie.hpp: binTrie(set)", "include/fastBinaryTrie.hpp: fastBinaryTrie(set)"]}
{"id": "C30", "title": "Number of trie nodes is linear in set size times height", "statement": "A freshly built trie uses at most 2*(1 + n*(h-1)) bits for its nodes, where n is the number of elements and h the height, and a run-encoded trie never uses more bits than the plain one.", "quantifier": "every universe and every non-empty strictly increasing vector within the limits of C01, C02 and C03", "why_tests_cant": "The set of inputs is infinite (every set over every universe); a test only samples a few sets.", "anchors": ["include/flatBinTrie.hpp: flatBinTrie(set,u), encodeRuns", "include/binTrie.hpp: binTrie(set,u), encodeRuns"]}
{"id": "C31", "title": "Order and repetition of the arguments do not matter", "statement": "The result of a sequential Intersect does not change when the tries are reordered or when a trie is listed twice, and intersecting one trie returns its set.", "quantifier": "every list of 1..16 tries and every permutation", "why_tests_cant": "The set of inputs is infinite (every set over every universe); a test only samples a few sets.", "anchors": ["src/intersection.cpp: Intersect", "src/fastTrieIntersection.cpp: Intersect"]}
{"id": "C32", "title": "Memory safety at the smallest universes", "statement": "Every universe u >= 2 gives a usable trie: a flat trie of height 1, a level-wise trie of height 1 and a fast trie of height 1 can be built, decoded and intersected sequentially or in parallel without out-of-bounds access.", "quantifier": "u = 2 for flat and level-wise tries, universes of at most one word for fast tries, every thread count", "why_tests_cant": "Out-of-bounds reads of zero padding can look right.", "anchors": ["include/flatBinTrie.hpp: flatBinTrie(set,u)", "src/intersection.cpp: Intersect line 329", "src/fastTrieIntersection.cpp: Intersect line 352"]}
{"id": "C33", "title": "Loading into a used fast trie", "statement": "load replaces the previous contents of the object.", "quantifier": "every previously built fast trie and every serialized trie", "why_tests_cant": "Infinite inputs; only shows when an object is reused.", "anchors": ["include/fastBinaryTrie.hpp: load"]}
{"id": "C34", "title": "Collection builder: header count and contents agree", "statement": "The number of sets written in the header of a built collection equals the number of tries that follow, which are exactly the tries of the lists with min_size < length <= max_size in file order; no trie is ever built from an empty list.", "quantifier": "every well-formed collection file (every list shorter than 2^30) and all bounds", "why_tests_cant": "Infinite inputs.", "anchors": ["tools/build_fastTries.cpp: buildCollection, read_inv_list", "tools/build_tries.cpp: buildCollection"]}
{"id": "C35", "title": "End-to-end query answering with fast tries", "statement": "Building a collection file with build_fastTries (rank v or v5) and running the query tool on it sequentially answers every query of 1..16 valid set ids with the intersection of the corresponding lists (numbered after size filtering).", "quantifier": "every collection of strictly increasing lists over a universe of more than half the word size, every word size, every runs flag, every query log with at least one query", "why_tests_cant": "Composition of two programs over all files and all queries.", "anchors": ["tools/build_fastTries.cpp: buildCollection", "tools/intersection_querylog_fastTrie.cpp: loadTries, performIntersections, main"]}
{"id": "C36", "title": "Header compatibility of builder and query tool", "statement": "For every rank option the header written by a builder is read back field for field by the matching query tool.", "quantifier": "every value of the rank, runs, levelwise and word-size options", "why_tests_cant": "Only one option combination misparses; tests may not exercise it.", "anchors": ["tools/build_fastTries.cpp: buildCollection", "tools/intersection_querylog_fastTrie.cpp: main", "tools/build_tries.cpp: buildCollection", "tools/intersection_query_log.cpp: main"]}
{"id": "C37", "title": "prefixOf returns the suffix after the common prefix", "statement": "prefixOf(x, y, 64) returns x reduced to the bits from the first differing bit downwards, and x itself when x = y.", "quantifier": "every pair of 64-bit integers", "why_tests_cant": "2^128 input pairs.", "anchors": ["tools/pom.cpp: prefixOf"]}
{"id": "C38", "title": "Gap measure", "statement": "Gap of a strictly increasing non-empty vector is the sum of the binary lengths of the first element and of the successive gaps minus one (each at least one bit), hence at least the number of elements.", "quantifier": "every non-empty strictly increasing vector of fewer than 2^32 64-bit values", "why_tests_cant": "The set of inputs is infinite (every set over every universe); a test only samples a few sets.", "anchors": ["tools/measures.cpp: Gap"]}
{"id": "C39", "title": "RLE measure accounts for every run", "statement": "Rle of a set counts one term for every maximal run of consecutive elements.", "quantifier": "every non-empty strictly increasing vector", "why_tests_cant": "The set of inputs is infinite (every set over every universe); a test only samples a few sets.", "anchors": ["tools/measures.cpp: Rle"]}
{"id": "C40", "title": "elements_coded counts the elements", "statement": "elements_coded of a freshly built flat trie (il variant) is the size of the set; after encodeRuns it is the number of elements that are not inside a full aligned block of four numbers, so it may be smaller than the set.", "quantifier": "every universe u from 3 to 2^62 and every non-empty strictly increasing vector of fewer than 2^32 values < u", "why_tests_cant": "The set of inputs is infinite (every set over every universe); a test only samples a few sets.", "anchors": ["include/flatBinTrie_il.hpp: elements_coded, encodeRuns"]}
{"id": "C41", "title": "Empty set", "statement": "A trie built from the empty vector decodes to nothing, and every intersection it takes part in is empty.", "quantifier": "every universe u >= 2, every class of trie, plain or run-encoded", "why_tests_cant": "Out-of-bounds reads may go unnoticed, and the wrong results depend on what follows the vectors in memory.", "anchors": ["include/flatBinTrie.hpp: flatBinTrie(set,u)", "include/binTrie.hpp: binTrie(set,u), encodeRuns", "include/fastBinaryTrie.hpp: fastBinaryTrie(set,u)", "src/intersection.cpp: runsAND"]}
{"id": "C42", "title": "Sequential intersection does not depend on the machine", "statement": "The result of a sequential Intersect is the same on every machine, whatever hardware_concurrency() returns.", "quantifier": "all tries, all values of hardware_concurrency(), which may be 0", "why_tests_cant": "A test runs on one machine with one value of hardware_concurrency().", "anchors": ["src/intersection.cpp: Intersect lines 323-325", "src/fastTrieIntersection.cpp: Intersect"]}
{"id": "C43", "title": "Collections of flat and level-wise tries are answered correctly end to end", "statement": "For a file written by build_tries, intersection_query_log computes for every query of 1 to 16 set numbers exactly the intersection of the kept lists with these numbers, in its default mode as well as with --parallel f, for every rank type, block size, layout and run option the builder accepts.", "quantifier": "every collection of strictly increasing lists over a universe of at least 3, every min_size and max_size, every option of the builder, every query log with valid set numbers, every scheduling", "why_tests_cant": "The options, collections and query logs are unbounded in number, and each combination passes through construction, encoding, saving, loading and intersecting; a test runs one collection with one option.", "anchors": ["tools/build_tries.cpp: buildCollection, main", "tools/intersection_query_log.cpp: loadSequences, performIntersections, main", "src/intersection.cpp: Intersect"]}
{"id": "C44", "title": "The length filter of the builders", "statement": "With --min_size m, the builders drop exactly the lists with fewer than m elements (and those with more than max_size elements).", "quantifier": "every collection, every min_size and max_size, every other option", "why_tests_cant": "The claim is about every collection and every m; a test has to hit a list whose length equals the limit.", "anchors": ["README.md: --min_size", "tools/build_tries.cpp: buildCollection", "tools/build_fastTries.cpp: buildCollection"]}
{"id": "C45", "title": "Set numbers of queries are positions in the complete collection", "statement": "The id of a set in a query log is the position of the set in the complete collection, so a query is answered with the intersection of the lists at these positions of the input of the builder.", "quantifier": "every collection, every filter of the builder, every query log", "why_tests_cant": "Collections, filters and logs are unbounded; a test collection without dropped lists never shows a difference.", "anchors": ["README.md: intersection of the tries", "tools/build_tries.cpp: buildCollection", "tools/build_fastTries.cpp: buildCollection", "tools/intersection_query_log.cpp: performIntersections", "tools/intersection_querylog_fastTrie.cpp: loadTries"]}
{"id": "C46", "title": "size_in_bytes is the size of the serialized trie", "statement": "size_in_bytes() of a trie is the number of bytes serialize() writes for it.", "quantifier": "every trie of every kind, every word size, every rank support", "why_tests_cant": "Sizes depend on the set, the universe and the rank support; a test compares finitely many.", "anchors": ["include/flatBinTrie.hpp: size_in_bytes, serialize", "include/binTrie.hpp: size_in_bytes, serialize", "include/fastBinaryTrie.hpp: size_in_bytes, serialize"]}
{"id": "C47", "title": "A copy of a trie is independent of the original", "statement": "A copy of a trie (as made by assigning it, returning it by value or putting it in a container) decodes and navigates like the original did when the copy was made, whatever happens to the original afterwards: destroying the original or encoding its runs does not change the copy.", "quantifier": "for all sets, all trie types, both rank families, before and after the end of the original's life", "why_tests_cant": "A dangling pointer usually still reads the old bytes, so a test passes until the memory is reused.", "anchors": ["include/flatBinTrie.hpp:flatBinTrie", "include/binTrie.hpp:binTrie", "include/fastBinaryTrie.hpp:fastBinaryTrie", "include/flatBinTrie.hpp:encodeRuns"]}
{"id": "C48", "title": "The measures tool prints the totals of the sets it keeps", "statement": "For every collection file over a universe of at least 3, the totals that the measures tool accumulates are, modulo 2^64, the number of lists longer than --min_length, the number of their elements, the sums of their trie measures without and with runs, the sum of their run-length measures and the sum of their gap measures.", "quantifier": "for all collections, all minimum lengths", "why_tests_cant": "Tests look at one collection; the extra number charged between lists depends on the last element of the previous kept list and on 32-bit wrap-around.", "anchors": ["tools/measures.cpp:main", "tools/measures.cpp:Gap", "tools/measures.cpp:Rle", "tools/measures.cpp:Trie"]}
{"id": "C49", "title": "The coding statistics tools process every kept list exactly once and end", "statement": "classic_coders, pom and cbv_coding, on every collection file, end and report the number of elements, the number of lists and the total sizes of exactly the lists longer than --min_length, each processed once with its own contents.", "quantifier": "for all collections, all minimum lengths, all coders", "why_tests_cant": "Needs every shape of the end of the file: whether the last list is kept decides between double processing and an endless loop, and an empty collection leaves the length indeterminate.", "anchors": ["tools/classic_coders.cpp:main", "tools/pom.cpp:main", "tools/pom.cpp:prefixOf", "tools/cbv_coding.cpp:main"]}
{"id": "C50", "title": "Reading query logs", "statement": "Every query log whose lines list set numbers in decimal, separated by blanks, is read as exactly these queries, and text that is not of this form is rejected.", "quantifier": "every text, every number of queries, every number of sets per query, any leading zeros, blanks and line ends", "why_tests_cant": "The texts are unbounded and the corner cases (last line without newline, blank lines, large or negative numbers, carriage returns) are many.", "anchors": ["tools/intersection_query_log.cpp: loadQueryLog", "tools/intersection_querylog_fastTrie.cpp: loadQueryLog"]}
{"id": "C51", "title": "Command line options", "statement": "The tools recognise their options in any order and number; the last option of a kind counts, and everything not given has its default.", "quantifier": "every sequence of options with every value", "why_tests_cant": "The sequences of options are unbounded, and the tools test every argument against every name after having moved on, so an interaction between two options can go wrong anywhere.", "anchors": ["tools/build_tries.cpp: main", "tools/build_fastTries.cpp: main", "tools/intersection_query_log.cpp: main", "tools/intersection_querylog_fastTrie.cpp: main"]}
{"id": "C52", "title": "A flat trie can be made from the levels of a level-wise trie", "statement": "For every set, constructing a flat trie from the positions of the ones and the sizes of the levels of the level-wise trie of that set (plain or run-encoded) gives the same trie as constructing the flat trie from the set (and encoding its runs); the plain one decodes to the set.", "quantifier": "for all sets of fewer than 2^32 elements over a universe from 3 to 2^62, both rank families", "why_tests_cant": "The positions are absolute per level and become offsets into one bit vector; an error shows only for level sizes a test does not use, or when trailing levels are empty after run encoding.", "anchors": ["include/flatBinTrie.hpp:flatBinTrie(vector<uint64_t>[], uint16_t, uint64_t*, bool)", "include/flatBinTrie_il.hpp:flatBinTrie_il(vector<uint64_t>[], uint16_t, uint64_t*, bool)", "include/flatBinTrie.hpp:writeOnes"]}
{"id": "C53", "title": "Whole sessions: from the command line and the collection to the answers", "statement": "Running a builder with any options on a collection and then the matching query tool on the file it wrote and a query log gives, for every query of at most 16 sets, exactly the intersection; the results file lists, for these queries in order, the number of sets and the size of the intersection.", "quantifier": "every collection, every sequence of options of both tools, every query log", "why_tests_cant": "Every stage (options, filter, construction, encoding, file format, loading, log, intersection) has unboundedly many inputs, and errors appear in combinations.", "anchors": ["tools/build_tries.cpp: main", "tools/build_fastTries.cpp: main", "tools/intersection_query_log.cpp: main, performIntersections", "tools/intersection_querylog_fastTrie.cpp: main, performIntersections"]}
{"id": "C54", "title": "Plain Intersect reads no indeterminate value", "statement": "Intersecting tries without runs reads no variable that was not written: the outcome is defined by the standard, not only by what compilers happen to do.", "quantifier": "every list of 1 to 16 plain tries of one height, sequential or parallel", "why_tests_cant": "The value read is discarded, so every test passes whatever it is; which sets lead to the read depends on the shape of the whole recursion.", "anchors": ["src/intersection.cpp: AND, Intersect", "src/fastTrieIntersection.cpp: AND, Intersect"]}
{"id": "C55", "title": "Parallel Intersect frees what it allocates, exactly once", "statement": "Every array that a call of Intersect allocates is freed exactly once before the call returns, and none is used after it was freed.", "quantifier": "every list of tries, with and without runs, sequential or parallel, every number of hardware threads and every interleaving", "why_tests_cant": "Results are right with leaks and often with invalid frees; which arrays are freed depends on how many common blocks there are and how many threads they fill.", "anchors": ["src/intersection.cpp: partialAND, Intersect", "src/fastTrieIntersection.cpp: partialAND, Intersect"]}
{"id": "C56", "title": "Parallel Intersect has no data races", "statement": "While several threads of one call of Intersect run, no memory location is written by one of them and read or written by another.", "quantifier": "every list of tries of any mixture of classes and in any state, with and without runs, every number of hardware threads, every size of the result", "why_tests_cant": "A race shows only under particular interleavings and memory orders; tests and sanitizers see the executions that happen.", "anchors": ["src/intersection.cpp: Intersect, AND, runsAND", "src/fastTrieIntersection.cpp: Intersect, AND, runsAND", "include/parallel_for.hpp: parallel_for"]}
{"id": "C57", "title": "Intersect on macOS gives what it gives on Linux", "statement": "Built for macOS, where the library has its own parallel_for and its own functions to bind threads to processors, Intersect returns what it returns built for Linux.", "quantifier": "every list of tries, with and without runs, sequential or parallel, every number of hardware threads and every interleaving", "why_tests_cant": "A test on one machine sees one number of processors; an undefined shift mostly has no visible effect.", "anchors": ["include/parallel_for_macos.hpp: CPU_SET, CPU_ISSET, pthread_setaffinity_np, parallel_for", "src/intersection.cpp: Intersect", "src/fastTrieIntersection.cpp: Intersect"]}
{"id": "C58", "title": "Intersect reads only the part of the tries that the sets share", "statement": "Of each trie, an intersection without runs, sequential or parallel, reads one node for each aligned block that every set meets and no other, whatever the mode, the number of hardware threads and the schedule; so the work is at most the height times the number of tries times the size of the smallest set. A sequential intersection with runs reads, of each trie, the same blocks except those inside a larger block that the trie represents by one node; so run-encoding never increases what is read.", "quantifier": "every list of 1 to 16 tries of any mixture of classes and one height (at least 2 for parallel calls, see C32), every set, every number of hardware threads below 2^16 and every interleaving", "why_tests_cant": "Tests can time some inputs; a bound over all inputs, and that threads repeat no work, needs a proof.", "anchors": ["src/intersection.cpp: AND, runsAND, partialAND, Intersect", "src/fastTrieIntersection.cpp: AND, runsAND, partialAND, Intersect"]}
{"id": "C59", "title": "The encoding checkers report a list only if it is wrongly encoded", "statement": "For every valid collection, test_encoding and test_fastTrie report no list, and print the number of lists with more elements than --min_size, the number of their elements and the size of their tries; and they end without undefined behaviour.", "quantifier": "every collection of valid sets, every sequence of options, every rank support, layout, word size and run encoding", "why_tests_cant": "The checkers are themselves the tests; nothing tests them, and a run on one collection says nothing about another.", "anchors": ["test/test_encoding.cpp: verifyEncode, main", "test/test_fastTrie.cpp: verifyEncode, main"]}
{"id": "C60", "title": "The encoding checkers check what they are asked to check", "statement": "The tries that test_encoding and test_fastTrie build have the rank support asked for with --rank, and the lists they look at are those longer than --min_size.", "quantifier": "every collection, every sequence of options", "why_tests_cant": "The output names the rank support of the command line, whichever is used; all rank supports decode to the same sets.", "anchors": ["test/test_encoding.cpp: verifyEncode, main", "test/test_fastTrie.cpp: verifyEncode, main"]}
{"id": "C61", "title": "test_intersection complains exactly about wrong answers", "statement": "On a file made by build_tries, test_intersection complains about the first query of at most 16 sets whose parallel answer is not the intersection of its sets, with the sizes of both and the first ten positions at which they differ; if there is none, it prints the number of queries of at most 16 sets.", "quantifier": "every valid collection, every way to build it, every query log, every number of hardware threads and every interleaving", "why_tests_cant": "A checker that never complains passes on all correct programs; that it complains about every wrong one cannot be tested.", "anchors": ["test/test_intersection.cpp: loadTries, performIntersections, main", "src/intersection.cpp: forceBruteIntersection, Intersect"]}
{"id": "C62", "title": "test_intersection_fastTrie checks the files of build_fastTries", "statement": "On a file made by build_fastTries with 64-bit words, test_intersection_fastTrie complains about the first query of at most 16 sets whose parallel answer is not the intersection of its sets, and otherwise prints the number of queries of at most 16 sets.", "quantifier": "every valid collection, every query log, every number of hardware threads and every interleaving", "why_tests_cant": "As for C61; misread files may crash or give a verdict about other sets, depending on their bytes.", "anchors": ["test/test_intersection_fastTrie.cpp: loadTries, performIntersections, main", "tools/build_fastTries.cpp: buildCollection"]}
{"id": "C63", "title": "Intersect is adaptive", "statement": "If the universe 2^h can be cut into d intervals each of which is a single common element or contains no element of one of the sets, then Intersect reads at most d (h - log2 d + 1) nodes of each trie, and of fast tries at most d words of each, however many elements the sets have. If all tries are run-encoded, intervals of common elements may have any length (with 2d for d).", "quantifier": "every list of 1 to 16 tries of one height (at least 2 for parallel calls, see C32), every such cutting, plain and run-aware calls, sequential or parallel on every machine with fewer than 2^16 threads", "why_tests_cant": "The bound is over all sets and all cuttings; times measured on some collections do not show it.", "anchors": ["src/intersection.cpp: AND, runsAND, partialAND, Intersect", "src/fastTrieIntersection.cpp: AND, runsAND, partialAND, Intersect"]}
{"id": "C64", "title": "The size of a trie follows the blocks and runs of the set", "statement": "A trie takes exactly two bits for every aligned block of at least two numbers (fast tries: larger than a word, plus one word per block of the size of a word) that contains an element; after encodeRuns, blocks inside a larger block consisting of elements only take nothing. So n elements below 2^h take at most 2 n (h - log2 n + 1) bits, and after encodeRuns a set of r runs takes at most 2 k (h - log2 k + 1) bits with k = 4r + 2, however many elements the runs have; and no trie takes fewer than 2 (r - 1) bits.", "quantifier": "every valid set and universe within the limits of C01, C02 and C03, every trie class, every word size", "why_tests_cant": "The size is claimed for every set, exactly; measured files show some sets, and rank supports and headers on top.", "anchors": ["include/flatBinTrie.hpp: flatBinTrie, encodeRuns", "include/flatBinTrie_il.hpp: flatBinTrie_il, encodeRuns", "include/binTrie.hpp: binTrie, encodeRuns", "include/binTrie_il.hpp: binTrie_il, encodeRuns", "include/fastBinaryTrie.hpp: fastBinaryTrie, encodeRuns"]}
{"id": "C65", "title": "The cost of building a trie", "statement": "Constructing a trie from n numbers of h bits takes time and working memory in proportion to n times h: every element is read at most once per level, and the bit vectors created on the way are not larger than that.", "quantifier": "every valid set and universe, every trie class, every word size", "why_tests_cant": "A bound over all sets; tests use universes for which the temporary vectors fit, and do not see how they grow with the universe.", "anchors": ["include/flatBinTrie.hpp: flatBinTrie(set, u)", "include/flatBinTrie_il.hpp: flatBinTrie_il(set, u)", "include/binTrie.hpp: binTrie(set, u)", "include/binTrie_il.hpp: binTrie_il(set, u)", "include/fastBinaryTrie.hpp: fastBinaryTrie(set, u)"]}
{"id": "C66", "title": "The cost of decoding", "statement": "decode reads every stored node (and word) of the trie exactly once and nothing else: one node per aligned block with an element, one step down per distinct prefix of an element; on a run-encoded trie only those outside larger full blocks, so that a set of r runs below 2^h is decoded with at most k (h - log2 k + 1) node reads, k = 4r + 2, however many numbers are written out.", "quantifier": "every valid set and universe within the limits of C01, C02 and C03, every trie class, every word size, before and after encodeRuns", "why_tests_cant": "The number of reads is claimed exactly for every set; a test sees the decoded numbers only.", "anchors": ["include/flatBinTrie.hpp: decode, recDecode, runsRecDecode", "include/flatBinTrie_il.hpp: decode, recDecode, runsRecDecode", "include/binTrie.hpp: decode, recDecode, runsRecDecode", "include/binTrie_il.hpp: decode, recDecode, runsRecDecode", "include/fastBinaryTrie.hpp: decode, recDecode, runsRecDecode"]}
{"id": "C67", "title": "The universe matters by its number of bits only", "statement": "Two universes with the same number of bits give the same trie of every vector, so a universe may be rounded up to a power of two; universes with different numbers of bits give tries of different heights of every set, which Intersect does not take together.", "quantifier": "every vector, every two universes from 2 on, every trie class; the other direction for every set the constructors take over both universes (C86)", "why_tests_cant": "Quantifies over all pairs of universes and all vectors.", "anchors": ["include/flatBinTrie.hpp: flatBinTrie(set, u)", "include/binTrie.hpp: binTrie(set, u)", "include/fastBinaryTrie.hpp: fastBinaryTrie(set, u)"]}
{"id": "C68", "title": "Sets of more than 2^32 elements", "statement": "A trie built from a valid set holds the whole set, however many elements it has; nothing is dropped without a report.", "quantifier": "every valid set of fewer than 2^64 elements, every trie class, every word size", "why_tests_cant": "The sizes at which it fails need 32 GB of input; no test builds such a vector.", "anchors": ["include/flatBinTrie.hpp: flatBinTrie(set, u)", "include/flatBinTrie_il.hpp: flatBinTrie_il(set, u)", "include/fastBinaryTrie.hpp: fastBinaryTrie(set, u)", "include/binTrie.hpp: binTrie(set, u)"]}
{"id": "C69", "title": "Any number of sets in stages", "statement": "More sets than one call takes can be intersected in stages: the result of Intersect, unless empty, can be made into a trie with the same universe and passed to Intersect together with up to 15 further tries, any number of times; the last result is the intersection of all sets, in increasing order.", "quantifier": "every number of sets, every grouping into a first group of 1 to 16 and later ones of up to 15, every class of intermediate trie, sequential and parallel plain calls and sequential run-aware calls", "why_tests_cant": "Quantifies over all numbers of stages and all intermediate results.", "anchors": ["src/intersection.cpp: Intersect", "src/fastTrieIntersection.cpp: Intersect", "include/flatBinTrie.hpp: flatBinTrie(set, u)", "include/binTrie.hpp: binTrie(set, u)", "include/fastBinaryTrie.hpp: fastBinaryTrie(set, u)"]}
{"id": "C70", "title": "One set, one file", "statement": "Tries and serialized files identify the set: the tries (or files) made from two sets, before or after encodeRuns and with whatever universes, are equal only if the sets are equal; and making a trie of the same set with the same universe again and serializing it writes the same bytes.", "quantifier": "every two valid sets and universes, every trie class, run-encoded or not", "why_tests_cant": "Injectivity over all pairs of sets; and that files are reproducible cannot be seen from one run in which uninitialised members happen to be zero.", "anchors": ["include/flatBinTrie.hpp: serialize, encodeRuns", "include/binTrie.hpp: serialize, encodeRuns", "include/fastBinaryTrie.hpp: serialize, encodeRuns, fastBinaryTrie(set, u)"]}
{"id": "C71", "title": "Membership by navigation", "statement": "A client that follows the bits of a number from the root with getNode, getLeftChild, getRightChild (and getWord at the last level of fast tries) finds out whether the number is in the set, without undefined behaviour; on run-encoded tries a node without children stands for a full block.", "quantifier": "every valid set and universe, every trie class, run-encoded or not, every number below 2^height (or 2^(height-1) words)", "why_tests_cant": "Quantifies over all sets and all numbers, present or absent; the out-of-bounds read happens only for numbers in the last blocks of sets made of full blocks, and often returns a plausible bit.", "anchors": ["include/binaryTrie.hpp: getNode, getLeftChild, getRightChild", "include/flatBinTrie.hpp: getNode, getLeftChild, getRightChild", "include/binTrie.hpp: getNode, getLeftChild, getRightChild", "include/fastBinaryTrie.hpp: getNode, getWord, getLeftChild, getRightChild"]}
{"id": "C72", "title": "The cost of run encoding", "statement": "encodeRuns reads every node (and word) of the plain trie exactly once and calls getLeftChild or getRightChild exactly once per node with children. The working memory is one 64-bit position for every one bit of the encoded trie and for every element in a full block of four numbers (fast tries: for every node and word of the encoded trie but the root and every word of the plain one); never more than one per one bit of the plain trie (fast tries: one per node and two per word), hence at most the number of elements times the height.", "quantifier": "every valid set and universe within the limits of C01, C02 and C03, every trie class, every word size", "why_tests_cant": "Claims an exact count for every set; tests do not see reads or temporary vectors.", "anchors": ["include/flatBinTrie.hpp: encodeRuns, writeCompressTrie", "include/flatBinTrie_il.hpp: encodeRuns, writeCompressTrie", "include/binTrie.hpp: encodeRuns, writeCompressTrie", "include/binTrie_il.hpp: encodeRuns, writeCompressTrie", "include/fastBinaryTrie.hpp: encodeRuns, writeCompressTrie"]}
{"id": "C73", "title": "Vectors in any order", "statement": "A trie built from a non-empty vector holds exactly the numbers in the vector, in whatever order they come and however often they are repeated; no vector makes a constructor read or write out of bounds.", "quantifier": "every non-empty vector, every universe, every trie class, every word size", "why_tests_cant": "Quantifies over all vectors; a vector that is not increasing yields a well-formed trie with other numbers in it, which no check reports.", "anchors": ["include/flatBinTrie.hpp: flatBinTrie(set, u)", "include/flatBinTrie_il.hpp: flatBinTrie_il(set, u)", "include/binTrie.hpp: binTrie(set, u)", "include/binTrie_il.hpp: binTrie_il(set, u)", "include/fastBinaryTrie.hpp: fastBinaryTrie(set, u)"]}
{"id": "C74", "title": "The wrong runs flag", "statement": "Intersect returns the intersection also when the runs flag does not say how the tries were encoded: runs=true for tries that were never run-encoded, and runs=false for tries that were.", "quantifier": "1 to 16 tries of one height, each plain or run-encoded, every trie class, every word size, sequential and parallel calls, every number of hardware threads", "why_tests_cant": "Quantifies over all combinations of sets, encodings and flags; with runs=false the call returns without an error whatever the encoding, and the result is right for most sparse sets.", "anchors": ["src/intersection.cpp: Intersect, AND, runsAND, partialAND", "src/fastTrieIntersection.cpp: Intersect, AND, runsAND, partialAND"]}
{"id": "C75", "title": "Tries behave as sets over any history", "statement": "A program that builds tries, run-encodes them, decodes them, saves and loads them and intersects them, in any order and any number of times, sees exactly the results it would see with sets in place of the tries, and no step is undefined, if it keeps the known rules: sets are valid; runs are encoded at most once per trie, in flat tries only if some number has no full block of four around it; binTrie_il is not saved; Intersect gets 1 to 16 tries of one height, the runs flag if any of them is encoded, and in parallel no height 1 and no encoded set that fills the block of a thread; a run-encoded fast trie is not decoded if its unwritten empty_trie is true.", "quantifier": "every program of any length that keeps the rules, every trie class and mixture of classes, every word size, every sdsl format that round-trips, every number of hardware threads and interleaving; sets of fewer than 2^32 elements over the universes of C86", "why_tests_cant": "Quantifies over all sequences of operations; tests try one order, usually build, encode, intersect.", "anchors": ["include/binaryTrie.hpp: binaryTrie", "include/flatBinTrie.hpp: flatBinTrie", "include/flatBinTrie_il.hpp: flatBinTrie_il", "include/binTrie.hpp: binTrie", "include/binTrie_il.hpp: binTrie_il", "include/fastBinaryTrie.hpp: fastBinaryTrie", "src/intersection.cpp: Intersect", "src/fastTrieIntersection.cpp: Intersect"]}
{"id": "C76", "title": "Interleavings never change the outcome", "statement": "The outcome of Intersect does not depend on how the threads interleave, whatever the state of the tries: if one interleaving returns a list all do, and it is the same list in the same order; if one is undefined all are.", "quantifier": "all lists of tries in any state, well built or not, every trie class, both values of runs and parallel, every number of hardware threads, every pair of interleavings", "why_tests_cant": "Interleavings cannot be enumerated by running, and a test only sees the outcomes of tries that were built correctly.", "anchors": ["src/intersection.cpp: Intersect", "src/fastTrieIntersection.cpp: Intersect", "include/parallel_for.hpp: parallel_for"]}
{"id": "C77", "title": "Plain parallel calls are sequential calls on any trie", "statement": "With runs=false and tries of height at least 2, the parallel Intersect returns a list iff the sequential Intersect does, and then the same list, whatever the tries contain and however many there are. On at most 16 tries both are undefined in the same way: threads never turn a read outside an array into a result or a result into such a read.", "quantifier": "all lists of tries of height at least 2 in any state, every trie class, every word size, 1 to 65535 hardware threads, every interleaving", "why_tests_cant": "Quantifies over all contents of the tries, also those no constructor makes, and over all interleavings.", "anchors": ["src/intersection.cpp: Intersect, AND, partialAND", "src/fastTrieIntersection.cpp: Intersect, AND, partialAND"]}
{"id": "C78", "title": "Run-aware parallel calls do a part of what sequential calls do", "statement": "With runs=true and tries of height at least 2: whenever the sequential Intersect returns a list, so does the parallel Intersect, whatever the tries contain. The elements it returns are among those of the sequential call, none more often, and over all threads it reads no more nodes and words and moves to children no more often.", "quantifier": "all lists of tries of height at least 2 in any state, well built or not, every trie class, every word size, 1 to 65535 hardware threads, every interleaving", "why_tests_cant": "Quantifies over all contents of the tries, also those no constructor makes, over all thread counts and interleavings; that no read is made that the sequential call does not make cannot be seen from results.", "anchors": ["src/intersection.cpp: Intersect, runsAND, partialAND", "src/fastTrieIntersection.cpp: Intersect, runsAND, partialAND"]}
{"id": "C79", "title": "A parallel Intersect starts at most as many threads at a time as the machine has, and leaves out at most one when there is work for all", "statement": "With parallel=true, whatever the tries contain: the threads that search, and after them the threads that copy the results, are at most 2^floor(log2 hw), where hw is the number of hardware threads; results are copied by threads exactly if there are more than 450000; with parallel=false no thread is started. For tries made by the constructors the number of threads is at least 2^floor(log2 hw)-1, unless the sets have fewer blocks in common on the level below the cut; then there is one thread for each of these blocks.", "quantifier": "upper bound: all lists of tries in any state, every trie class and word size, both flags, fewer than 65536 hardware threads, every interleaving; lower bound: all lists of at most 16 tries of equal height at least floor(log2 hw)+2", "why_tests_cant": "The number of threads is not visible in results and depends on all sets together and on the hardware; a test sees one machine.", "anchors": ["src/intersection.cpp: Intersect, AND, runsAND, partialAND", "src/fastTrieIntersection.cpp: Intersect, AND, runsAND, partialAND", "include/parallel_for.hpp: parallel_for"]}
{"id": "C80", "title": "What one thread of a parallel Intersect reads is bounded, and dividing the work adds none", "statement": "With parallel=true, n tries of height h and cut = floor(log2 hw) <= h-2, whatever the tries contain: before the threads start at most n(2^(cut+1)-1) nodes are read, and then each thread reads at most n(2^(h-cut)-1) nodes (fast tries: n(2^(h-1-cut)-1) nodes and n 2^(h-1-cut) words). What is read before the threads start and by any one thread is together no more than what the sequential call reads. It may be all of that: no speed-up is guaranteed.", "quantifier": "bounds: all lists of tries of equal height in any state, both values of runs, every interleaving; comparison: all lists of at most 16 plain tries, and all lists of tries in any state with runs=true, if the sequential call returns", "why_tests_cant": "A bound on the longest thread over all inputs; counting reads per thread is not part of the interface, and timings show neither the bound nor that it holds for every input.", "anchors": ["src/intersection.cpp: Intersect, AND, runsAND, partialAND", "src/fastTrieIntersection.cpp: Intersect, AND, runsAND, partialAND", "include/parallel_for.hpp: parallel_for"]}
{"id": "C81", "title": "Rounding in log2 does no harm", "statement": "The constructors compute the height as floor(log2(u - 1)) + 1 in double precision, where both the conversion of u - 1 and the logarithm are rounded. Whatever the rounding (it keeps the order and is exact on powers of two), for every universe the constructors accept the trie holds exactly the set, its height depends on the universe only, and everything that holds of plain tries holds of it. The gap measure grows by at most one bit for each element, the run-length measure by at most two.", "quantifier": "all rounding behaviours meeting the contract, all valid sets, all universes up to 2^62, every trie class and word size", "why_tests_cant": "Rounding starts to matter beyond about 2^48, where no test can build a trie, and depends on the C library and the rounding mode.", "anchors": ["include/flatBinTrie.hpp: flatBinTrie(set, u)", "include/binTrie.hpp: binTrie(set, u)", "include/fastBinaryTrie.hpp: fastBinaryTrie(set, u)", "tools/measures.cpp: Gap, Rle"]}
{"id": "C82", "title": "The working queue of a constructor is no longer than the set", "statement": "While a trie is built, the queue of pending ranges never holds more entries than the set has elements, however large the universe. Flat and level-wise tries reach exactly the number of elements, because the ranges of single elements are still queued at the last level. Fast tries reach exactly the number of words that contain an element.", "quantifier": "all valid sets and universes within the limits of C01, C02 and C03, every trie class and word size", "why_tests_cant": "The queue is a local variable of the constructor, and a test sees neither its length nor all shapes of sets that might make it long.", "anchors": ["include/flatBinTrie.hpp: flatBinTrie(set, u)", "include/flatBinTrie_il.hpp: flatBinTrie_il(set, u)", "include/binTrie.hpp: binTrie(set, u)", "include/binTrie_il.hpp: binTrie_il(set, u)", "include/fastBinaryTrie.hpp: fastBinaryTrie(set, u)"]}
{"id": "C83", "title": "Collections cut short", "statement": "Given only the first k bytes of a collection, a builder does not complete as if nothing were missing, and never uses values it has not read. What it does is decided by where the cut falls: within the two numbers of the header or within the elements of a list that passes the length filter, it uses values it has not read; anywhere else it writes, without a complaint, the file of the collection of the lists that are complete. The tools that print statistics count complete lists only.", "quantifier": "all collections, all cuts, all length filters and builder options, all file formats, all coders", "why_tests_cant": "There are as many cuts as bytes, and using a value that was not read may give any result, including the expected one.", "anchors": ["tools/build_tries.cpp: buildCollection, read_inv_list", "tools/build_fastTries.cpp: buildCollection, read_inv_list", "tools/measures.cpp: main", "tools/classic_coders.cpp: main", "tools/cbv_coding.cpp: main", "tools/pom.cpp: main"]}
{"id": "C84", "title": "Run-encoded flat tries in memory allocated by words", "statement": "With bit vectors allocated in whole 64-bit words whose unused bits are zero, one word more when the last is full, every flat trie can be decoded after encodeRuns, and run-aware Intersect of such tries returns the intersection. (Strictly, reading past the end of a vector is outside the contract of the library; this is what a release build does.)", "quantifier": "all valid sets, all universes from 3 to 2^62; for Intersect all combinations of 1 to 16 tries, each with its own number of readable bits, sequential and parallel", "why_tests_cant": "Whether it works depends on how full the last word of the vector is; small tests succeed because of the unused bits, and a failing read may still return a zero by chance.", "anchors": ["include/flatBinTrie.hpp: getNode, encodeRuns, decode", "src/intersection.cpp: Intersect"]}
{"id": "C85", "title": "A query needs only the part of the file up to the sets it names", "statement": "The answers of a query tool are decided by the file of tries up to the last set that is asked about: cutting the file behind that trie, replacing what follows it by anything, or announcing more tries in the header than there are changes no answer. A file of the first lists of a collection, and the same part of the file of the whole collection, give the same answers.", "quantifier": "all collections and divisions of them into first and further lists, all bytes that may follow, all queries about the first lists, all builder options the tool can read, sequential and parallel, all machines", "why_tests_cant": "There are unboundedly many continuations of a file, and a tool that reads too far may still find usable bytes there.", "anchors": ["tools/intersection_querylog_fastTrie.cpp: loadTries, main", "tools/intersection_query_log.cpp: loadSequences, main", "tools/build_fastTries.cpp: buildCollection", "tools/build_tries.cpp: buildCollection"]}
{"id": "C86", "title": "The universes that constructors take", "statement": "A valid set over u can be built and decoded exactly if u is from 3 to 2^62 for flat tries, from 2 to 2^63 for level-wise tries, and from half the number of bits of a word plus one to 2^62 for fast tries. Above these limits the constructor has undefined behaviour for every vector.", "quantifier": "every universe, every valid set over it (every vector above the limits), every word size", "why_tests_cant": "The limits are at universes for which no machine has the memory, so a test never meets the upper ones, and the claim is about all sets.", "anchors": ["include/flatBinTrie.hpp: flatBinTrie(set, u)", "include/binTrie.hpp: binTrie(set, u)", "include/fastBinaryTrie.hpp: fastBinaryTrie(set, u)"]}
{"id": "C87", "title": "The totals the builders print", "statement": "At the end build_tries and build_fastTries print the number of lists kept, the number of integers in them, and the number of bits of the output file per integer. The numbers are the same when no output file is asked for.", "quantifier": "every collection, every filter, rank type, block and word size, with and without runs, level-wise or not, with and without output file", "why_tests_cant": "The space measured is the main result reported with these tools; a test on some collections cannot tell a constant error per list from the overhead of the format.", "anchors": ["tools/build_tries.cpp: buildCollection", "tools/build_fastTries.cpp: buildCollection", "include/flatBinTrie.hpp: size_in_bytes", "include/binTrie.hpp: size_in_bytes", "include/binTrie_il.hpp: size_in_bytes", "include/fastBinaryTrie.hpp: size_in_bytes"]}
{"id": "C88", "title": "Command line of the statistics tools", "statement": "The tools that print statistics take the collection as first argument and --min_length with a number anywhere after it; other words are ignored, the last --min_length counts, and without any every list counts. A wrong value is reported.", "quantifier": "all argument lists, all collections", "why_tests_cant": "The options can stand anywhere, be repeated, or lack a value; tests try a few command lines.", "anchors": ["tools/measures.cpp: main", "tools/classic_coders.cpp: main", "tools/cbv_coding.cpp: main", "tools/pom.cpp: main"]}
{"id": "C89", "title": "A file that cannot be opened", "statement": "Every program that is given the name of a file it cannot open says so and stops without results.", "quantifier": "all programs in tools/ and test/ that are built, all other arguments, all other files", "why_tests_cant": "What a program does after a failed open depends on values of variables that were never set; a test shows one of many behaviours.", "anchors": ["tools/build_tries.cpp: main", "tools/build_fastTries.cpp: main", "tools/intersection_query_log.cpp: main, loadSequences, loadQueryLog", "tools/intersection_querylog_fastTrie.cpp: main", "tools/measures.cpp: main", "tools/classic_coders.cpp: main", "tools/cbv_coding.cpp: main", "tools/pom.cpp: main", "test/test_encoding.cpp: main", "test/test_fastTrie.cpp: main", "test/test_intersection.cpp: main", "test/test_intersection_fastTrie.cpp: main"]}
{"id": "C90", "title": "More sets, or smaller ones, never make more of a trie read", "statement": "If sets are added to an intersection, or elements removed from its sets, or its arguments are put in another order or represented by other classes, no more nodes and words are read of each trie.", "quantifier": "all lists of 1 to 16 tries of one height, all sets, all modes, machines and schedules", "why_tests_cant": "It relates all pairs of calls; timings of some pairs do not show it.", "anchors": ["src/intersection.cpp: AND, runsAND, partialAND, Intersect", "src/fastTrieIntersection.cpp: AND, runsAND, partialAND, Intersect"]}
{"id": "C91", "title": "Parallel intersection on machines with very many hardware threads", "statement": "A parallel Intersect returns the intersection whatever number of hardware threads the machine reports.", "quantifier": "all lists of 1 to 16 plain tries of one height, all numbers of hardware threads below 2^32, all schedules", "why_tests_cant": "No machine with 65536 hardware threads is at hand, and the outcome depends on how many blocks of the universe all sets meet.", "anchors": ["src/intersection.cpp: Intersect", "src/fastTrieIntersection.cpp: Intersect", "include/parallel_for.hpp: parallel_for"]}
{"id": "C92", "title": "Parallel intersection of run-encoded sets that are small compared with the universe", "statement": "A parallel run-aware Intersect returns the whole intersection if every run-encoded set has fewer elements than the universe, rounded up to a power of two, divided by the number of hardware threads, rounded down to a power of two. So the query tools are right with runs and parallel execution if the build tool was told to drop longer lists.", "quantifier": "all lists of 1 to 16 tries of one height, run-encoded or not, all numbers of hardware threads from 1 below 2^16; all collections, limits, logs and options", "why_tests_cant": "Whether elements are lost depends on the sets, the number of hardware threads and on which blocks are full; a test on one machine says nothing about others, and no test shows where the limit is.", "anchors": ["src/intersection.cpp: partialAND, Intersect", "src/fastTrieIntersection.cpp: partialAND, Intersect", "tools/build_tries.cpp: main", "tools/build_fastTries.cpp: main", "tools/intersection_query_log.cpp: main, performIntersections", "tools/intersection_querylog_fastTrie.cpp: main, performIntersections"]}
{"id": "C93", "title": "Run encoding never makes a trie or a file larger", "statement": "The trie that encodeRuns leaves has no more bits than the constructor's, its serialization is no longer and size_in_bytes no larger. Bits are saved exactly if some aligned block of four numbers (two words for fast tries) consists of elements. So for every collection the file the build tools write with --runs t is no larger than the one written without, all other options being equal.", "quantifier": "all sets and universes within the limits of C01, C02 and C03, all classes, word types and serialization formats in which more bits never take fewer bytes; all collections and options of the build tools", "why_tests_cant": "Tests compare sizes for some sets; that the encoding never costs anything, for no set of any size, and exactly when it pays, is a statement about all of them.", "anchors": ["include/flatBinTrie.hpp: encodeRuns, writeCompressTrie, serialize, size_in_bytes", "include/binTrie.hpp: encodeRuns, serialize, size_in_bytes", "include/fastBinaryTrie.hpp: encodeRuns, serialize, size_in_bytes", "tools/build_tries.cpp: main, buildCollection", "tools/build_fastTries.cpp: main, buildCollection"]}
{"id": "C94", "title": "What a lossy parallel intersection can still be relied on for", "statement": "A parallel run-aware Intersect, though it may lose elements, behaves consistently: the same sets, in any order and repeated, as flat or as level-wise tries and on any schedule, give the same list; another set never adds an element to the result; a machine with more hardware threads never returns an element that one with fewer does not; and putting further elements into the sets never removes an element from the result.", "quantifier": "all lists of 1 to 16 tries of one height, each run-encoded or not, all numbers of hardware threads from 1 below 2^16, all schedules", "why_tests_cant": "These relate two calls, on different arguments or different machines, for all sets; the way elements are lost depends on which blocks are full, how many tasks there are and which of them are divided.", "anchors": ["src/intersection.cpp: partialAND, Intersect", "src/fastTrieIntersection.cpp: partialAND, Intersect", "include/parallel_for.hpp: parallel_for"]}
{"id": "C95", "title": "The experiment scripts get right and comparable answers", "statement": "On a collection whose lists have 4096 to 15000 elements (the collections named *_4096-15000 in scripts/), the programs as called by scripts/build_tries.sh and scripts/build_fastTries.sh followed by scripts/run_*_queries*.sh answer every query of a log with the intersection of the lists it names by their position in the collection; so both families of programs answer the same log alike, for all ranks, word sizes, with and without runs, single- and multi-threaded.", "quantifier": "all collections of lists with 4096 to 15000 elements over universes below 2^32, all query logs, all option values in the scripts, 1 to 65535 hardware threads", "why_tests_cant": "It is about every collection and log, and the combination of options, files and programs; the lists that break it (of exactly 4096 elements, or made of full blocks only) are rare in real data.", "anchors": ["scripts/build_tries.sh", "scripts/build_fastTries.sh", "scripts/run_multithread_queries_flatTries.sh", "scripts/run_multithread_fastTries_queries.sh", "scripts/run_singlethread_queries_flatTries.sh", "scripts/run_singlethread_fastTries_queries.sh", "scripts/run_queries.sh", "tools/build_tries.cpp: main, buildCollection", "tools/build_fastTries.cpp: main", "tools/intersection_query_log.cpp: main", "tools/intersection_querylog_fastTrie.cpp: main"]}
{"id": "C96", "title": "Bit positions stay inside the trie", "statement": "Whatever trie is decoded and whatever tries are intersected, the position of every bit that decode and Intersect put into a result, and the length of every range they fill, is computed from a level above the last one: no call shifts by a negative or wrapped-around amount, and no thread starts below the level where the search ends.", "quantifier": "all flat and level-wise tries in any state when decoded; all lists of tries when intersected sequentially or with height at least 2; all lists of 1 to 16 tries that constructors and encodeRuns make, of any height, in every mode, with any number of hardware threads", "why_tests_cant": "A wrapped-around amount of a shift is undefined behaviour that hardware hides by masking the amount; it would depend on heights, numbers of hardware threads and contents together.", "anchors": ["src/intersection.cpp: AND, runsAND, partialAND, Intersect", "src/fastTrieIntersection.cpp: AND, runsAND, partialAND, Intersect", "include/flatBinTrie.hpp: decode, recursiveDecode, runsRecursiveDecode", "include/binTrie.hpp: decode", "include/fastBinaryTrie.hpp: decode"]}
{"id": "C97", "title": "The checking script checks what its headings say, and the space script measures comparable things", "statement": "On a valid collection, every line of scripts/test_encoding.sh ends and reports no list, prints the same numbers of lists and of elements as the other lines, and checks tries with the rank structure of its heading; every line of scripts/spaceFastTries.sh ends, writes no file and prints the same numbers of lists and of elements as the others, and with --runs t never a larger total size than with --runs f.", "quantifier": "all collections of valid lists over universes below 2^32, all option values in the two scripts, all formats of the rank structures", "why_tests_cant": "The scripts are the tests; whether they would notice a fault, and on which collections they fail themselves, is about all collections.", "anchors": ["scripts/test_encoding.sh", "scripts/spaceFastTries.sh", "test/test_encoding.cpp: main, verifyEncode", "tools/build_fastTries.cpp: main, buildCollection"]}
{"id": "C98", "title": "The tools do not depend on the compiler leaving out copies", "statement": "Whether or not a C++14 compiler leaves out the copies in declarations such as T x = T(il, u), build_tries writes the same file, measures prints the same numbers, and test_fastTrie the same complaints.", "quantifier": "all collections of valid lists, all options, all formats of the rank structures", "why_tests_cant": "The compilers used for testing leave the copies out by default; a program that breaks when they do not behaves perfectly in every test run with them.", "anchors": ["CMakeLists.txt: CMAKE_CXX_STANDARD", "tools/build_tries.cpp: buildCollection", "tools/measures.cpp: Trie", "test/test_fastTrie.cpp: verifyEncode", "include/flatBinTrie.hpp: flatBinTrie, encodeRuns, trieMeasure", "include/binTrie.hpp: binTrie, encodeRuns", "include/fastBinaryTrie.hpp: fastBinaryTrie, encodeRuns, decode"]}
{"id": "C99", "title": "Repeating every query changes nothing but the memory left allocated", "statement": "The query tools run Intersect ten times for every query. Whatever the schedules of these calls, the answers, the results file and the outcome of the run are those of running it once. The number of queries printed, and the number of lines in the results file, is the number of queries about at most 16 sets. On plain tries, the memory left allocated at the end is ten times what one call for each of these queries leaves; in sequential mode it is none.", "quantifier": "all command lines, files and logs, all schedules of each of the ten calls, all numbers of hardware threads (fewer than 2^16 for the memory)", "why_tests_cant": "A test sees one schedule of each call; a result kept from an earlier repetition, or one that depends on the schedule, shows only in some of them.", "anchors": ["tools/intersection_query_log.cpp: performIntersections", "tools/intersection_querylog_fastTrie.cpp: performIntersections", "src/intersection.cpp: Intersect", "src/fastTrieIntersection.cpp: Intersect"]}
{"id": "C100", "title": "decode and Intersect agree on tries in any state", "statement": "Whatever bits a trie contains (built from an unsorted vector, written by other software, or damaged), if decode returns, its values are strictly increasing and below two to the number of bits; and if decode returns on each of one to 16 tries of equal height, Intersect on them returns exactly the intersection of the decoded lists, in sequential mode with or without runs, and in parallel mode without runs; in parallel mode with runs it returns, and everything it returns is in all decoded lists, none of it twice. In particular Intersect of one trie is its decode.", "quantifier": "all tries of all classes with arbitrary contents, all mixes of classes with a common interface, heights from 1 (2 in parallel mode) up to 64, all numbers of hardware threads and schedules", "why_tests_cant": "The states are all bit strings of all lengths; a disagreement of two traversals on an unusual one can be found by a test only if that state is tried.", "anchors": ["include/flatBinTrie.hpp: flatBinTrie::decode", "include/binTrie.hpp: binTrie::decode", "include/binTrie_il.hpp: binTrie_il::decode", "include/fastBinaryTrie.hpp: fastBinaryTrie::decode", "src/intersection.cpp: AND, runsAND, Intersect", "src/fastTrieIntersection.cpp: AND, runsAND, Intersect"]}
{"id": "C101", "title": "On damaged tries nothing worse happens than a read outside an array, and decode finds it", "statement": "Whatever bits a trie contains, decode returns or reads outside one of its vectors; it never uses an indeterminate value, shifts out of range or recurses without end. The same holds for Intersect on any number of such tries in all four modes. If Intersect on one to 16 tries of equal height, all marked as run-encoded or all not, as the argument runs says, reads outside an array, then decode of one of these tries does so, too.", "quantifier": "all tries of all classes with arbitrary contents, up to 64 bits (63 with runs), sequential and parallel calls, all numbers of hardware threads below 2^16 and all schedules", "why_tests_cant": "Undefined behaviour need not be visible in a test, and the states are all bit strings of all lengths.", "anchors": ["include/flatBinTrie.hpp: flatBinTrie::decode", "include/binTrie.hpp: binTrie::decode", "include/binTrie_il.hpp: binTrie_il::decode", "include/fastBinaryTrie.hpp: fastBinaryTrie::decode", "src/intersection.cpp: AND, runsAND, partialAND, Intersect", "src/fastTrieIntersection.cpp: AND, runsAND, partialAND, Intersect"]}
{"id": "C102", "title": "A query run changes nothing but its results file, and that has one line for every answered query", "statement": "intersection_query_log changes no file except the one given with --out; in particular its inputs stay as they are. Afterwards this file has, whatever was in it before, the line of titles and then for every query of at most 16 sets, in the order of the log, one line with the number of sets, a time, and the size of the intersection of these sets.", "quantifier": "all collections, logs, options, earlier contents of all files, and names of the results file", "why_tests_cant": "The contents of the files and the ways in which names coincide are unbounded; tests use fresh names.", "anchors": ["tools/intersection_query_log.cpp: performIntersections, loadQueryLog, main"]}
{"id": "C103", "title": "A builder changes nothing but its output file, and can be run again", "statement": "build_tries and build_fastTries change no file except the one given with --out; in particular the collection stays as it is. What this file contains afterwards does not depend on what it contained before. If it cannot be opened for writing, the builder stops without building anything. Running the same command again changes nothing and prints the same totals.", "quantifier": "all collections, command lines, earlier contents of all files, and names of the output file", "why_tests_cant": "The contents of the files and the ways in which names coincide are unbounded; tests use fresh names.", "anchors": ["tools/build_tries.cpp: buildCollection, main", "tools/build_fastTries.cpp: buildCollection, main"]}
{"id": "C104", "title": "Collections with very long lists are built correctly", "statement": "Also for collections with lists of 2^30 elements and more, the number of sets in the header of a built file equals the number of tries that follow, these are the tries of the lists with min_size < length <= max_size in file order, and the query tool can read the file.", "quantifier": "all collections with lists of every length a four-byte count can express, all bounds and builder options", "why_tests_cant": "The shortest such collection is a file of 4 GB.", "anchors": ["tools/build_fastTries.cpp: buildCollection, read_inv_list", "tools/build_tries.cpp: buildCollection, read_inv_list", "tools/intersection_query_log.cpp: loadSequences"]}
{"id": "C105", "title": "A query is answered as if it were alone in the log", "statement": "On every file, also a damaged one, a query tool answers a log if and only if it answers each of its queries in a run of its own, and the answers are the same. So logs can be split, put together, reordered and repeated without changing any answer, although intersection_querylog_fastTrie loads only the tries up to the greatest set number in the log.", "quantifier": "all files of bytes, all logs with at least one query, both query tools, sequential and parallel, all machines and schedules", "why_tests_cant": "Which tries are loaded depends on all queries of the log together; tests compare a few logs on undamaged files.", "anchors": ["tools/intersection_query_log.cpp: performIntersections, loadSequences", "tools/intersection_querylog_fastTrie.cpp: performIntersections, loadTries"]}
{"id": "C106", "title": "The program that times rank reads the vectors of the tries and sums up the right ranks", "statement": "From a file of flat tries test_rank reads the bit vector of each of the first tries. It asks only for ranks at positions inside the vectors. All its measurements, with whatever rank support, end and print the same sum, the sum of the numbers of ones before the positions.", "quantifier": "all files of tries, plain and run-encoded, all sequences of random numbers, all formats of the sdsl structures that meet their contracts", "why_tests_cant": "The positions are random and seeded with the time, and the file has a fixed name outside the repository.", "anchors": ["test/test_rank.cpp: read_inverted_lists, generateRandomRanks, testRankOp, main", "include/flatBinTrie.hpp: serialize", "tools/build_tries.cpp: buildCollection"]}
{"id": "C107", "title": "Queries on files built from collections whose lists are in any order answer for the lists of the collection", "statement": "Whatever the order and the repetitions in the lists of a collection, and whether or not their numbers are below the universe, the builders either refuse the collection or write a file from which the query tools answer with the numbers common to the lists.", "quantifier": "all collections, all options of the builders, all queries", "why_tests_cant": "The collections at hand are sorted; what becomes of other lists depends on where in the list each bit first appears.", "anchors": ["tools/build_tries.cpp: buildCollection, read_inv_list", "tools/build_fastTries.cpp: buildCollection", "tools/intersection_query_log.cpp: main", "tools/intersection_querylog_fastTrie.cpp: main"]}
