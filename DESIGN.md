# Formal model of compressed-binary-tries in Lean 4

`properties.jsonl` lists the properties, `MANIFEST.json` the theorems for each, `seeded/LOG.jsonl` the wrong programs
against which the theorems were tried. Build: `lake build` in `lean/`.

## Layout

| path | content |
|---|---|
| `lean/Verif/Model/` | the model: one Lean definition per C++ function, each citing file and lines |
| `lean/Verif/Spec.lean`, `Spec*.lean` | the specification: what a set, an intersection, a query log, ... is. No reference to the model |
| `lean/Verif/Proof/` | helper definitions (abstract trees, Hoare triples) and lemmas |
| `lean/Verif/Props/` | the property theorems and, beside each, an `example` that meets its hypotheses |

## Trusted base

* Lean's kernel. No `sorry`, no own axioms, no `native_decide`, no `bv_decide`. `decide +kernel` is used for concrete
  witnesses and for finite tables only.
* Axioms. Every theorem of the manifest depends on a subset of `propext`, `Classical.choice`, `Quot.sound`. Most depend on
  all three; the refutations by concrete witness mostly on `propext` only; `C18_zero_threads`, `C35_fast_no_queries`
  and `C50_lenient_negation` on none. `#print axioms` on the names of the manifest shows the set
  for each.
* That the definitions in `Model/` say what the code says. They were written by reading `/repo`; nothing was compiled or
  run.
* The contracts of what is outside the repository, below.

### Contracts assumed of libraries

| what | contract in the model |
|---|---|
| `sdsl::bit_vector` | `List Bool`. Reading index `i` of a vector of size `n` is out of bounds unless `i < n + pad`, and gives 0 for `n <= i < n + pad`. `pad` stands for the zero padding that sdsl allocates and is a parameter: positive theorems hold for every `pad`, in particular 0; C84 takes `64 - n % 64`, what sdsl allocates, for each vector by itself |
| rank supports | number of ones before `i`; out of bounds if `i` exceeds the size |
| sdsl `serialize`/`load` | `BvIO`, `RankIO` in `Model/Serialize.lean`: load after serialize gives the same object back and consumes exactly the bytes written, and serialize returns their number. Theorems quantify over all formats meeting this |
| sdsl `size_in_bytes` | the number of bytes serialize writes (`Model/Size.lean`) |
| reading `sdsl` structures | does not write, so may be done by several threads (`Model/Access.lean`) |
| copying a rank support | copies the pointer to its vector (`Model/Copies.lean`); asking it for a rank after that vector was destroyed is undefined, whatever the position; serializing it is not, since it writes only its own counts |
| `std::sort`, `std::set_intersection` | an arbitrary permutation sorted by size; the merge of sorted inputs |
| `std::thread` | each worker's effects are a list of events; an execution is any interleaving of the workers' lists; theorems quantify over all of them. `hardware_concurrency()` is a parameter. Starting a thread always succeeds; on Linux binding it to a processor has no effect but a message (C57 models macOS) |
| `log2`, `floor`, `ceil`, `pow` on doubles | exact on the integers used (`Nat.log2`); conversions out of range are UB `conv`. The real `log2` of a number just below a power of two rounds up to it from about `2^48` on; the constructor then makes the trie of the universe with one bit more, to which the theorems apply (C81) |
| streams | a file is a list of bytes, little endian; `std::getline`, `>>`, `std::stoi`, `atoi` as specified by C and C++ |
| allocation | always succeeds |

## Modelling conventions

* C++ functions become total Lean functions into `R α = Except UB α`. `UB` is a distinct outcome with a reason: `oob` (index
  outside a vector or a C array), `uninit` (indeterminate value read), `conv` (double-to-integer conversion out of range),
  `shift` (shift by 64 or more), `null`, `fuel` (a loop did not end within the bound given to it; proved unreachable where
  termination is claimed, and used to state that a loop never ends where it does not), `eof` (read past the end of a file
  whose result is used), `exc` (an exception leaves the function).
* Indices, counters and keys are `Nat`; unsigned wrap-around is written out where the code can reach it. The universe is at
  most `2^62` (level-wise tries: `2^63`), forced by the code's own `2*(pow(2,height)-1)` and by the conversions to `uint64_t`.
* Output vectors are passed in and returned extended (`push_back` is append).
* Uninitialised members and locals are explicit `junk` parameters over which the theorems quantify. An indeterminate `bool` is
  `true` or `false`; a compiler may do worse.
* The four trie classes are seen by `Intersect` through `Nav`, as in the code through `binaryTrie`. So one proof covers every
  mixture of classes.

### Simplifications

* `1 << (a - b)` with `a < b`, which is undefined in the code, is the shift by 0 in the model. C96 shows that this never happens: `Model/Shifts`, where it is an
  outcome of its own, is equal to the model.
* Parallel theorems need fewer than `2^16` hardware threads (`uint16_t` counters in the code); C91 says what happens with more.
* The `bool` that `AND` returns is used by nobody but is computed from variables that may not have been written. All theorems
  except those of C54 ignore it; `Model/Strict` models it.
* All theorems except those of C57 are about `parallel_for.hpp`, that is, Linux; C57 carries them over to `parallel_for_macos.hpp`.
* Times in results files and what the tools print on the way are not modelled; totals printed by the statistics tools and by the builders are.
  Averages (floating point) are not.
* `intersection_query_log` with a results file that is the collection is not modelled: what it still reads depends on the buffer of the stream. Builders whose output is their input, and a results file that
  is the query log (C102), are modelled.
* Templates that do not compile when instantiated are not modelled: `binTrie::trieMeasure`,
  `binTrie(ones_to_write[], ...)`.
* `test/test_build.cpp` is not modelled, `test/test_rank.cpp` only in C106. test/CMakeLists.txt builds neither program. Of the shell scripts only the command lines are used (SpecScripts.lean), not the shell: loops over files, redirections, quoting of names.
  `test_build.cpp` does not compile: it calls `flatBinTrie(*il, u, true)`, and there is no such constructor
  (include/flatBinTrie.hpp:28, 144, 150). `test_rank.cpp` times queries on a file that only `test_build` would write. Of
  what the four other checkers print, the complaints and the totals are.
* Sizes of rank directories in memory, running time and memory use are not modelled (but C30 and C64 give the bits of
  the vectors, C65 the elements read and the bits created by constructors, C66 the nodes read by `decode`, C72 those read by `encodeRuns`, C58, C63, C79 and C80 those read
  by intersections).

## What is modelled

| code | model |
|---|---|
| `include/flatBinTrie.hpp`, `flatBinTrie_il.hpp`: constructors, navigation, `decode`, `encodeRuns`, `trieMeasure`, `serialize`, `load`, `size_in_bytes`, copies | `Flat`, `Runs`, `Serialize`, `Size`, `Arrays`, `Copies`; with counters `BuildCost`, `QueuePeak`, `DecodeCost`, `EncodeCost` |
| `include/binTrie.hpp`, `binTrie_il.hpp`: the same | `Level`, `Runs`, `Serialize`, `Size`, `Copies` |
| `include/fastBinaryTrie.hpp`: the same, word sizes 8 to 64 | `Fast`, `Runs`, `Serialize`, `Size`, `Copies` |
| `include/parallel_for.hpp` | `Parallel` |
| `include/parallel_for_macos.hpp`, except `sched_getaffinity`, which nobody calls | `Affinity` |
| `src/intersection.cpp`, `src/fastTrieIntersection.cpp`: `AND`, `runsAND`, `partialAND`, `Intersect`, `forceBruteIntersection` | `Intersect`, `Shifts`, `Strict`, `Memory`, `Access`, `Brute`, `Cost`, `Work` |
| `src/barbay_and_kenyon.cpp` | `BarbayKenyon` |
| `tools/build_tries.cpp`, `build_fastTries.cpp`, `intersection_query_log.cpp`, `intersection_querylog_fastTrie.cpp`: command line, files, main loops | `Tools`, `ToolsTries`, `QueryText`, `CommandLine`; without copy elision `Unelided`; with the ten calls for every query `Repeats` |
| `tools/measures.cpp`, `pom.cpp`, `classic_coders.cpp`, `cbv_coding.cpp` | `Measures`, `Stats`, `StatsMain` |
| the constructors and `Gap` with rounded `log2` | `Rounding` |
| `test/test_encoding.cpp`, `test_fastTrie.cpp`, `test_intersection.cpp`, `test_intersection_fastTrie.cpp` | `Checks` |

## Proof architecture

* `Tr d` is an abstract tree of depth `d` with words at the leaves. `Rep nav leaf d level t id` says that walking the virtual
  interface from node `id` finds the tree `t`. The constructors are shown to produce the level-order bits of the tree of
  the set (loop invariants over the queue), and rank navigation on such bits to satisfy `Rep`.
* `encodeRuns` is simulated by `prune`, which empties full subtrees; `hasR` reads an empty node as a full block.
* Decoding and sequential intersection are inductions over the remaining levels that use `Rep` only.
* Parallel intersection: `partialAND` cuts the enumeration into tasks; each task is a sequential intersection; gathering is
  independent of the schedule (`C17_gather`).
* Run-aware parallel intersection, exactly: `walk` lists the tasks and `rp` the members `partialAND` reports itself
  (Proof/ExactRuns); both depend only on which blocks lie below a collapsed node (`cov`, Proof/ExactSets), which for built tries
  are the full blocks of the run-encoded sets; `SpecRuns` says the result in terms of sets alone (Proof/ExactList, ExactMem).
* `NavLe` (Proof/Mono): a trie whose reads agree wherever both are defined. `Intersect` is monotone in it, which gives what it
  returns even on tries that may read out of bounds.
* Statements about all states of an object (C28, C33) use an invariant over reachable states (Proof/Reach).

## Per property

"Refuted" means: the property is false of the code, a theorem whose name ends in `_negation` proves it, and the
`_partial` theorem states what does hold.

| id | what is proved | how |
|---|---|---|
| C01-C03 | build then decode, all classes and word sizes | level order of the abstract tree, `Rep`, enumeration |
| C04 | refuted (out of bounds); exact condition for every set | simulation by `prune` |
| C05 | proved | the same |
| C06 | depends on the uninitialised `empty_trie`: proved if it is false, refuted if true; the decoded list for either value (`C06_fast_runs_decode_exact`) | the same |
| C07, C09, C10 | proved for all mixtures, 1 to 16 tries | induction over levels |
| C08 | refuted for collapsed flat tries; proved otherwise; whatever is returned is right; exact condition for out-of-bounds reads, sequential and parallel | the same, monotonicity; for the condition a representation in which some nodes without children cannot be read (Proof/Unreadable*) |
| C11 | proved | cut of the enumeration, schedule independence |
| C12, C13 | refuted with runs (elements lost, order lost); proved if no block reaches the cut level; otherwise the exact list returned and the elements lost; height 1 settled exactly | the same; blocks below a collapsed node, by induction over the levels |
| C14 | proved for flat and level-wise tries and for fast tries of height at least 2; refuted for fast tries of height 1 | soundness part of the above |
| C15, C16 | proved; up to 16 as C07, C08, C11, C14, for all tries that can be built the possible outcomes; that one to 16 tries are always safe is false, `C16_negation`, `C16_parallel_negation` | direct |
| C17, C18 | proved | induction over interleavings; arithmetic |
| C19-C22, C33 | serialization: proved for the order of evaluation left to right, refuted for the other; `binTrie_il` and the return value of fast tries refuted; load into a used fast trie refuted | codecs with round-trip laws |
| C23 | proved | contract of `set_intersection` |
| C24 | completeness and memory safety refuted; soundness, order, termination, exactly what is returned when it returns, exactly what happens in terms of an abstract search on lists (`Spec.Walk`), and a condition under which it does return proved | loop invariants; refinement |
| C25, C26, C30 | exact counts proved | counting nodes level by level |
| C27 | refuted; exact for every number of zeros readable after the end of a vector. If there are none, the sets without full blocks survive | `prune` is the identity there; otherwise the second call drops the nodes without children, fewer leaves than populated pairs remain, and no decoder that reads each at most once can emit the set. With readable zeros a dropped node is read as zeros again exactly if it was the last of its vector: the decoder's output determines the tree it read, the tree determines the vector, so the old vector is the new one followed by zeros |
| C28 | proved for every reachable state | invariant |
| C29, C32, C41 | refuted at the boundary of the constructors; partial theorems | direct |
| C31, C42 | corollaries of C07-C10; C42 refuted for 0 hardware threads | |
| C34-C36, C43 | files written by the builders and read by the query tools, end to end; refuted: rank type 1, parallel with runs; what is answered in every mode, and when flat tries with runs are read out of bounds: Props/ToolsExact | files as bytes, the contracts above |
| C37-C40, C48, C49 | measures and statistics tools; C39, C48 (gap), C49 refuted, exact behaviour proved | arithmetic, loop invariants |
| C44, C45 | the length filter; refuted as documented, exact behaviour proved | list reasoning |
| C46 | refuted with the exact difference for every trie | arithmetic |
| C47 | refuted: copies point into the original; proved while the original lives | pointer model |
| C50, C51, C53 | query log text, command lines, whole sessions; `C53_negation`: a session that loses elements | parsers on characters |
| C52 | flat trie from the levels of a level-wise trie | equality with the built trie |
| C54 | refuted; exact conditions for the sequential and the parallel call, and soundness for both | the block structure of the sets, monotonicity |
| C55 | refuted (leaks); no invalid use or free for all inputs; exact leak | refinement of the tasks by a heap |
| C56 | proved | every shared location that is written has one owning thread; refinement by a list of accesses |
| C57 | refuted for 64 or more hardware threads; proved below; exact condition | counting tasks |
| C58 | proved: the exact numbers of node reads, moves and word reads of plain calls in any mode, of sequential run-aware calls, and of parallel run-aware calls on fewer than 2^16 hardware threads. Counters are not in the code; `Model/Cost` is `Model/Intersect` with each call counted where it is made, and erases to it. Not counted: the rank queries inside a call | induction on trees; sums over levels of blocks that all sets meet. In parallel a block is visited unless a block around it that is dealt with before the threads start is collapsed in some trie (`SpecReads`) |
| C59 | what the encoding checkers report, from the command line: proved with exact counts and sizes; refuted for collapsed flat tries with runs (exact condition), fast tries with runs (exact condition), and calls without options | exact report for any check function, then C01-C06 |
| C60 | refuted: `--rank v5` checks the interleaved tries, `--rank il` of `test_fastTrie` checks v5, sizes of 2^32 and more are taken modulo 2^32 | equality of the programs' results |
| C61 | `test_intersection` complains exactly about the first wrong answer of the query tool, up to the first unreadable trie | induction on the log, C23 as reference |
| C62 | refuted: `test_intersection_fastTrie` reads the files of `build_fastTries` two bytes shifted; proved for the file without those bytes | as C61; bytes regrouped |
| C63 | proved: node reads, moves and word reads are bounded by the size of every partition certificate (Barbay and Kenyon), and a certificate can be made from them. Not counted: as C58 | the exact numbers of C58; every block read contains the end of an interval; sums over levels |
| C64 | proved: the bits and words of a trie are exactly the blocks with an element, after `encodeRuns` those outside larger full blocks; bounds by the number of elements, by the number of runs and by divisions into intervals; at least as many nodes as runs, less one. Not counted: what sdsl adds | a trie alone is read as by C58, so its size is the exact number of C58 for one set; cutting the universe at the ends of runs |
| C65 | partial: every element is read at most once per level. The memory is not in proportion: `3·2^h - 2` or `2·2^h - 2` bits are created whatever the set (exact), negations with one number. The number of reads is also given exactly | the constructors with counters; a potential (reads left for the ranges in the queue) falls by the size of the range in every iteration |
| C66 | proved: `decode` reads every stored node and word once, moves once per prefix; exact numbers as in C64 and C26, and the bound by runs | `decode` with counters, the same induction as for C01 to C06 |
| C67 | proved: same number of bits, same trie; different numbers of bits, different heights | unfolding; the heights of built tries |
| C68 | false for flat and fast tries (`n` is a `uint32_t`); proved what is kept of a set of any length | the loop lemma of C01 applied to a prefix of the vector; the third component of queue entries is never read |
| C69 | proved, plain (sequential, parallel) and run-aware sequential | a caller program `Spec.inStages` with the library functions as parameters; induction on the groups, C07 to C11, C13, C67 |
| C70 | different sets, different tries and files: proved; same set, same file: false for fast tries, exact condition | decoding (C01 to C06) and loading (C19 to C21) are left inverses; the unwritten members pass through constructor, `encodeRuns` and `serialize` |
| C71 | proved for plain tries and run-encoded level-wise and fast ones; for run-encoded flat ones exactly the numbers in unreadable blocks fail | the client program (`SpecNav.lean`) follows the representation relation `Rep`, or `RepB` with unreadable blocks, by induction on the depth |
| C72 | proved, exactly | `encodeRuns` with counters (`Model/EncodeCost`); they change nothing; under the representation relation the counts are those of the tree, and the tree's those of the set |
| C73 | false; exact | what a constructor sees of any vector is a recursive function of the vector (`SpecVector`), and the tree of a vector is the tree of what is seen of it (`Proof/Vector`), so that the trie is that of a valid set; everything is seen of a vector without repetitions exactly if it is in order |
| C74 | false; exact | a plain traversal takes a node without children for an empty one: what it finds is what is outside the collapsed blocks (`Proof/Flags`), which are full blocks of the set (`SpecFlags`); the nodes it meets are those that all tries have (`Proof/FlagsHits`) |
| C75 | proved | a program is a list of operations (`Model/Session`), its specification runs it on sets and says what it may do (`SpecSession`); the objects keep the state of their rank supports, so that `load` and `encodeRuns` have to restore it; invariant: every object was made from its set (`Proof/Session`) |
| C76 | proved | the bodies of the threads are run before their pushes are interleaved; pushes of different threads commute, so both sections are a loop over the tasks (`section_gather`, `Proof/AnyInter`) |
| C77 | proved | `Splits`: the tasks found below a node give the sequential result of that node, or both searches fail (`partial_splits`, `fill_splits`, `Proof/AnyInter`); every error is a read outside an array (`Good`, `Proof/AnyInterErr`) |
| C78 | proved, and that the converse is false | `Parts`: below a node where the sequential run-aware search returns, the tasks found and the ranges filled are a part of its result, and their costs of its costs. While the search for tasks goes on all tries are active in both searches (`partialC_parts`, `fillC_parts`, `Proof/AnyRuns`) |
| C79 | proved: upper bound in any state of the tries; the exact number of threads, and that at most one is left out, for tries that constructors make. `Model/Work` is `Model/Cost` with one counter per thread, and erases to it. What the operating system does with the threads is not modelled | `WorkOk` (`Proof/Work`); the tasks of the second round number the blocks of the level below the cut (`commonHalves_sum`, `halvesReached_sum`, `threadCount_busy`, `Proof/WorkPlain`) |
| C80 | proved: what the calling thread and each thread read at most, in any state of the tries, and that it is no more than the sequential call reads; also that no speed-up follows (`C80_speedup_negation`). Time is not modelled | `ANDc_le`, `runsANDc_le`, `partialANDc_le`, `fillThreadsC_le` by induction on the levels; C58, C77 and C78 for the comparison |
| C81 | partial: proved up to universes of `2^61` (level-wise: `2^62`) for any rounding that keeps the order and is exact on powers of two; false above, and C67 is false of rounded logarithms (negations). `RoundedLog` is the contract of the conversion to double and of `log2` | the constructor is that of a universe that is a power of two (`C81_some_universe`), so the theorems about exact heights apply |
| C82 | proved, exact peak for all valid sets (`Model/QueuePeak`, a record of the greatest length) | the queue never shrinks above the last level; its ranges partition the set and each is a block of the current or the next level, so that the ranges of the last level are single elements |
| C83 | exact for every cut; false that an incomplete collection is noticed, and indeterminate values are used where a kept list is cut | induction over the lists, with `completeIn` and `cutIn` of `SpecTools` describing the first `k` bytes; for `classic_coders`, `cbv_coding` and `pom`, `tornList` of `SpecStats` is the list they make up |
| C84 | false in general, with the exact condition from the set; C08's exact results with a number of readable bits for each trie. The allocation by words is a contract | C04's two exact theorems compared for all numbers of readable bits give the sizes of the vectors |
| C85 | proved for fast tries; false of `intersection_query_log`, which loads every trie announced (trailing bytes do not matter to it) | the file of the first lists is the front of the file of all up to the count; induction over the tries to load |
| C86 | proved, as an equivalence | C01, C02, C03 within the limits; outside them the conversions fail (`heightOf`, `maxNodes`), C32 for the small ones |
| C87 | counts and independence of the output file proved; false of the size, with the exact difference | the second pass with totals (`Model/Report`) is the second pass without them; induction over the lists, and over the rounds for arbitrary input |
| C88 | proved where every `--min_length` has a number; false elsewhere (null pointer, exception) | `LengthArg` of `SpecStatsArgs` describes the command lines; induction over the arguments |
| C89 | true of the builders, of the encoding checkers and of `intersection_query_log` without log; false of the rest, which go on with undefined behaviour | unfolding each `main` with the options already understood (C51, C88) |
| C90 | proved for plain tries in all modes; for run-aware calls, sequential and parallel, about adding and reordering; false of removing elements from run-encoded tries | the exact counts of C58 are monotone: the blocks that all sets meet are a filter of the same list. In parallel: with more sets there are fewer tasks with fewer halves, so every task replaced by its halves before still is if it is still a task (`replaced_sub`) |
| C91 | false of the code from 65536 hardware threads on; exact outcome for all numbers of threads below 2^32, plain and run-encoded (`SpecWide`) | the parallel path with the `uint16_t` arithmetic kept is followed on the trees (`par_body_wide`), then read off the sets as for C12; the pieces are the common blocks (C55) |
| C92 | proved, with the limit shown to be the best possible from four hardware threads on, and from the command line to the answers; flat tries that cannot be read (C04) are excluded | a collapsed block of 2^i elements needs a set of as many, so no block at least as large as those handed to threads is collapsed; then the exact result of C12 and C13 is the intersection |
| C93 | proved: no vector, serialized trie, reported size or tool output is larger with run encoding; when bits are saved. Contract: the formats of sdsl do not shrink when vectors grow (`SpecGrow`) | the encoded tree is the built one with subtrees removed, level by level a sublist (`kids_prune_sublist`) |
| C94 | proved for order, repetition and further sets; for more hardware threads while threads are started, false beyond; false of further elements | C12's membership condition: a block collapsed unevenly stays so when sets are added (`uneven_add`), a block that was replaced by its halves is again (`isSplit_add`), and the blocks dealt with before threads start become smaller with more threads |
| C95 | proved for the scripts of fast tries; for `build_tries` if no list has exactly 4096 elements, false otherwise | C92 from the command line, with the words of `scripts/*.sh` |
| C96 | proved: a model with checked differences is equal to the model of the other theorems | induction on the levels left; the level of the cut is at most `height - 2` unless the height is 1, where the calls end before a shift |
| C97 | false of two kinds of lines of scripts/test_encoding.sh, with witnesses; proved of the others and of scripts/spaceFastTries.sh | the command lines as options (C51, C59), then C59, C87 and C93 |
| C98 | true of `build_tries` without runs or with rank type 1; false with runs, and of `measures` and `test_fastTrie` | the model of copies (C47): a trie copied from a temporary is an orphan, whose first step down from the root follows a dangling pointer |
| C99 | proved: the ten calls for every query do what one does; counts printed; memory left allocated | C76: no call depends on its schedule, whatever the tries; C55 for the memory |
| C100 | proved: on tries with any contents, if `decode` returns then `Intersect` returns the intersection of what is decoded | a tree is recovered from the successful run of `decode` by induction on the levels; the children of a node with two children are neighbours in every class whatever the bits; then the simulation of C02 with leaves that may be empty; C77 for the parallel mode |
| C101 | proved: on tries with any contents `decode` and `Intersect` return or read outside an array, nothing else; and `Intersect` does so only if `decode` of one of the tries does | an invariant of the traversals in all modes: the roots that will be read are written, the shift amounts are in range, every thread has a task; the second part is the contrapositive of C100 |
| C102 | partial: a run of `intersection_query_log` changes no file but its results file, which has exactly the lines of the answered queries; false if the results file is the query log, which is then lost | the tool as a function from text files to text files; the answers are those of the model without files, the lines by induction on the queries |
| C103 | partial: a builder changes no file but its output, which does not depend on what was there; it stops if it cannot write; running it again changes nothing. False if the output is the input, which is then lost | the builders as functions from files to files, over the model with the printed totals (C87) |
| C104 | partial: C34 for lists of every length. The tries written are right if the lists left out are short; the count in the header is not | the first pass by induction over the positions 2^k - 1 it visits inside the list of the numbers below 2^30 |
| C105 | proved, for files with any contents: a log is answered if and only if each of its queries is answered in a run of its own, with the same answers | `loadLoop_less`: the tries loaded for fewer or smaller numbers are among those loaded for more, by induction over the tries of the file; the greatest number of a log is in one of its queries |
| C106 | partial: for files with the header the program expects; plain tries, and run-encoded ones exactly; vectors below 2^31 bits | `Model/RankBench`; what is read by the round trip of C19, the sums by induction over vectors and positions, for every sequence of random numbers |
| C107 | partial: the files exactly, for all collections; right answers for lists in order, repetitions allowed (fast tries: words in order) | the builders' equation of C34 with the vectors of C73, then C35 and C43 on the collection of what is seen |

## Findings

Behaviours of the code that the theorems establish:

1. A flat trie over `u = 2` cannot be decoded, intersected or encoded (C32). A fast trie over at most half a word cannot be built.
2. The empty set makes the flat and fast constructors read out of bounds (C41).
3. The constructors without a universe build a trie of the wrong universe (C29).
4. `encodeRuns` on a flat trie in which every leaf pair is full leaves nothing after `bTrie`; decoding then reads past it (C04).
5. `encodeRuns` twice corrupts the set (C27).
6. Parallel run-aware `Intersect` loses elements when a full block lies above the cut level, and may return unsorted results
   (C12, C13). For fast tries of one word it returns every value of the word (C14).
7. `Intersect` with more than 16 tries or none is out of bounds (C16); `hardware_concurrency() = 0` is undefined even in
   sequential mode (C42).
8. `flatBinTrie::serialize` depends on the order of evaluation of operands (C19). `binTrie_il` cannot be serialized, and `load` would not give a usable trie from the right bytes either (C20). Fast
   `serialize` returns a wrong size (C22) and `load` appends to what is there (C33). `size_in_bytes` is wrong for every trie (C46).
9. Rank supports of copies point to the original (C47).
10. `barbayKenyon` can miss common elements and read past the end of a vector (C24).
11. `build_fastTries --rank il` writes a header that the query tool misreads (C36). `--min_size m` drops lists of exactly `m`
    elements (C44), and query ids count kept lists only (C45).
12. `Rle` never charges the last run (C39); the gap total of `measures` has extra terms (C48); the statistics tools process the
    last list twice or do not end (C49).
13. Query logs: a blank line is an empty query, which ends both tools with undefined behaviour (C50). A missing option value
    at the end dereferences a null pointer, and a word size that is no number counts as 0, with which `build_fastTries` writes
    nothing (C51).
14. `AND` reads an indeterminate `bool` for most inputs, e.g. for every trie of a set without 0 (C54). It has no effect in practice.
15. Parallel `Intersect` leaks one or two arrays for every task it splits (C55).
16. On macOS, binding thread 32 or a later one to a processor is an undefined shift (C57).
17. The builders notice a missing end of a collection only by chance: missing lists go unnoticed, and missing elements of a kept list are
    replaced by indeterminate values (C83). `intersection_query_log` loads every trie the file announces, needed or not (C85).
18. Only the builders and the encoding checkers stop when the collection cannot be opened; the other programs go on and use variables
    without values or elements of an empty vector (C89).
19. With 65536 or more hardware threads parallel `Intersect` can return nothing or divide by zero, because it counts its tasks in 16 bits (C91).
20. `scripts/build_tries.sh` drops lists of exactly 4096 elements, `scripts/build_fastTries.sh` keeps them, and the same query logs are run on
    both (C95). `scripts/test_encoding.sh` never checks `rank_support_v5`: the lines for it check `rank_support_il` (C97).
21. The project is compiled as C++14, and `build_tries` with `--runs t` (not `--rank il`), `measures` and `test_fastTrie` work only because
    compilers leave out copies they may make: a copied trie refers to the vector of the temporary it was copied from (C98).
22. `intersection_query_log --out q` with `q` the query log destroys the log and then fails (C102). A builder whose output is its input destroys the collection (C103).
23. A list of 2^30 elements or more makes the builders seek by `4*n` modulo 2^32; the number of tries in the header is then wrong, and `intersection_query_log` fails on the file (`intersection_querylog_fastTrie` does not); a list of 2^30 elements that is to be left out is read as other lists (C104).
24. Both query tools leave out queries of more than 16 sets without a message (C35, C43). The query log that comes with the code has one, line 4650 of queries/CC-news/queries.txt, with 18 sets.
25. `test_rank` reads no file that a program of the repository writes: `test_build`, whose format it expects, does not compile, and the header of `build_tries` is longer. Given such a file it divides by zero (test/test_rank.cpp:106) if one of the lists has every number of a universe of a power of two and the tries are run-encoded, as the name of its file says (C106).
26. The builders check neither the order of the lists nor the universe (tools/build_tries.cpp:96-160, tools/build_fastTries.cpp:92-120). From the list `2, 1` below 4 the set `2, 3` is written, and the query tool answers with it (C107).

## Wrong programs

Each line of `seeded/LOG.jsonl` is one edit of the model like a realistic bug, made in a copy and rebuilt.

* `first_failures`: the declarations whose own proof no longer compiles. Each is replaced by `sorry` in the copy to let the
  build go on.
* `failed`: the theorems of the manifest at that time which then depend on `sorry`. So "failed" means that the proof as written
  does not go through. It does not mean that the statement was shown false of the edited model: a lemma that follows the text of
  the edited function takes down everything resting on it. Where the claim is expected to stay true, `note` says so.
* `tightened`: the theorems changed because they survived an edit that makes their claim false.

The evidence to look for is the other direction: a theorem that survives an edit breaking its claim. The first 58 edits gave none,
so `tightened` is empty there. They were made on a snapshot of the model with 108 manifest theorems, before the modules
QueryText, CommandLine, Size, Stats, Arrays, Copies, Returned, Height1, Strict and Memory.

The second batch showed that `C50_readme_format` survived edits of the loader that falsify what it was said to claim: its statement
related two specifications and did not mention the loader. A check of the constants that the statement of every theorem of the
manifest reaches then found five more without any definition of `Model/`: `C39_runs_exist`, `C44_min_size_partial`,
`C44_min_size_no_list_partial`, `C45_positions_partial` and `C55_leak_zero_iff_partial`. Until then they claimed nothing about the
code, although the notes read as if they did. All are now stated about the builders, the query tools, `Rle` and `Intersect`
(`C39_runs_exist` is replaced by `C39_every_set_partial`).

The second batch also showed that `C51_build_options_partial` said nothing about the default settings, which it named by the
definition under test, and that no theorem spoke of a flat trie made from empty levels (`C52_from_empty_levels_runs` is new).

The check of the constants was repeated at 535 theorems. It found three statements about specifications only: `C64_bound` and `C64_needed`,
which the `_bits` theorems state about tries (they are now lemmas with other names), and `C54_parallel_safer_partial`, which is now about
the calls.
