import Verif.Model.CommandLine
import Verif.Model.Size
import Verif.Model.Brute

/-!
# The checking programs

`test_encoding` and `test_fastTrie` build a trie for every list of a collection and compare what it decodes to with the list.
`test_intersection` and `test_intersection_fastTrie` load a file of tries and compare `Intersect` with the reference intersection,
query by query. These four are built by test/CMakeLists.txt; `test_build.cpp` and `test_rank.cpp` are not. Of what is printed, the
complaints and the totals are modelled.
-/

namespace CBT

/-! ## Encoding -/

/-- What an encoding checker prints: the numbers of the lists it complains about, and the totals
(test/test_encoding.cpp:120-126, 140-141, test/test_fastTrie.cpp:79-80, 100-106, 120-121). -/
structure CheckReport where
  reported : List Nat
  nIl : Nat
  totalElements : Nat
  totalSize : Nat
  deriving DecidableEq, Repr

/-- The second pass (test/test_encoding.cpp:58-137, test/test_fastTrie.cpp:55-117): `check i il` gives whether list number `i` was
decoded correctly, and the size of its trie. -/
def checkLoop (minSize : Nat) (check : Nat → List Nat → R (Bool × Nat)) : (fuel : Nat) → (s : Bytes) → CheckReport → R CheckReport
  | 0, _, _ => .error .fuel
  | fuel + 1, s, r =>
    match readLE 4 s with
    | .error _ => .ok r
    | .ok (n, s) =>
      if minSize < n then do
        let (il, s) ← readInvList n s
        let (good, size) ← check r.nIl il
        checkLoop minSize check fuel s
          { reported := if good then r.reported else r.reported ++ [r.nIl], nIl := (r.nIl + 1) % 2 ^ 64,
            totalElements := (r.totalElements + n) % 2 ^ 64, totalSize := (r.totalSize + size) % 2 ^ 64 }
      else checkLoop minSize check fuel (skipList s n) r

/-- `verifyEncode` on an open file (test/test_encoding.cpp:35-137, test/test_fastTrie.cpp:32-117). The first pass counts lists, in vain;
`min_size` is a `uint32_t` here (test/test_encoding.cpp:27, test/test_fastTrie.cpp:24), and no list is too long. -/
def verifyEncode (minSize : Nat) (check : (u : Nat) → Nat → List Nat → R (Bool × Nat)) (s : Bytes) : R CheckReport := do
  let (_, s) ← readLE 4 s
  let (u, s) ← readLE 4 s
  let _ ← countSets (minSize % 2 ^ 32) (2 ^ 32 - 1) (s.length + 1) s 0
  checkLoop (minSize % 2 ^ 32) (check u) (s.length + 1) s ⟨[], 0, 0, 0⟩

/-- One `flatBinTrie` or `flatBinTrie_il` (test/test_encoding.cpp:82-85, 97-100, 112-115, 118-122). -/
def checkFlat (B L : BvIO) (K : RankIO) (pad : Nat) (runs : Bool) (u : Nat) (il : List Nat) : R (Bool × Nat) := do
  let t ← flatCtor il u
  let t ← if runs then t.encodeRuns pad else .ok t
  let decoded ← t.decode pad []
  .ok (decide (decoded = il), t.sizeInBytes B L K)

/-- One `binTrie` or `binTrie_il` (test/test_encoding.cpp:76-79, 90-94, 106-109, 118-122). `binTrie_il::size_in_bytes`
(include/binTrie_il.hpp:159-174) counts what `binTrie::size_in_bytes` counts. -/
def checkLevel (isIl : Bool) (B : BvIO) (K : RankIO) (pad : Nat) (runs : Bool) (u : Nat) (il : List Nat) : R (Bool × Nat) := do
  let t ← levelCtor il u
  let t ← if runs then t.encodeRuns isIl pad else .ok t
  let decoded ← t.decode isIl pad []
  .ok (decide (decoded = il), t.sizeInBytes B K)

/-- One list of `test_encoding` (test/test_encoding.cpp:73-122). `rank_type` is a `bool` here (line 27), so the rank types 1 and 2
are the same, and the branch for `rank_support_v5` (lines 104-117) is never taken. -/
def checkTrie (F : Formats) (pad : Nat) (rank block : Nat) (runs levelwise : Bool) (u _i : Nat) (il : List Nat) : R (Bool × Nat) :=
  if rank = 0 then
    if levelwise then checkLevel false F.bv F.v pad runs u il else checkFlat F.bv F.bv F.v pad runs u il
  else
    if levelwise then checkLevel true (F.il (builtBlock block)) (F.rankIl (builtBlock block)) pad runs u il
    else checkFlat (F.il (builtBlock block)) F.bv (F.rankIl (builtBlock block)) pad runs u il

/-- Printing the first ten elements of both lists (test/test_fastTrie.cpp:82-89). -/
def printTen (a : List Nat) : R Unit := if 10 ≤ a.length then .ok () else .error .oob

/-- One list of `test_fastTrie` (test/test_fastTrie.cpp:69-103). Only with `rank_support_v` the first ten elements are printed after a
complaint. The trie is copied from a temporary there (line 71); the copy is taken to be elided, as compilers do (otherwise C47). -/
def checkFast (B : BvIO) (K : Nat → RankIO) (lg pad : Nat) (junk : Nat → FastJunk) (rank : Nat) (runs : Bool) (u i : Nat) (il : List Nat) :
    R (Bool × Nat) := do
  let t ← fastCtor lg (junk i) il u
  let t ← if runs then t.encodeRuns lg pad else .ok t
  let decoded ← t.decode lg pad []
  if decoded ≠ il ∧ rank = 0 then do
    printTen il
    printTen decoded
  .ok (decide (decoded = il), t.sizeInBytes B (K (if rank = 0 then 0 else 2)) lg)

/-- One round of the loop over the options of `test_encoding` (test/test_encoding.cpp:169-206). -/
def checkRound (argv : List Str) (x : BuildSettings × Nat) : R (BuildSettings × Nat) := do
  let x ← clause argv sMinSize (actMinSize argv) x
  let x ← clause argv sRank (actRank argv) x
  let x ← clause argv sRuns (actRuns argv) x
  let x ← clause argv sOut (actOut argv) x
  clause argv sLevelwise (actLevelwise argv) x

/-- `wsize = stoi(argv[i])` (test/test_fastTrie.cpp:176-180), a `uint16_t`. -/
def actWsizeStoi (argv : List Str) (o : BuildSettings) (i : Nat) : R (BuildSettings × Nat) := do
  let a ← argGet argv i
  let n ← stoiU32 a
  .ok ({ o with wsize := n % 2 ^ 16 }, i)

/-- One round of the loop over the options of `test_fastTrie` (test/test_fastTrie.cpp:146-181). -/
def checkFastRound (argv : List Str) (x : BuildSettings × Nat) : R (BuildSettings × Nat) := do
  let x ← clause argv sMinSize (actMinSize argv) x
  let x ← clause argv sRank (actRank argv) x
  let x ← clause argv sRuns (actRuns argv) x
  let x ← clause argv sOut (actOut argv) x
  clause argv sWsize (actWsizeStoi argv) x

/-- `main` of `test_encoding` (test/test_encoding.cpp:146-232, 28-33): `none` if it stops without checking, because there are too few
arguments or the file cannot be opened. -/
def mainTestEncoding (F : Formats) (pad : Nat) (fs : Files) (argv : List Str) : R (Option CheckReport) :=
  if argv.length < 3 then .ok none
  else do
    let input ← argGet argv 1
    let o ← argLoop (checkRound argv) argv.length (argv.length + 1) (.default, 2)
    match fs input with
    | none => .ok none
    | some s => do
      let r ← verifyEncode o.minSize (checkTrie F pad o.rank o.block o.runs o.levelwise) s
      .ok (some r)

/-- `main` of `test_fastTrie` (test/test_fastTrie.cpp:126-208, 25-30): every word size other than 64, 32 and 16 is 8 (lines 198-205). -/
def mainTestFast (B : BvIO) (K : Nat → RankIO) (pad : Nat) (junk : Nat → FastJunk) (fs : Files) (argv : List Str) :
    R (Option CheckReport) :=
  if argv.length < 2 then .ok none
  else do
    let input ← argGet argv 1
    let o ← argLoop (checkFastRound argv) argv.length (argv.length + 1) (.default, 2)
    match fs input with
    | none => .ok none
    | some s => do
      let r ← verifyEncode o.minSize (checkFast B K (queryLg o.wsize) pad junk o.rank o.runs) s
      .ok (some r)

/-! ## Intersections -/

/-- A complaint of an intersection checker: the number of the query, the sizes of the two intersections, and the first positions at
which they differ, with both elements (test/test_intersection.cpp:136-148, test/test_intersection_fastTrie.cpp:106-118). -/
structure Mismatch where
  query : Nat
  trieSize : Nat
  setSize : Nat
  diffs : List (Nat × Nat × Nat)
  deriving DecidableEq, Repr

/-- What an intersection checker prints: a complaint, if any, and the number of queries found correct
(test/test_intersection.cpp:147, 159, test/test_intersection_fastTrie.cpp:117, 129). -/
structure CheckOutcome where
  mismatch : Option Mismatch
  nq : Nat
  deriving DecidableEq, Repr

/-- The loop over the positions (test/test_intersection.cpp:139-146, test/test_intersection_fastTrie.cpp:109-116): it goes as far as
the first vector, the rest of which is given, and reads the second one `b` at the same positions. -/
def diffsFrom (b : List Nat) : (i c : Nat) → (a : List Nat) → R (List (Nat × Nat × Nat))
  | _, _, [] => .ok []
  | i, c, x :: xs => do
    let y ← vGet b i
    if x ≠ y then
      if c + 1 = 10 then .ok [(i, x, y)]
      else do
        let r ← diffsFrom b (i + 1) (c + 1) xs
        .ok ((i, x, y) :: r)
    else diffsFrom b (i + 1) c xs

/-- The tries of a query and what they decode to (test/test_intersection.cpp:124-129, test/test_intersection_fastTrie.cpp:89-94):
`tries[i]` of a missing id is a null pointer. -/
def decodeAll {T : Type} (m : List (Nat × T)) (dec : T → R (List Nat)) : List Nat → R (List T × List (List Nat))
  | [] => .ok ([], [])
  | i :: is =>
    match m.lookup i with
    | none => .error .null
    | some t => do
      let d ← dec t
      let (ts, ds) ← decodeAll m dec is
      .ok (t :: ts, d :: ds)

/-- The loop over the queries (test/test_intersection.cpp:121-155, test/test_intersection_fastTrie.cpp:86-125); `j` counts all of them,
`nq` those found correct. The loop ends at the first difference. -/
def checkQueries {T : Type} (m : List (Nat × T)) (dec : T → R (List Nat)) (inter : Nat → List T → R (List Nat))
    (brute : List (List Nat) → R (List Nat)) : (j nq : Nat) → (queries : List (List Nat)) → R CheckOutcome
  | _, nq, [] => .ok ⟨none, nq⟩
  | j, nq, q :: qs => do
    let (ts, sets) ← decodeAll m dec q
    if ts.length ≤ 16 then do
      let r ← inter j ts
      let fb ← brute sets
      if r ≠ fb then do
        let d ← diffsFrom fb 0 0 r
        .ok ⟨some ⟨nq, r.length, fb.length, d⟩, nq⟩
      else checkQueries m dec inter brute (j + 1) (nq + 1) qs
    else checkQueries m dec inter brute (j + 1) nq qs

/-- A loaded trie of any class: its virtual interface and `decode` (include/binaryTrie.hpp:20-28). -/
structure AnyTrie where
  nav : Nav
  decode : List Nat → R (List Nat)

/-- One trie of `loadTries` (test/test_intersection.cpp:61-95), as `loadTrie`. `in.eof()` (line 62) is only true after a read
that failed, which is an error here. -/
def loadAny (F : Formats) (pad : Nat) (o : TriesFileOpts) (s : Bytes) : R (AnyTrie × Bytes) :=
  if o.rank = 1 then
    if o.block = 128 ∨ o.block = 256 ∨ o.block = 512 then
      if o.levelwise then do
        let (t, s) ← levelLoadIl (F.il o.block) (F.rankIl o.block) s
        .ok (⟨t.navLoadedIl pad, t.decodeLoadedIl pad⟩, s)
      else do
        let (t, s) ← flatLoad (F.il o.block) F.bv (F.rankIl o.block) s
        .ok (⟨t.nav pad, t.decode pad⟩, s)
    else .error .uninit
  else
    if o.levelwise then do
      let (t, s) ← levelLoad F.bv (F.rank o.rank) s
      .ok (⟨t.nav pad, t.decode pad⟩, s)
    else do
      let (t, s) ← flatLoad F.bv F.bv (F.rank o.rank) s
      .ok (⟨t.nav pad, t.decode pad⟩, s)

/-- `forceBruteIntersection` (src/intersection.cpp:25-42) with a sort; its rounds are fewer than the vectors. -/
def brute (sort : List (List Nat) → List (List Nat)) (sets : List (List Nat)) : R (List Nat) := forceBrute sets.length (sort sets)

/-- `test_intersection` on an open file (test/test_intersection.cpp:44-160, 180-184): all queries are parallel. -/
def testIntersection (F : Formats) (pad : Nat) (sort : List (List Nat) → List (List Nat)) (env : Nat → Env)
    (queries : List (List Nat)) (s : Bytes) : R CheckOutcome := do
  let (o, s) ← readTriesFileHeader s
  let (n, s) ← readLE 4 s
  let (_, s) ← readLE 4 s
  let (_, s) ← readLE 4 s
  let m ← loadLoop (fun _ s => loadAny F pad o s) n 0 (setIndexes queries) s
  checkQueries m (fun t => t.decode []) (fun j ts => intersect (ts.map AnyTrie.nav) o.runs true (env j)) (brute sort) 0 0 queries

/-- What `main` of `test_intersection_fastTrie` reads before the counts (test/test_intersection_fastTrie.cpp:152-156): no word size. -/
def readCheckFastHeader (s : Bytes) : R (TriesFileOpts × Bytes) := readTriesFileHeader s

/-- `test_intersection_fastTrie` on an open file (test/test_intersection_fastTrie.cpp:42-131, 152-188): the word size is always 64
(line 18). -/
def testIntersectionFast (B : BvIO) (K : Nat → RankIO) (pad : Nat) (junk : Nat → FastJunk) (sort : List (List Nat) → List (List Nat))
    (env : Nat → Env) (queries : List (List Nat)) (s : Bytes) : R CheckOutcome := do
  let (o, s) ← readCheckFastHeader s
  let m ← loadTriesFast B (K (if o.rank = 0 then 0 else 2)) 6 junk queries s
  checkQueries m (fun t => t.decode 6 pad []) (fun j ts => fastIntersect 6 (ts.map fun t => t.nav pad) o.runs true (env j)) (brute sort)
    0 0 queries

/-- `(uint64_t)stoi(s)` (test/test_intersection.cpp:35, test/test_intersection_fastTrie.cpp:33): negative numbers wrap around. -/
def stoiU64 (s : Str) : R Nat :=
  match scanNumber s with
  | none => .error .exc
  | some (false, m) => if m < 2 ^ 31 then .ok m else .error .exc
  | some (true, m) => if m ≤ 2 ^ 31 then .ok ((2 ^ 64 - m) % 2 ^ 64) else .error .exc

/-- `main` of `test_intersection` (test/test_intersection.cpp:163-200): `none` if there are too few arguments. If the collection
cannot be opened, the number of sets is never initialised (lines 53-57). The header is read before the log, which only matters for which
of two errors is the first. -/
def mainTestIntersection (F : Formats) (pad : Nat) (sort : List (List Nat) → List (List Nat)) (env : Nat → Env) (fs : Files)
    (texts : Str → Option Str) (argv : List Str) : R (Option CheckOutcome) :=
  if argv.length < 3 then .ok none
  else do
    let sequences ← argGet argv 1
    let log ← argGet argv 2
    let queries ← loadQueryLog stoiU64 (texts log)
    match fs sequences with
    | none => .error .uninit
    | some s => do
      let r ← testIntersection F pad sort env queries s
      .ok (some r)

/-- `main` of `test_intersection_fastTrie` (test/test_intersection_fastTrie.cpp:134-191): likewise. -/
def mainTestIntersectionFast (B : BvIO) (K : Nat → RankIO) (pad : Nat) (junk : Nat → FastJunk) (sort : List (List Nat) → List (List Nat))
    (env : Nat → Env) (fs : Files) (texts : Str → Option Str) (argv : List Str) : R (Option CheckOutcome) :=
  if argv.length < 3 then .ok none
  else do
    let sequences ← argGet argv 1
    let log ← argGet argv 2
    let queries ← loadQueryLog stoiU64 (texts log)
    match fs sequences with
    | none => .error .uninit
    | some s => do
      let r ← testIntersectionFast B K pad junk sort env queries s
      .ok (some r)

end CBT
