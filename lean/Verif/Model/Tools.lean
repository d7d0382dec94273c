import Verif.Model.Serialize
import Verif.Model.Intersect

/-!
# The collection builders and the query tools

A file is a byte sequence; the position in it is the list of bytes that remain. `int` and `uint32_t` take four bytes, `bool`
one. Queries are lists of numbers here; their text is in Verif/Model/QueryText.lean, the command lines and the names of files are in
Verif/Model/CommandLine.lean, what is printed in Verif/Model/Report.lean. Not modelled: timing. The files are taken to be good except for reaching their end.
-/

namespace CBT

/-- `n > min_size && n <= max_size` (tools/build_fastTries.cpp:57, 92, tools/build_tries.cpp:62, 96). -/
def accepts (minSize maxSize n : Nat) : Bool := decide (minSize < n ∧ n ≤ maxSize)

/-- `seekg(4*n, ios::cur)` (tools/build_fastTries.cpp:60, 125, tools/build_tries.cpp:65, 178): `4*n` is a `uint32_t`. -/
def skipList (s : Bytes) (n : Nat) : Bytes := s.drop (4 * n % 2 ^ 32)

/-- The first pass (tools/build_fastTries.cpp:50-61, tools/build_tries.cpp:55-66): ends when a read meets the end of the file.
Every round consumes four bytes, so `fuel` one more than the number of bytes is enough. -/
def countSets (minSize maxSize : Nat) : (fuel : Nat) → (s : Bytes) → (nSets : Nat) → R Nat
  | 0, _, _ => .error .fuel
  | fuel + 1, s, nSets =>
    match readLE 4 s with
    | .error _ => .ok nSets
    | .ok (n, s) =>
      countSets minSize maxSize fuel (skipList s n) (if accepts minSize maxSize n then (nSets + 1) % 2 ^ 32 else nSets)

/-- `read_inv_list` (tools/build_fastTries.cpp:12-22, tools/build_tries.cpp:17-27). Past the end the values are indeterminate. -/
def readInvList (n : Nat) (s : Bytes) : R (List Nat × Bytes) := readMany (readLE 4) n s

/-- The second pass (tools/build_fastTries.cpp:83-128, tools/build_tries.cpp:87-181): `make i il` gives the bytes written for the
`i`-th accepted list. `il[n - 1]` (line 95, 99) is in bounds because `n > min_size >= 0`. -/
def buildLoop (minSize maxSize : Nat) (make : Nat → List Nat → R Bytes) : (fuel : Nat) → (s : Bytes) → (i : Nat) → R Bytes
  | 0, _, _ => .error .fuel
  | fuel + 1, s, i =>
    match readLE 4 s with
    | .error _ => .ok []
    | .ok (n, s) =>
      if accepts minSize maxSize n then do
        let (il, s) ← readInvList n s
        let b ← make i il
        let bs ← buildLoop minSize maxSize make fuel s (i + 1)
        .ok (b ++ bs)
      else buildLoop minSize maxSize make fuel (skipList s n) i

/-- `buildCollection` without the formats (tools/build_fastTries.cpp:45-128, tools/build_tries.cpp:50-181): `hdr` gives the bytes
of the header before the three counts; then `nSets`, the first number of the collection, the universe, and the tries. -/
def buildFile (minSize maxSize : Nat) (hdr : Bytes) (make : (u : Nat) → Nat → List Nat → R Bytes) (s : Bytes) : R Bytes := do
  let (one, s1) ← readLE 4 s
  let (u, s2) ← readLE 4 s1
  let nSets ← countSets minSize maxSize (s2.length + 1) s2 0
  let tries ← buildLoop minSize maxSize (make u) (s2.length + 1) s2 0
  .ok (hdr ++ leBytes 4 nSets ++ leBytes 4 one ++ leBytes 4 u ++ tries)

/-! ## Fast tries -/

/-- The header of `build_fastTries` (tools/build_fastTries.cpp:67-72): no block size. -/
def fastFileHeader (rank : Nat) (runs levelwise : Bool) (wsize : Nat) : Bytes :=
  leBytes 4 rank ++ boolByte runs ++ boolByte levelwise ++ leBytes 2 wsize

/-- One trie of `build_fastTries` (tools/build_fastTries.cpp:97-114): rank support `v` for rank type 0 and `v5` otherwise;
`K rank` is its format. The universe is read as a `uint32_t`. -/
def makeFast (B : BvIO) (K : RankIO) (lg pad : Nat) (junk : Nat → FastJunk) (runs : Bool) (u i : Nat) (il : List Nat) : R Bytes := do
  let t ← fastCtor lg (junk i) il u
  let t ← if runs then t.encodeRuns lg pad else .ok t
  .ok (t.serialize B K lg).1

/-- `log2` of the word size chosen by `main` (tools/build_fastTries.cpp:236-243); nothing is built for other sizes. -/
def wordLg (wsize : Nat) : Option Nat :=
  if wsize = 64 then some 6 else if wsize = 32 then some 5 else if wsize = 16 then some 4 else if wsize = 8 then some 3 else none

/-- `build_fastTries` with an output file name (tools/build_fastTries.cpp:24-136, 236-243); `none` when nothing is written. -/
def buildFast (B : BvIO) (K : Nat → RankIO) (pad : Nat) (junk : Nat → FastJunk) (minSize maxSize rank : Nat) (runs levelwise : Bool)
    (wsize : Nat) (s : Bytes) : R (Option Bytes) :=
  match wordLg wsize with
  | none => .ok none
  | some lg => do
    let f ← buildFile minSize maxSize (fastFileHeader rank runs levelwise wsize)
      (makeFast B (K (if rank = 0 then 0 else 2)) lg pad junk runs) s
    .ok (some f)

/-- What the query tool reads before the counts (tools/intersection_querylog_fastTrie.cpp:15-20, 149-162). -/
structure FastFileOpts where
  rank : Nat
  block : Nat
  runs : Bool
  levelwise : Bool
  wsize : Nat
  deriving DecidableEq, Repr

/-- tools/intersection_querylog_fastTrie.cpp:157-162: a block size is expected if the rank type is 1. -/
def readFastFileHeader (s : Bytes) : R (FastFileOpts × Bytes) := do
  let (rank, s) ← readLE 4 s
  let (block, s) ← if rank = 1 then readLE 4 s else .ok (512, s)
  let (runs, s) ← readBool s
  let (levelwise, s) ← readBool s
  let (wsize, s) ← readLE 2 s
  .ok ({ rank, block, runs, levelwise, wsize }, s)

/-- Sorted insertion, for `sortIds`. -/
def insertId (x : Nat) : List Nat → List Nat
  | [] => [x]
  | y :: l => if x ≤ y then x :: y :: l else y :: insertId x l

/-- `std::sort` on numbers (tools/intersection_querylog_fastTrie.cpp:49): its result is determined by its contract, whatever the
algorithm. -/
def sortIds (l : List Nat) : List Nat := l.foldr insertId []

/-- `std::unique` followed by `erase` (tools/intersection_querylog_fastTrie.cpp:50): drops repetitions of the element before. -/
def uniqueIds : List Nat → List Nat
  | [] => []
  | [x] => [x]
  | x :: y :: l => if x = y then uniqueIds (y :: l) else x :: uniqueIds (y :: l)

/-- `setIndexes` (tools/intersection_querylog_fastTrie.cpp:46-50): all set ids of the queries, sorted, without repetitions. -/
def setIndexes (queries : List (List Nat)) : List Nat := uniqueIds (sortIds queries.flatten)

/-- The loop of `loadTries` (tools/intersection_querylog_fastTrie.cpp:60-73), `n` tries to go from number `i` on. `ids` is
`setIndexes` from position `np` on: empty means that `setIndexes[np]` is out of bounds. -/
def loadLoop {T : Type} (load : Nat → Bytes → R (T × Bytes)) : (n i : Nat) → (ids : List Nat) → Bytes → R (List (Nat × T))
  | 0, _, _, _ => .ok []
  | n + 1, i, ids, s => do
    let (t, s) ← load i s
    match ids with
    | [] => .error .oob
    | id :: ids' =>
      if i = id then
        if ids' = [] then .ok [(i, t)]
        else do
          let m ← loadLoop load n (i + 1) ids' s
          .ok ((i, t) :: m)
      else loadLoop load n (i + 1) ids s

/-- `loadTries` (tools/intersection_querylog_fastTrie.cpp:44-75). -/
def loadTriesFast (B : BvIO) (K : RankIO) (lg : Nat) (junk : Nat → FastJunk) (queries : List (List Nat)) (s : Bytes) :
    R (List (Nat × FastObj K)) := do
  let (n, s) ← readLE 4 s
  let (_, s) ← readLE 4 s
  let (_, s) ← readLE 4 s
  loadLoop (fun i s => fastLoad B K lg (fastDefault (junk i)) s) n 0 (setIndexes queries) s

/-- `tries[i]` for all `i` of a query (tools/intersection_querylog_fastTrie.cpp:94-97): a missing id gives a null pointer. -/
def lookupAll {T : Type} (m : List (Nat × T)) : List Nat → Option (List T)
  | [] => some []
  | i :: is => do
    let t ← m.lookup i
    let ts ← lookupAll m is
    some (t :: ts)

/-- One query (tools/intersection_querylog_fastTrie.cpp:92-115, the last repetition): more than 16 sets are skipped (`none`);
`Intersect` uses every pointer it is given. -/
def answerQuery {T : Type} (m : List (Nat × T)) (inter : List T → R (List Nat)) (q : List Nat) : R (Option (List Nat)) :=
  if q.length ≤ 16 then
    match lookupAll m q with
    | none => .error .null
    | some ts => do
      let r ← inter ts
      .ok (some r)
  else .ok none

/-- All queries, in order; the environment of `Intersect` may differ from call to call
(tools/intersection_querylog_fastTrie.cpp:92-115). -/
def answerAll {T : Type} (m : List (Nat × T)) (inter : Nat → List T → R (List Nat)) : (i : Nat) → (queries : List (List Nat)) →
    R (List (Option (List Nat)))
  | _, [] => .ok []
  | i, q :: qs => do
    let a ← answerQuery m (inter i) q
    let as ← answerAll m inter (i + 1) qs
    .ok (a :: as)

/-- The word size used for the loaded tries (tools/intersection_querylog_fastTrie.cpp:177-194): anything else is 8. -/
def queryLg (wsize : Nat) : Nat := if wsize = 64 then 6 else if wsize = 32 then 5 else if wsize = 16 then 4 else 3

/-- The query tool (tools/intersection_querylog_fastTrie.cpp:77-122, 149-195) up to printing: the intersection computed for every
query. -/
def queryFast (B : BvIO) (K : Nat → RankIO) (pad : Nat) (junk : Nat → FastJunk) (parallel : Bool) (env : Nat → Env)
    (queries : List (List Nat)) (s : Bytes) : R (List (Option (List Nat))) := do
  let (o, s) ← readFastFileHeader s
  let lg := queryLg o.wsize
  let m ← loadTriesFast B (K (if o.rank = 0 then 0 else 2)) lg junk queries s
  answerAll m (fun i ts => fastIntersect lg (ts.map fun t => t.nav pad) o.runs parallel (env i)) 0 queries

end CBT
