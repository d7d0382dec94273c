import Verif.Model.Tools

/-!
# `build_tries` and `intersection_query_log`

The same conventions as for the fast tries (Verif/Model/Tools.lean). `Formats` collects the formats of the sdsl classes used.
-/

namespace CBT

/-- Formats of `sdsl::bit_vector`, of `bit_vector_il<block>`, of `rank_support_v`, `rank_support_v5` and of
`rank_support_il<1, block>` (used at include/flatBinTrie.hpp:20-22, include/flatBinTrie_il.hpp:18-20, include/binTrie.hpp:20-21,
include/binTrie_il.hpp:16-17; the choice at tools/build_tries.cpp:101-167). -/
structure Formats where
  bv : BvIO
  il : Nat → BvIO
  v : RankIO
  v5 : RankIO
  rankIl : Nat → RankIO

/-- The rank support of the `binTrie`s and `flatBinTrie`s (tools/build_tries.cpp:101-120, 146-167). -/
def Formats.rank (F : Formats) (rank : Nat) : RankIO := if rank = 0 then F.v else F.v5

/-- The block size the tries are built with (tools/build_tries.cpp:286-293); `block` is what the command line gave. -/
def builtBlock (block : Nat) : Nat := if block = 512 then 512 else if block = 256 then 256 else if block = 128 then 128 else 64

/-- The header of `build_tries` (tools/build_tries.cpp:71-76): the block size of the command line if the rank type is 1. -/
def triesFileHeader (rank block : Nat) (runs levelwise : Bool) : Bytes :=
  leBytes 4 rank ++ (if rank = 1 then leBytes 4 block else []) ++ boolByte runs ++ boolByte levelwise

/-- One flat trie, plain or run-encoded (tools/build_tries.cpp:111-119, 133-142, 158-166). -/
def makeFlat (B L : BvIO) (K : RankIO) (pad : Nat) (ltr runs : Bool) (u : Nat) (il : List Nat) : R Bytes := do
  let t ← flatCtor il u
  let t ← if runs then t.encodeRuns pad else .ok t
  .ok (t.serialize B L K ltr).1

/-- One `binTrie` (tools/build_tries.cpp:102-110, 147-157). -/
def makeLevel (B : BvIO) (K : RankIO) (pad : Nat) (runs : Bool) (u : Nat) (il : List Nat) : R Bytes := do
  let t ← levelCtor il u
  let t ← if runs then t.encodeRuns false pad else .ok t
  .ok (t.serialize B K).1

/-- One `binTrie_il` (tools/build_tries.cpp:123-132). -/
def makeLevelIl (pad : Nat) (runs : Bool) (u : Nat) (il : List Nat) : R Bytes := do
  let t ← levelCtor il u
  let t ← if runs then t.encodeRuns true pad else .ok t
  let (b, _) ← t.serializeIl
  .ok b

/-- One trie of `build_tries` (tools/build_tries.cpp:101-167). `ltr` as in `FlatTrie.serialize`. -/
def makeTrie (F : Formats) (pad : Nat) (ltr : Bool) (rank block : Nat) (runs levelwise : Bool) (u _i : Nat) (il : List Nat) : R Bytes :=
  if rank = 1 then
    if levelwise then makeLevelIl pad runs u il
    else makeFlat (F.il (builtBlock block)) F.bv (F.rankIl (builtBlock block)) pad ltr runs u il
  else
    if levelwise then makeLevel F.bv (F.rank rank) pad runs u il
    else makeFlat F.bv F.bv (F.rank rank) pad ltr runs u il

/-- `build_tries` with an output file name (tools/build_tries.cpp:30-190, 286-293). -/
def buildTries (F : Formats) (pad : Nat) (ltr : Bool) (minSize maxSize rank block : Nat) (runs levelwise : Bool) (s : Bytes) : R Bytes :=
  buildFile minSize maxSize (triesFileHeader rank block runs levelwise) (makeTrie F pad ltr rank block runs levelwise) s

/-- What the query tool reads before the counts (tools/intersection_query_log.cpp:18-21, 212-216). -/
structure TriesFileOpts where
  rank : Nat
  block : Nat
  runs : Bool
  levelwise : Bool
  deriving DecidableEq, Repr

/-- tools/intersection_query_log.cpp:212-216. -/
def readTriesFileHeader (s : Bytes) : R (TriesFileOpts × Bytes) := do
  let (rank, s) ← readLE 4 s
  let (block, s) ← if rank = 1 then readLE 4 s else .ok (512, s)
  let (runs, s) ← readBool s
  let (levelwise, s) ← readBool s
  .ok ({ rank, block, runs, levelwise }, s)

/-- One trie of `loadSequences` (tools/intersection_query_log.cpp:45-78): with rank type 1 and another block size than 128, 256
or 512 the pointer is not initialised. -/
def loadTrie (F : Formats) (pad : Nat) (o : TriesFileOpts) (s : Bytes) : R (Nav × Bytes) :=
  if o.rank = 1 then
    if o.block = 128 ∨ o.block = 256 ∨ o.block = 512 then
      if o.levelwise then do
        let (t, s) ← levelLoadIl (F.il o.block) (F.rankIl o.block) s
        .ok (t.navLoadedIl pad, s)
      else do
        let (t, s) ← flatLoad (F.il o.block) F.bv (F.rankIl o.block) s
        .ok (t.nav pad, s)
    else .error .uninit
  else
    if o.levelwise then do
      let (t, s) ← levelLoad F.bv (F.rank o.rank) s
      .ok (t.nav pad, s)
    else do
      let (t, s) ← flatLoad F.bv F.bv (F.rank o.rank) s
      .ok (t.nav pad, s)

/-- `loadSequences` (tools/intersection_query_log.cpp:26-83). The test for the end of the file (lines 42-44) is left out: it is met only
after a read has failed, and a trie of which a part could not be read is an error already. -/
def loadSequences (F : Formats) (pad : Nat) (o : TriesFileOpts) (s : Bytes) : R (List Nav) := do
  let (n, s) ← readLE 4 s
  let (_, s) ← readLE 4 s
  let (_, s) ← readLE 4 s
  let (ts, _) ← readMany (loadTrie F pad o) n s
  .ok ts

/-- `QTries.push_back(sequences[i])` for all `i` of a query (tools/intersection_query_log.cpp:131-133). -/
def getAll (seqs : List Nav) : List Nat → R (List Nav)
  | [] => .ok []
  | i :: is => do
    let t ← vGet seqs i
    let ts ← getAll seqs is
    .ok (t :: ts)

/-- All queries, in order (tools/intersection_query_log.cpp:130-159, the last repetition). -/
def answerLog (seqs : List Nav) (inter : Nat → List Nav → R (List Nat)) : (i : Nat) → (queries : List (List Nat)) →
    R (List (Option (List Nat)))
  | _, [] => .ok []
  | i, q :: qs => do
    let ts ← getAll seqs q
    let a ← if ts.length ≤ 16 then do
              let r ← inter i ts
              pure (some r)
            else pure none
    let as ← answerLog seqs inter (i + 1) qs
    .ok (a :: as)

/-- The query tool (tools/intersection_query_log.cpp:109-159, 212-228): the intersection computed for every query. The tool
writes only its size to the output file. -/
def queryLog (F : Formats) (pad : Nat) (parallel : Bool) (env : Nat → Env) (queries : List (List Nat)) (s : Bytes) :
    R (List (Option (List Nat))) := do
  let (o, s) ← readTriesFileHeader s
  let seqs ← loadSequences F pad o s
  answerLog seqs (fun i ts => intersect ts o.runs parallel (env i)) 0 queries

end CBT
