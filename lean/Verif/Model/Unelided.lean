import Verif.Model.Copies
import Verif.Model.ToolsTries
import Verif.Model.Stats
import Verif.Model.Checks

/-!
# Tools compiled without copy elision

`build_tries`, `measures` and `test_fastTrie` make tries as in `T x = T(...)`. In C++14 (CMakeLists.txt:9) the compiler may leave out the
copy, and the models of these tools take it to be left out; it need not be. Then `x` is a copy of a temporary that is destroyed at the
end of the declaration: an `orphan` in the words of Verif/Model/Copies.lean. The classes have destructors of their own and so no move
constructors (include/flatBinTrie.hpp:26, include/binTrie.hpp:26, include/fastBinaryTrie.hpp:32).
-/

namespace CBT

/-- `encodeRuns` of a copy (include/flatBinTrie.hpp:340-384): the navigation uses the copied pointer; afterwards the rank support is made
anew for the copy's own vector (line 372). -/
def FlatCopy.encodeRuns {K : RankIO} (c : FlatCopy K) (pad : Nat) : R (FlatCopy K) := do
  if c.trie.height = 0 then .error .uninit
  let (s, _) ← writeCompress (c.nav pad) (c.trie.height - 1)
    { ones := List.replicate c.trie.height [], pos := List.replicate c.trie.height 0 } 0 0
  let last := lastNonEmpty s.pos 0 0
  let p ← vGet s.pos last
  let (b, l) ← flatWriteLoop last ((s.ones.zip s.pos).take (last + 1)) 0 0
    (List.replicate (s.pos.sum - p) false) (List.replicate p false)
  .ok ⟨{ c.trie with heightWithRuns := last + 1, runsEncoded := true, bTrie := b, lastLevel := l }, K.of b, some b⟩

/-- What `serialize` of a copy writes (include/flatBinTrie.hpp:241-256): its own vectors and its own counts. `ltr` as in
`FlatTrie.serialize`. -/
def FlatCopy.serialize (B L : BvIO) {K : RankIO} (ltr : Bool) (c : FlatCopy K) : Bytes :=
  let bvs := if ltr then B.write c.trie.bTrie ++ L.write c.trie.lastLevel else L.write c.trie.lastLevel ++ B.write c.trie.bTrie
  header c.trie.height c.trie.heightWithRuns c.trie.emptyTrie c.trie.runsEncoded ++ bvs ++ K.write c.counts

/-- `trieMeasure` of a copy (include/flatBinTrie.hpp:461-469). -/
def FlatCopy.trieMeasure {K : RankIO} (c : FlatCopy K) : R Nat := do
  let e ← c.rank c.trie.bTrie.length
  .ok (c.trie.lastLevel.foldl (fun n b => if b = true then n + 1 else n) e)

/-- `binTrie::encodeRuns` of a copy (include/binTrie.hpp:303-339). -/
def LevelCopy.encodeRuns {K : RankIO} (c : LevelCopy K) (pad : Nat) : R (LevelCopy K) := do
  if c.trie.height = 0 then .error .oob
  let (s, _) ← writeCompress (c.nav false pad) (c.trie.height - 1)
    { ones := List.replicate c.trie.height [], pos := List.replicate c.trie.height 0 } 0 0
  let last := lastNonEmpty s.pos 0 0
  let vs ← levelWriteLoop (s.ones.zip s.pos)
  .ok ⟨{ c.trie with heightWithRuns := last + 1, runsEncoded := true, bTrie := vs }, vs.dropLast.map K.of, some vs⟩

/-- What `binTrie::serialize` of a copy writes (include/binTrie.hpp:194-214). -/
def LevelCopy.serialize (B : BvIO) {K : RankIO} (c : LevelCopy K) : Bytes :=
  let h := c.trie.bTrie.length % 2 ^ 16
  header h c.trie.heightWithRuns c.trie.emptyTrie c.trie.runsEncoded ++ (c.trie.bTrie.take h).flatMap B.write ++
    (c.counts.take (h - 1)).flatMap K.write

/-- `fastBinaryTrie::encodeRuns` of a copy (include/fastBinaryTrie.hpp:309-347). -/
def FastCopy.encodeRuns {K : RankIO} (lg : Nat) (c : FastCopy K) (pad : Nat) : R (FastCopy K) := do
  if c.trie.height = 0 then .error .uninit
  let (s, nl, _) ← fastWriteCompress lg (c.nav pad) (c.trie.height - 1)
    { ones := List.replicate c.trie.height [], pos := List.replicate c.trie.height 0 } [] 0 0
  let ones := s.ones.take (c.trie.height - 1)
  let pos := s.pos.take (c.trie.height - 1)
  let b ← fastWriteLoop (ones.zip pos) 0 (List.replicate pos.sum false)
  .ok ⟨{ c.trie with heightWithRuns := lastNonEmpty pos 0 0 + 1, runsEncoded := true, bTrie := b, lastLevel := nl }, K.of b, some b⟩

/-- One `flatBinTrie` of `build_tries` (tools/build_tries.cpp:112-118, 159-165), copied. -/
def makeFlatCopied (B L : BvIO) (K : RankIO) (pad : Nat) (ltr runs : Bool) (u : Nat) (il : List Nat) : R Bytes := do
  let t ← flatCtor il u
  let c := (t.copy K).orphan
  let c ← if runs then c.encodeRuns pad else .ok c
  .ok (c.serialize B L ltr)

/-- One `binTrie` of `build_tries` (tools/build_tries.cpp:103-109, 148-156), copied. -/
def makeLevelCopied (B : BvIO) (K : RankIO) (pad : Nat) (runs : Bool) (u : Nat) (il : List Nat) : R Bytes := do
  let t ← levelCtor il u
  let c := (t.copy K).orphan
  let c ← if runs then c.encodeRuns pad else .ok c
  .ok (c.serialize B)

/-- One trie of `build_tries` (tools/build_tries.cpp:101-167): `trie_il(il, u)` (lines 124, 134) copies nothing. -/
def makeTrieCopied (F : Formats) (pad : Nat) (ltr : Bool) (rank block : Nat) (runs levelwise : Bool) (u _i : Nat) (il : List Nat) : R Bytes :=
  if rank = 1 then
    if levelwise then makeLevelIl pad runs u il
    else makeFlat (F.il (builtBlock block)) F.bv (F.rankIl (builtBlock block)) pad ltr runs u il
  else
    if levelwise then makeLevelCopied F.bv (F.rank rank) pad runs u il
    else makeFlatCopied F.bv F.bv (F.rank rank) pad ltr runs u il

/-- `build_tries` with an output file name (tools/build_tries.cpp:30-190, 286-293), compiled without copy elision. -/
def buildTriesCopied (F : Formats) (pad : Nat) (ltr : Bool) (minSize maxSize rank block : Nat) (runs levelwise : Bool) (s : Bytes) :
    R Bytes :=
  buildFile minSize maxSize (triesFileHeader rank block runs levelwise) (makeTrieCopied F pad ltr rank block runs levelwise) s

/-- `Trie` of the measures tool (tools/measures.cpp:95-104), copied. -/
def trieOfCopied (K : RankIO) (pad : Nat) (v : List Nat) (u : Nat) (runs : Bool) : R Nat := do
  let t ← flatCtor v u
  let c := (t.copy K).orphan
  let c ← if runs then c.encodeRuns pad else .ok c
  c.trieMeasure

/-- What `test_fastTrie` decodes of one list with `rank_support_v` (test/test_fastTrie.cpp:70-77), copied; with `rank_support_v5` nothing is
copied (line 93). -/
def decodeFastCopied (K : RankIO) (lg pad : Nat) (junk : FastJunk) (runs : Bool) (u : Nat) (il : List Nat) : R (List Nat) := do
  let t ← fastCtor lg junk il u
  let c := (t.copy K).orphan
  let c ← if runs then c.encodeRuns lg pad else .ok c
  c.decode lg pad []

end CBT
