import Verif.Model.Flat
import Verif.Model.Level
import Verif.Model.Fast

/-!
# `decode` and `encodeRuns`

`recursiveDecode`, `runsRecursiveDecode` and `writeCompressTrie` are textually the same in the four classes derived
from `binaryTrie`; each is modelled once over the class's `getNode` / `getLeftChild` / `getRightChild`.
-/

namespace CBT

/-- `for (i = below; i <= above; ++i) push_back(i)` with `below = p` and `above = p | ((1 << k) - 1)`
(include/flatBinTrie.hpp:422-427, include/flatBinTrie_il.hpp:433-438, include/binTrie.hpp:377-382,
include/binTrie_il.hpp:363-368, include/fastBinaryTrie.hpp:393-398, src/intersection.cpp:75-81, 237-241,
src/fastTrieIntersection.cpp:84-90, 260-264). -/
def fillRange (p k : Nat) (out : List Nat) : R (List Nat) := do
  let s ← shl1 k
  let above := p ||| (s - 1)
  .ok (out ++ List.range' p (above + 1 - p))

/-- `recursiveDecode` (include/flatBinTrie.hpp:387-409, include/flatBinTrie_il.hpp:398-420,
include/binTrie.hpp:342-364, include/binTrie_il.hpp:328-350); the first argument is `height - curr_level`. -/
def recDecode (n : Nav) : (rem : Nat) → (out : List Nat) → (part id level : Nat) → R (List Nat)
  | 0, out, part, _, _ => .ok (out ++ [part])
  | rem + 1, out, part, id, level => do
    let node ← n.getNode id level
    let out ← if node = 2 ∨ node = 3 then do
                let c ← n.getLeftChild id level
                recDecode n rem out part c (level + 1)
              else pure out
    if node = 1 ∨ node = 3 then do
      let s ← shl1 (n.height - level - 1)
      let c ← n.getRightChild id level
      recDecode n rem out (part ||| s) c (level + 1)
    else pure out

/-- `runsRecursiveDecode` (include/flatBinTrie.hpp:412-443, include/flatBinTrie_il.hpp:423-454,
include/binTrie.hpp:367-398, include/binTrie_il.hpp:353-384); the first argument is `stop - curr_level`, where `stop`
is `height` in the flat classes and `height_with_runs` in the level-wise ones. -/
def runsRecDecode (n : Nav) : (rem : Nat) → (out : List Nat) → (part id level : Nat) → R (List Nat)
  | 0, out, part, _, _ => .ok (out ++ [part])
  | rem + 1, out, part, id, level => do
    let node ← n.getNode id level
    if node = 0 then fillRange part (n.height - level) out
    else
      let out ← if node = 2 ∨ node = 3 then do
                  let c ← n.getLeftChild id level
                  runsRecDecode n rem out part c (level + 1)
                else pure out
      if node = 1 ∨ node = 3 then do
        let s ← shl1 (n.height - level - 1)
        let c ← n.getRightChild id level
        runsRecDecode n rem out (part ||| s) c (level + 1)
      else pure out

/-- `decode` (include/flatBinTrie.hpp:446-458, include/flatBinTrie_il.hpp:457-471); `out` is the vector passed in. -/
def FlatTrie.decode (t : FlatTrie) (pad : Nat) (out : List Nat) : R (List Nat) :=
  if t.runsEncoded then
    if t.emptyTrie then .ok out else runsRecDecode (t.nav pad) t.height out 0 0 0
  else recDecode (t.nav pad) t.height out 0 0 0

/-- `decode` (include/binTrie.hpp:401-415, include/binTrie_il.hpp:387-401). -/
def LevelTrie.decode (t : LevelTrie) (il : Bool) (pad : Nat) (out : List Nat) : R (List Nat) :=
  if t.runsEncoded then
    if t.emptyTrie then .ok out else runsRecDecode (t.nav il pad) t.heightWithRuns out 0 0 0
  else recDecode (t.nav il pad) t.height out 0 0 0

/-- `fastBinaryTrie::recursiveDecode` (include/fastBinaryTrie.hpp:350-374); the first argument is
`height - 1 - curr_level`. -/
def fastRecDecode (lg hu : Nat) (n : FNav) : (rem : Nat) → (out : List Nat) → (part id level : Nat) → R (List Nat)
  | 0, out, part, id, _ => do
    let w ← n.getWord id
    emitWord lg part (2 ^ lg) w out
  | rem + 1, out, part, id, level => do
    let node ← n.getNode id level
    let out ← if node = 2 ∨ node = 3 then do
                let c ← n.getLeftChild id level
                fastRecDecode lg hu n rem out part c (level + 1)
              else pure out
    if node = 1 ∨ node = 3 then do
      let s ← shl1 (hu - level - 1)
      let c ← n.getRightChild id level
      fastRecDecode lg hu n rem out (part ||| s) c (level + 1)
    else pure out

/-- `fastBinaryTrie::runsRecursiveDecode` (include/fastBinaryTrie.hpp:377-412). -/
def fastRunsRecDecode (lg hu : Nat) (n : FNav) : (rem : Nat) → (out : List Nat) → (part id level : Nat) → R (List Nat)
  | 0, out, part, id, _ => do
    let w ← n.getWord id
    emitWord lg part (2 ^ lg) w out
  | rem + 1, out, part, id, level => do
    let node ← n.getNode id level
    if node = 0 then fillRange part (hu - level) out
    else
      let out ← if node = 2 ∨ node = 3 then do
                  let c ← n.getLeftChild id level
                  fastRunsRecDecode lg hu n rem out part c (level + 1)
                else pure out
      if node = 1 ∨ node = 3 then do
        let s ← shl1 (hu - level - 1)
        let c ← n.getRightChild id level
        fastRunsRecDecode lg hu n rem out (part ||| s) c (level + 1)
      else pure out

/-- `fastBinaryTrie::decode` (include/fastBinaryTrie.hpp:415-427). A height of 0 never satisfies the end condition
`curr_level == height-1`; only a default-constructed trie can have it and its height is indeterminate. -/
def FastTrie.decode (lg : Nat) (t : FastTrie) (pad : Nat) (out : List Nat) : R (List Nat) :=
  if t.height = 0 then .error .uninit
  else if t.runsEncoded then
    if t.emptyTrie then .ok out else fastRunsRecDecode lg t.heightU (t.nav pad) (t.height - 1) out 0 0 0
  else fastRecDecode lg t.heightU (t.nav pad) (t.height - 1) out 0 0 0

/-! ## Run encoding -/

/-- The arrays `ones_to_write[height]` and `level_pos[height]` (include/flatBinTrie.hpp:378-380,
include/flatBinTrie_il.hpp:389-391, include/binTrie.hpp:333-334, include/binTrie_il.hpp:319-320). -/
structure RunSt where
  ones : List (List Nat)
  pos : List Nat
  deriving DecidableEq, Repr

/-- `ones_to_write[level].push_back(level_pos[level] + k)` (include/flatBinTrie.hpp:280, 284, 316, 317, 326, 332). -/
def RunSt.push (s : RunSt) (level k : Nat) : R RunSt := do
  let o ← vGet s.ones level
  let p ← vGet s.pos level
  .ok { s with ones := s.ones.set level (o ++ [p + k]) }

/-- `level_pos[level] += k` (include/flatBinTrie.hpp:282, 286, 320, 329, 335). -/
def RunSt.inc (s : RunSt) (level k : Nat) : R RunSt := do
  let p ← vGet s.pos level
  .ok { s with pos := s.pos.set level (p + k) }

/-- `level_pos[level] -= 4` on a `uint64_t` (include/flatBinTrie.hpp:308, include/fastBinaryTrie.hpp:283). -/
def RunSt.dec4 (s : RunSt) (level : Nat) : R RunSt := do
  let p ← vGet s.pos level
  .ok { s with pos := s.pos.set level (if 4 ≤ p then p - 4 else p + 2 ^ 64 - 4) }

/-- Four times `ones_to_write[level].pop_back()` (include/flatBinTrie.hpp:310-312); popping an empty vector is
undefined. -/
def RunSt.pop4 (s : RunSt) (level : Nat) : R RunSt := do
  let o ← vGet s.ones level
  if o.length < 4 then .error .oob
  .ok { s with ones := s.ones.set level (o.take (o.length - 4)) }

/-- `writeCompressTrie` (include/flatBinTrie.hpp:270-337, include/flatBinTrie_il.hpp:279-347,
include/binTrie.hpp:233-300, include/binTrie_il.hpp:215-282). The first argument is `height - 1 - curr_level`; the
flag returned is the value left in `its11`, which every caller initialises to false. -/
def writeCompress (n : Nav) : (rem : Nat) → RunSt → (level id : Nat) → R (RunSt × Bool)
  | 0, s, level, id => do
    let node ← n.getNode id level
    let s ← if node = 2 ∨ node = 3 then s.push level 0 else pure s
    let s ← s.inc level 1
    let s ← if node = 1 ∨ node = 3 then s.push level 0 else pure s
    let s ← s.inc level 1
    .ok (s, decide (node = 3))
  | rem + 1, s, level, id => do
    let node ← n.getNode id level
    if node = 3 then
      let l ← n.getLeftChild id level
      let (s, fl) ← writeCompress n rem s (level + 1) l
      let (s, fr) ← writeCompress n rem s (level + 1) (l + 1)
      let s ← if fl && fr then do
                let s ← s.dec4 (level + 1)
                if rem = 0 then s.pop4 (level + 1) else pure s
              else do
                let s ← s.push level 0
                s.push level 1
      let s ← s.inc level 2
      .ok (s, fl && fr)
    else if node = 2 then
      let l ← n.getLeftChild id level
      let s ← s.push level 0
      let (s, _) ← writeCompress n rem s (level + 1) l
      let s ← s.inc level 1
      let s ← s.inc level 1
      .ok (s, false)
    else if node = 1 then
      let s ← s.inc level 1
      let r ← n.getRightChild id level
      let s ← s.push level 0
      let (s, _) ← writeCompress n rem s (level + 1) r
      let s ← s.inc level 1
      .ok (s, false)
    else .ok (s, false)

/-- The deepest level with `level_pos[level] > 0`, else 0 (include/flatBinTrie.hpp:343-350,
include/binTrie.hpp:306-312, include/fastBinaryTrie.hpp:311-318). -/
def lastNonEmpty : (pos : List Nat) → (level last : Nat) → Nat
  | [], _, last => last
  | p :: ps, level, last => lastNonEmpty ps (level + 1) (if p > 0 then level else last)

/-- `for (i) v[off + ones[i]] = 1` (include/flatBinTrie.hpp:359-368, include/binTrie.hpp:316-319). -/
def setAll (off : Nat) : (ones : List Nat) → BV → R BV
  | [], v => .ok v
  | p :: ps, v => do
    let v ← bvSet v (off + p)
    setAll off ps v

/-- The writing loop of the flat `writeOnes` (include/flatBinTrie.hpp:357-370, include/flatBinTrie_il.hpp:367-380). -/
def flatWriteLoop (last : Nat) : (lv : List (List Nat × Nat)) → (level glob : Nat) → BV → BV → R (BV × BV)
  | [], _, _, b, l => .ok (b, l)
  | (ones, p) :: rest, level, glob, b, l => do
    let (b, l) ← if level = last then do
                   let l ← setAll 0 ones l
                   pure (b, l)
                 else do
                   let b ← setAll glob ones b
                   pure (b, l)
    flatWriteLoop last rest (level + 1) (glob + if level < last then p else 0) b l

/-- Flat `encodeRuns` with `writeOnes` (include/flatBinTrie.hpp:340-384, include/flatBinTrie_il.hpp:349-395).
Simplification: the total number of bits is summed without wrapping. -/
def FlatTrie.encodeRuns (t : FlatTrie) (pad : Nat) : R FlatTrie := do
  if t.height = 0 then .error .uninit
  let (s, _) ← writeCompress (t.nav pad) (t.height - 1)
    { ones := List.replicate t.height [], pos := List.replicate t.height 0 } 0 0
  let last := lastNonEmpty s.pos 0 0
  let p ← vGet s.pos last
  let (b, l) ← flatWriteLoop last ((s.ones.zip s.pos).take (last + 1)) 0 0
    (List.replicate (s.pos.sum - p) false) (List.replicate p false)
  .ok { t with heightWithRuns := last + 1, runsEncoded := true, bTrie := b, lastLevel := l }

/-- The writing loops of the level-wise `writeOnes` (include/binTrie.hpp:307-320, include/binTrie_il.hpp:290-305);
`binTrie_il` stops after `height_with_runs` levels, the levels left out having no ones. -/
def levelWriteLoop : (lv : List (List Nat × Nat)) → R (List BV)
  | [] => .ok []
  | (ones, p) :: rest => do
    let v ← setAll 0 ones (List.replicate p false)
    let vs ← levelWriteLoop rest
    .ok (v :: vs)

/-- Level-wise `encodeRuns` with `writeOnes` (include/binTrie.hpp:303-339, include/binTrie_il.hpp:285-325). -/
def LevelTrie.encodeRuns (t : LevelTrie) (il : Bool) (pad : Nat) : R LevelTrie := do
  if t.height = 0 then .error .oob
  let (s, _) ← writeCompress (t.nav il pad) (t.height - 1)
    { ones := List.replicate t.height [], pos := List.replicate t.height 0 } 0 0
  let last := lastNonEmpty s.pos 0 0
  let ones := if il then s.ones.take (last + 1) ++ List.replicate (t.height - (last + 1)) [] else s.ones
  let vs ← levelWriteLoop (ones.zip s.pos)
  .ok { t with heightWithRuns := last + 1, runsEncoded := true, bTrie := vs }

/-- `fastBinaryTrie::writeCompressTrie` (include/fastBinaryTrie.hpp:248-306); `nl` is `newLastLevel`. -/
def fastWriteCompress (lg : Nat) (n : FNav) : (rem : Nat) → RunSt → (nl : List Nat) → (level id : Nat) →
    R (RunSt × List Nat × Bool)
  | 0, s, nl, level, id => do
    let w ← n.getWord id
    let s ← s.push level 0
    .ok (s, nl ++ [w], decide (w = 2 ^ 2 ^ lg - 1))
  | rem + 1, s, nl, level, id => do
    let node ← n.getNode id level
    if node = 3 then
      let l ← n.getLeftChild id level
      let (s, nl, fl) ← fastWriteCompress lg n rem s nl (level + 1) l
      let (s, nl, fr) ← fastWriteCompress lg n rem s nl (level + 1) (l + 1)
      let (s, nl) ← if fl && fr then do
                      let nl ← if rem = 0 then
                                 if nl.length < 2 then .error .oob else pure (nl.take (nl.length - 2))
                               else pure nl
                      let s ← s.dec4 (level + 1)
                      pure (s, nl)
                    else do
                      let s ← s.push level 0
                      let s ← s.push level 1
                      pure (s, nl)
      let s ← s.inc level 2
      .ok (s, nl, fl && fr)
    else if node = 2 then
      let l ← n.getLeftChild id level
      let s ← s.push level 0
      let (s, nl, _) ← fastWriteCompress lg n rem s nl (level + 1) l
      let s ← s.inc level 1
      let s ← s.inc level 1
      .ok (s, nl, false)
    else if node = 1 then
      let s ← s.inc level 1
      let r ← n.getRightChild id level
      let s ← s.push level 0
      let (s, nl, _) ← fastWriteCompress lg n rem s nl (level + 1) r
      let s ← s.inc level 1
      .ok (s, nl, false)
    else .ok (s, nl, false)

/-- The writing loop of the fast `writeOnes` (include/fastBinaryTrie.hpp:323-329). -/
def fastWriteLoop : (lv : List (List Nat × Nat)) → (glob : Nat) → BV → R BV
  | [], _, b => .ok b
  | (ones, p) :: rest, glob, b => do
    let b ← setAll glob ones b
    fastWriteLoop rest (glob + p) b

/-- `fastBinaryTrie::encodeRuns` with `writeOnes` (include/fastBinaryTrie.hpp:309-347): only the levels below
`height - 1` are written. -/
def FastTrie.encodeRuns (lg : Nat) (t : FastTrie) (pad : Nat) : R FastTrie := do
  if t.height = 0 then .error .uninit
  let (s, nl, _) ← fastWriteCompress lg (t.nav pad) (t.height - 1)
    { ones := List.replicate t.height [], pos := List.replicate t.height 0 } [] 0 0
  let ones := s.ones.take (t.height - 1)
  let pos := s.pos.take (t.height - 1)
  let b ← fastWriteLoop (ones.zip pos) 0 (List.replicate pos.sum false)
  .ok { t with heightWithRuns := lastNonEmpty pos 0 0 + 1, runsEncoded := true, bTrie := b, lastLevel := nl }

end CBT
