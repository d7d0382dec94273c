import Verif.Model.Runs

/-!
# What `encodeRuns` reads of a trie and how many positions it collects

`encodeRuns` with counters of the calls of `getNode`, of `getLeftChild` and `getRightChild`, of `getWord`, and of
`ones_to_write[level].push_back`. The counters are not in /repo.
-/

namespace CBT

structure EncCost where
  nodes : Nat
  moves : Nat
  words : Nat
  pushes : Nat
  deriving DecidableEq, Repr

def EncCost.add (a b : EncCost) : EncCost := ⟨a.nodes + b.nodes, a.moves + b.moves, a.words + b.words, a.pushes + b.pushes⟩

/-- `writeCompress` (include/flatBinTrie.hpp:270-337, include/flatBinTrie_il.hpp:279-347, include/binTrie.hpp:233-300,
include/binTrie_il.hpp:215-282). -/
def writeCompressC (n : Nav) : (rem : Nat) → RunSt → (level id : Nat) → R ((RunSt × Bool) × EncCost)
  | 0, s, level, id => do
    let node ← n.getNode id level
    let (s, k) ← if node = 2 ∨ node = 3 then do
                   let s ← s.push level 0
                   pure (s, 1)
                 else pure (s, 0)
    let s ← s.inc level 1
    let (s, k') ← if node = 1 ∨ node = 3 then do
                   let s ← s.push level 0
                   pure (s, 1)
                 else pure (s, 0)
    let s ← s.inc level 1
    .ok ((s, decide (node = 3)), ⟨1, 0, 0, k + k'⟩)
  | rem + 1, s, level, id => do
    let node ← n.getNode id level
    if node = 3 then
      let l ← n.getLeftChild id level
      let ((s, fl), k) ← writeCompressC n rem s (level + 1) l
      let ((s, fr), k') ← writeCompressC n rem s (level + 1) (l + 1)
      let (s, p) ← if fl && fr then do
                let s ← s.dec4 (level + 1)
                if rem = 0 then do
                  let s ← s.pop4 (level + 1)
                  pure (s, 0)
                else pure (s, 0)
              else do
                let s ← s.push level 0
                let s ← s.push level 1
                pure (s, 2)
      let s ← s.inc level 2
      .ok ((s, fl && fr), EncCost.add ⟨1, 1, 0, p⟩ (k.add k'))
    else if node = 2 then
      let l ← n.getLeftChild id level
      let s ← s.push level 0
      let ((s, _), k) ← writeCompressC n rem s (level + 1) l
      let s ← s.inc level 1
      let s ← s.inc level 1
      .ok ((s, false), EncCost.add ⟨1, 1, 0, 1⟩ k)
    else if node = 1 then
      let s ← s.inc level 1
      let r ← n.getRightChild id level
      let s ← s.push level 0
      let ((s, _), k) ← writeCompressC n rem s (level + 1) r
      let s ← s.inc level 1
      .ok ((s, false), EncCost.add ⟨1, 1, 0, 1⟩ k)
    else .ok ((s, false), ⟨1, 0, 0, 0⟩)

/-- Flat `encodeRuns` (include/flatBinTrie.hpp:340-384, include/flatBinTrie_il.hpp:349-395). `writeOnes` reads nothing of the old
trie and pushes nothing. -/
def FlatTrie.encodeRunsC (t : FlatTrie) (pad : Nat) : R (FlatTrie × EncCost) := do
  if t.height = 0 then .error .uninit
  let ((s, _), k) ← writeCompressC (t.nav pad) (t.height - 1)
    { ones := List.replicate t.height [], pos := List.replicate t.height 0 } 0 0
  let last := lastNonEmpty s.pos 0 0
  let p ← vGet s.pos last
  let (b, l) ← flatWriteLoop last ((s.ones.zip s.pos).take (last + 1)) 0 0
    (List.replicate (s.pos.sum - p) false) (List.replicate p false)
  .ok ({ t with heightWithRuns := last + 1, runsEncoded := true, bTrie := b, lastLevel := l }, k)

/-- Level-wise `encodeRuns` (include/binTrie.hpp:303-339, include/binTrie_il.hpp:285-325). -/
def LevelTrie.encodeRunsC (t : LevelTrie) (il : Bool) (pad : Nat) : R (LevelTrie × EncCost) := do
  if t.height = 0 then .error .oob
  let ((s, _), k) ← writeCompressC (t.nav il pad) (t.height - 1)
    { ones := List.replicate t.height [], pos := List.replicate t.height 0 } 0 0
  let last := lastNonEmpty s.pos 0 0
  let ones := if il then s.ones.take (last + 1) ++ List.replicate (t.height - (last + 1)) [] else s.ones
  let vs ← levelWriteLoop (ones.zip s.pos)
  .ok ({ t with heightWithRuns := last + 1, runsEncoded := true, bTrie := vs }, k)

/-- `fastWriteCompress` (include/fastBinaryTrie.hpp:248-306). -/
def fastWriteCompressC (lg : Nat) (n : FNav) : (rem : Nat) → RunSt → (nl : List Nat) → (level id : Nat) →
    R ((RunSt × List Nat × Bool) × EncCost)
  | 0, s, nl, level, id => do
    let w ← n.getWord id
    let s ← s.push level 0
    .ok ((s, nl ++ [w], decide (w = 2 ^ 2 ^ lg - 1)), ⟨0, 0, 1, 1⟩)
  | rem + 1, s, nl, level, id => do
    let node ← n.getNode id level
    if node = 3 then
      let l ← n.getLeftChild id level
      let ((s, nl, fl), k) ← fastWriteCompressC lg n rem s nl (level + 1) l
      let ((s, nl, fr), k') ← fastWriteCompressC lg n rem s nl (level + 1) (l + 1)
      let ((s, nl), p) ← if fl && fr then do
                      let nl ← if rem = 0 then
                                 if nl.length < 2 then .error .oob else pure (nl.take (nl.length - 2))
                               else pure nl
                      let s ← s.dec4 (level + 1)
                      pure ((s, nl), 0)
                    else do
                      let s ← s.push level 0
                      let s ← s.push level 1
                      pure ((s, nl), 2)
      let s ← s.inc level 2
      .ok ((s, nl, fl && fr), EncCost.add ⟨1, 1, 0, p⟩ (k.add k'))
    else if node = 2 then
      let l ← n.getLeftChild id level
      let s ← s.push level 0
      let ((s, nl, _), k) ← fastWriteCompressC lg n rem s nl (level + 1) l
      let s ← s.inc level 1
      let s ← s.inc level 1
      .ok ((s, nl, false), EncCost.add ⟨1, 1, 0, 1⟩ k)
    else if node = 1 then
      let s ← s.inc level 1
      let r ← n.getRightChild id level
      let s ← s.push level 0
      let ((s, nl, _), k) ← fastWriteCompressC lg n rem s nl (level + 1) r
      let s ← s.inc level 1
      .ok ((s, nl, false), EncCost.add ⟨1, 1, 0, 1⟩ k)
    else .ok ((s, nl, false), ⟨1, 0, 0, 0⟩)

/-- `fastBinaryTrie::encodeRuns` (include/fastBinaryTrie.hpp:309-347). -/
def FastTrie.encodeRunsC (lg : Nat) (t : FastTrie) (pad : Nat) : R (FastTrie × EncCost) := do
  if t.height = 0 then .error .uninit
  let ((s, nl, _), k) ← fastWriteCompressC lg (t.nav pad) (t.height - 1)
    { ones := List.replicate t.height [], pos := List.replicate t.height 0 } [] 0 0
  let ones := s.ones.take (t.height - 1)
  let pos := s.pos.take (t.height - 1)
  let b ← fastWriteLoop (ones.zip pos) 0 (List.replicate pos.sum false)
  .ok ({ t with heightWithRuns := lastNonEmpty pos 0 0 + 1, runsEncoded := true, bTrie := b, lastLevel := nl }, k)

end CBT
