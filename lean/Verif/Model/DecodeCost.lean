import Verif.Model.Cost
import Verif.Model.Runs

/-!
# What `decode` reads of a trie

`decode` with counters of the calls of `getNode`, of `getLeftChild` and `getRightChild`, and of `getWord`. The counters are not in
/repo.
-/

namespace CBT

/-- `recDecode` (include/flatBinTrie.hpp:387-409, include/flatBinTrie_il.hpp:398-420, include/binTrie.hpp:342-364,
include/binTrie_il.hpp:328-350). -/
def recDecodeC (n : Nav) : (rem : Nat) → (out : List Nat) → (part id level : Nat) → R (List Nat × Cost)
  | 0, out, part, _, _ => .ok (out ++ [part], .zero)
  | rem + 1, out, part, id, level => do
    let node ← n.getNode id level
    let (out, k) ← if node = 2 ∨ node = 3 then do
                let c ← n.getLeftChild id level
                let (out, k) ← recDecodeC n rem out part c (level + 1)
                pure (out, Cost.move.add k)
              else pure (out, Cost.zero)
    if node = 1 ∨ node = 3 then do
      let s ← shl1 (n.height - level - 1)
      let c ← n.getRightChild id level
      let (out, k') ← recDecodeC n rem out (part ||| s) c (level + 1)
      pure (out, (Cost.node.add k).add (Cost.move.add k'))
    else pure (out, Cost.node.add k)

/-- `runsRecDecode` (include/flatBinTrie.hpp:412-443, include/flatBinTrie_il.hpp:423-454, include/binTrie.hpp:367-398,
include/binTrie_il.hpp:353-384). -/
def runsRecDecodeC (n : Nav) : (rem : Nat) → (out : List Nat) → (part id level : Nat) → R (List Nat × Cost)
  | 0, out, part, _, _ => .ok (out ++ [part], .zero)
  | rem + 1, out, part, id, level => do
    let node ← n.getNode id level
    if node = 0 then do
      let out ← fillRange part (n.height - level) out
      .ok (out, Cost.node)
    else
      let (out, k) ← if node = 2 ∨ node = 3 then do
                  let c ← n.getLeftChild id level
                  let (out, k) ← runsRecDecodeC n rem out part c (level + 1)
                  pure (out, Cost.move.add k)
                else pure (out, Cost.zero)
      if node = 1 ∨ node = 3 then do
        let s ← shl1 (n.height - level - 1)
        let c ← n.getRightChild id level
        let (out, k') ← runsRecDecodeC n rem out (part ||| s) c (level + 1)
        pure (out, (Cost.node.add k).add (Cost.move.add k'))
      else pure (out, Cost.node.add k)

/-- `decode` (include/flatBinTrie.hpp:446-458, include/flatBinTrie_il.hpp:457-471). -/
def FlatTrie.decodeC (t : FlatTrie) (pad : Nat) (out : List Nat) : R (List Nat × Cost) :=
  if t.runsEncoded then
    if t.emptyTrie then .ok (out, .zero) else runsRecDecodeC (t.nav pad) t.height out 0 0 0
  else recDecodeC (t.nav pad) t.height out 0 0 0

/-- `decode` (include/binTrie.hpp:401-415, include/binTrie_il.hpp:387-401). -/
def LevelTrie.decodeC (t : LevelTrie) (il : Bool) (pad : Nat) (out : List Nat) : R (List Nat × Cost) :=
  if t.runsEncoded then
    if t.emptyTrie then .ok (out, .zero) else runsRecDecodeC (t.nav il pad) t.heightWithRuns out 0 0 0
  else recDecodeC (t.nav il pad) t.height out 0 0 0

/-- `fastRecDecode` (include/fastBinaryTrie.hpp:350-374). -/
def fastRecDecodeC (lg hu : Nat) (n : FNav) : (rem : Nat) → (out : List Nat) → (part id level : Nat) → R (List Nat × Cost)
  | 0, out, part, id, _ => do
    let w ← n.getWord id
    let out ← emitWord lg part (2 ^ lg) w out
    .ok (out, Cost.word)
  | rem + 1, out, part, id, level => do
    let node ← n.getNode id level
    let (out, k) ← if node = 2 ∨ node = 3 then do
                let c ← n.getLeftChild id level
                let (out, k) ← fastRecDecodeC lg hu n rem out part c (level + 1)
                pure (out, Cost.move.add k)
              else pure (out, Cost.zero)
    if node = 1 ∨ node = 3 then do
      let s ← shl1 (hu - level - 1)
      let c ← n.getRightChild id level
      let (out, k') ← fastRecDecodeC lg hu n rem out (part ||| s) c (level + 1)
      pure (out, (Cost.node.add k).add (Cost.move.add k'))
    else pure (out, Cost.node.add k)

/-- `fastRunsRecDecode` (include/fastBinaryTrie.hpp:377-412). -/
def fastRunsRecDecodeC (lg hu : Nat) (n : FNav) : (rem : Nat) → (out : List Nat) → (part id level : Nat) → R (List Nat × Cost)
  | 0, out, part, id, _ => do
    let w ← n.getWord id
    let out ← emitWord lg part (2 ^ lg) w out
    .ok (out, Cost.word)
  | rem + 1, out, part, id, level => do
    let node ← n.getNode id level
    if node = 0 then do
      let out ← fillRange part (hu - level) out
      .ok (out, Cost.node)
    else
      let (out, k) ← if node = 2 ∨ node = 3 then do
                  let c ← n.getLeftChild id level
                  let (out, k) ← fastRunsRecDecodeC lg hu n rem out part c (level + 1)
                  pure (out, Cost.move.add k)
                else pure (out, Cost.zero)
      if node = 1 ∨ node = 3 then do
        let s ← shl1 (hu - level - 1)
        let c ← n.getRightChild id level
        let (out, k') ← fastRunsRecDecodeC lg hu n rem out (part ||| s) c (level + 1)
        pure (out, (Cost.node.add k).add (Cost.move.add k'))
      else pure (out, Cost.node.add k)

/-- `fastBinaryTrie::decode` (include/fastBinaryTrie.hpp:415-427). -/
def FastTrie.decodeC (lg : Nat) (t : FastTrie) (pad : Nat) (out : List Nat) : R (List Nat × Cost) :=
  if t.height = 0 then .error .uninit
  else if t.runsEncoded then
    if t.emptyTrie then .ok (out, .zero) else fastRunsRecDecodeC lg t.heightU (t.nav pad) (t.height - 1) out 0 0 0
  else fastRecDecodeC lg t.heightU (t.nav pad) (t.height - 1) out 0 0 0

end CBT
