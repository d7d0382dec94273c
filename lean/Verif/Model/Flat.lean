import Verif.Model.Basic

/-!
# `flatBinTrie` and `flatBinTrie_il`: construction and navigation

Both classes have the same algorithms; `flatBinTrie_il` only stores `bTrie` in an interleaved bit vector.
-/

namespace CBT

/-- The data members (include/flatBinTrie.hpp:19-22, include/flatBinTrie_il.hpp:18-21, include/binaryTrie.hpp:9-11).
The rank support `b_rank` always refers to `bTrie` and is not a separate field. -/
structure FlatTrie where
  height : Nat
  heightWithRuns : Nat
  runsEncoded : Bool
  emptyTrie : Bool
  bTrie : BV
  lastLevel : BV
  deriving DecidableEq, Repr

/-- Local variables of the constructor's loop (include/flatBinTrie.hpp:41-52). -/
structure FlatSt where
  q : List (Nat × Nat × Nat)
  level : Nat
  nodesCurr : Nat
  count : Nat
  nodesNext : Nat
  index : Nat
  total : Nat
  nodesLast : Nat
  bTrie : BV
  lastLevel : BV
  deriving DecidableEq, Repr

/-- Write one child bit (include/flatBinTrie.hpp:87-103 for the left child, 105-121 for the right child):
a 1 goes to `lastLevel` on the last level and to `bTrie` elsewhere, and the child's range is enqueued;
a 0 only advances `index`. -/
def flatChild (h : Nat) (s : FlatSt) (child : Option (Nat × Nat × Nat)) : R FlatSt :=
  match child with
  | none => .ok { s with index := s.index + 1, total := s.total + 1 }
  | some c => do
    let s ← if s.level + 1 = h then do
              let v ← bvSet s.lastLevel s.index
              pure { s with lastLevel := v }
            else do
              let v ← bvSet s.bTrie s.index
              pure { s with bTrie := v }
    .ok { s with q := s.q ++ [c], nodesNext := s.nodesNext + 1, index := s.index + 1, total := s.total + 1 }

/-- End of a level (include/flatBinTrie.hpp:123-134; `level == height-2` is an `int` comparison). -/
def flatLevelEnd (h : Nat) (s : FlatSt) : FlatSt :=
  if s.count = s.nodesCurr then
    let s := if s.level + 2 = h then { s with nodesLast := s.nodesNext, index := 0 } else s
    { s with nodesCurr := s.nodesNext, nodesNext := 0, count := 0, level := s.level + 1 }
  else s

/-- One iteration of the loop on the range `(l, r)` taken from the queue (include/flatBinTrie.hpp:55-134). -/
def flatStep (set : List Nat) (h : Nat) (s : FlatSt) (l r : Nat) (q : List (Nat × Nat × Nat)) : R FlatSt := do
  let s := { s with count := s.count + 1, q := q }
  let (left, right) ← scan set (h - s.level - 1) ((r + 1) % 2 ^ 64 - l) l 0
  let s ← flatChild h s (if left > 0 then some (l, l + left - 1, left) else none)
  let s ← flatChild h s (right.map fun i => (i, r, r - i + 1))
  .ok (flatLevelEnd h s)

/-- `while (!q.empty()) { ...; if (level == height) break; }` (include/flatBinTrie.hpp:54-136). -/
def flatLoop (set : List Nat) (h : Nat) : (fuel : Nat) → FlatSt → R FlatSt
  | 0, _ => .error .fuel
  | f + 1, s =>
    match s.q with
    | [] => .ok s
    | (l, r, _) :: q => do
      let s ← flatStep set h s l r q
      if s.level = h then .ok s else flatLoop set h f s

/-- Constructor `flatBinTrie(set, u)` (include/flatBinTrie.hpp:28-141, include/flatBinTrie_il.hpp:27-143).
`n` is a `uint32_t`, so `n - 1` wraps for the empty vector. The fuel `2^h` bounds the number of trie nodes. -/
def flatCtor (set : List Nat) (u : Nat) : R FlatTrie := do
  let n := set.length % 2 ^ 32
  let h ← heightOf u
  let mx ← maxNodes h
  let s ← flatLoop set h (2 ^ h)
    { q := [(0, (n + 2 ^ 32 - 1) % 2 ^ 32, n)], level := 0, nodesCurr := 1, count := 0, nodesNext := 0,
      index := 0, total := 0, nodesLast := 0,
      bTrie := List.replicate mx false, lastLevel := List.replicate (2 ^ h) false }
  .ok { height := h, heightWithRuns := 0, runsEncoded := false, emptyTrie := false,
        bTrie := bvResize s.bTrie (s.total - 2 * s.nodesLast),
        lastLevel := bvResize s.lastLevel (2 * s.nodesLast) }

/-- Constructor `flatBinTrie(set)` (include/flatBinTrie.hpp:144-147, include/flatBinTrie_il.hpp:146-149): the
statement `flatBinTrie(set, u);` builds and discards a temporary, and the object itself keeps the values of the
base-class constructor (include/binaryTrie.hpp:13-17), empty bit vectors and an indeterminate height `junk`. -/
def flatCtor1 (junk : Nat) (set : List Nat) : R FlatTrie :=
  match set.getLast? with
  | none => .error .oob
  | some u => do
    let _ ← flatCtor set u
    .ok { height := junk, heightWithRuns := 0, runsEncoded := false, emptyTrie := false, bTrie := [], lastLevel := [] }

/-- `getNode` (include/flatBinTrie.hpp:196-203, include/flatBinTrie_il.hpp:211-217). The subtraction
`2*node_id - bTrie.size()` is unsigned: a negative difference wraps to an index out of every range. -/
def FlatTrie.getNode (t : FlatTrie) (pad : Nat) (id level : Nat) : R Nat :=
  if level + 1 < t.height then do
    let b0 ← bvGet pad t.bTrie (2 * id)
    let b1 ← bvGet pad t.bTrie (2 * id + 1)
    .ok (node2 b0 b1)
  else if 2 * id < t.bTrie.length then .error .oob
  else do
    let b0 ← bvGet pad t.lastLevel (2 * id - t.bTrie.length)
    let b1 ← bvGet pad t.lastLevel (2 * id - t.bTrie.length + 1)
    .ok (node2 b0 b1)

/-- `getLeftChild` (include/flatBinTrie.hpp:206-215, include/flatBinTrie_il.hpp:220-227). -/
def FlatTrie.getLeftChild (t : FlatTrie) (id level : Nat) : R Nat :=
  if t.height ≤ level + 1 then .ok 0 else rank1 t.bTrie (2 * id + 1)

/-- `getRightChild` (include/flatBinTrie.hpp:218-227, include/flatBinTrie_il.hpp:230-235). -/
def FlatTrie.getRightChild (t : FlatTrie) (id level : Nat) : R Nat :=
  if t.height ≤ level + 1 then .ok 0 else rank1 t.bTrie (2 * id + 2)

/-- The flat trie seen through the virtual interface (include/binaryTrie.hpp:20-23,
include/flatBinTrie.hpp:191-227). -/
def FlatTrie.nav (t : FlatTrie) (pad : Nat) : Nav where
  height := t.height
  getNode := t.getNode pad
  getLeftChild := t.getLeftChild
  getRightChild := t.getRightChild

/-- `trieMeasure` (include/flatBinTrie.hpp:461-469, include/flatBinTrie_il.hpp:474-482). -/
def FlatTrie.trieMeasure (t : FlatTrie) : R Nat := do
  let e ← rank1 t.bTrie t.bTrie.length
  .ok (t.lastLevel.foldl (fun n b => if b = true then n + 1 else n) e)

/-- `elements_coded` (include/flatBinTrie_il.hpp:201-208). -/
def FlatTrie.elementsCoded (t : FlatTrie) : Nat :=
  t.lastLevel.foldl (fun n b => if b = true then n + 1 else n) 0

end CBT
