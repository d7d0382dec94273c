import Verif.Model.Basic

/-!
# `binTrie` and `binTrie_il`: the level-wise tries
-/

namespace CBT

/-- The data members (include/binTrie.hpp:20-21, include/binTrie_il.hpp:19-20, include/binaryTrie.hpp:9-11).
`bv_rank[i]` always refers to `bTrie[i]` for `i < height - 1` and is not a separate field. -/
structure LevelTrie where
  heightWithRuns : Nat
  runsEncoded : Bool
  emptyTrie : Bool
  bTrie : List BV
  deriving DecidableEq, Repr

/-- Local variables of the constructor's loop (include/binTrie.hpp:38-48). -/
structure LevelSt where
  q : List (Nat × Nat × Nat)
  level : Nat
  nodesCurr : Nat
  count : Nat
  nodesNext : Nat
  index : Nat
  bTrie : List BV
  deriving DecidableEq, Repr

/-- Write one child bit (include/binTrie.hpp:81-94 left, 96-108 right; include/binTrie_il.hpp:82-102). -/
def levelChild (s : LevelSt) (child : Option (Nat × Nat × Nat)) : R LevelSt :=
  match child with
  | none => .ok { s with index := s.index + 1 }
  | some c => do
    let lv ← vGet s.bTrie s.level
    let lv ← bvSet lv s.index
    .ok { s with bTrie := s.bTrie.set s.level lv, q := s.q ++ [c], nodesNext := s.nodesNext + 1,
                 index := s.index + 1 }

/-- End of a level (include/binTrie.hpp:110-118, include/binTrie_il.hpp:104-111). -/
def levelLevelEnd (s : LevelSt) : R LevelSt :=
  if s.count = s.nodesCurr then do
    let lv ← vGet s.bTrie s.level
    .ok { s with bTrie := s.bTrie.set s.level (bvResize lv (2 * s.count)),
                 nodesCurr := s.nodesNext, nodesNext := 0, count := 0, index := 0, level := s.level + 1 }
  else .ok s

/-- One iteration on the range `(l, r)` (include/binTrie.hpp:51-118, include/binTrie_il.hpp:53-111). -/
def levelStep (set : List Nat) (h : Nat) (s : LevelSt) (l r : Nat) (q : List (Nat × Nat × Nat)) : R LevelSt := do
  let s := { s with count := s.count + 1, q := q }
  let (left, right) ← scan set (h - s.level - 1) ((r + 1) % 2 ^ 64 - l) l 0
  let s ← levelChild s (if left > 0 then some (l, l + left - 1, left) else none)
  let s ← levelChild s (right.map fun i => (i, r, r - i + 1))
  levelLevelEnd s

/-- `while (!q.empty()) { ...; if (level == height) break; }` (include/binTrie.hpp:50-122; in
include/binTrie_il.hpp:52-115 the test is also part of the loop condition, with the same effect). -/
def levelLoop (set : List Nat) (h : Nat) : (fuel : Nat) → LevelSt → R LevelSt
  | 0, _ => .error .fuel
  | f + 1, s =>
    match s.q with
    | [] => .ok s
    | (l, r, _) :: q => do
      let s ← levelStep set h s l r q
      if s.level = h then .ok s else levelLoop set h f s

/-- Constructor `binTrie(set, u)` (include/binTrie.hpp:28-128, include/binTrie_il.hpp:31-124).
`n` is a `uint64_t` here. `2 * pow(2, level)` fits a `uint64_t` for every level below a height of at most 63. -/
def levelCtor (set : List Nat) (u : Nat) : R LevelTrie := do
  let n := set.length
  let h ← heightOf u
  if 63 < h then .error .conv
  let s ← levelLoop set h (2 ^ h)
    { q := [(0, (n + 2 ^ 64 - 1) % 2 ^ 64, n)], level := 0, nodesCurr := 1, count := 0, nodesNext := 0, index := 0,
      bTrie := (List.range h).map fun level => List.replicate (2 * 2 ^ level) false }
  .ok { heightWithRuns := 0, runsEncoded := false, emptyTrie := false, bTrie := s.bTrie }

/-- Constructor `binTrie(set)` (include/binTrie.hpp:131-134, include/binTrie_il.hpp:127-130): builds and discards a
temporary; the object itself stays empty. -/
def levelCtor1 (set : List Nat) : R LevelTrie :=
  match set.getLast? with
  | none => .error .oob
  | some u => do
    let _ ← levelCtor set u
    .ok { heightWithRuns := 0, runsEncoded := false, emptyTrie := false, bTrie := [] }

/-- `getHeight` (include/binTrie.hpp:157-159, include/binTrie_il.hpp:138-140). -/
def LevelTrie.height (t : LevelTrie) : Nat := t.bTrie.length

/-- `getNode` (include/binTrie.hpp:152-154, include/binTrie_il.hpp:133-135). -/
def LevelTrie.getNode (t : LevelTrie) (pad : Nat) (id level : Nat) : R Nat := do
  let lv ← vGet t.bTrie level
  let b0 ← bvGet pad lv (2 * id)
  let b1 ← bvGet pad lv (2 * id + 1)
  .ok (node2 b0 b1)

/-- `binTrie::getLeftChild` (include/binTrie.hpp:162-167). -/
def LevelTrie.getLeftChild (t : LevelTrie) (id level : Nat) : R Nat :=
  if t.height ≤ level + 1 then .ok 0 else do
    let lv ← vGet t.bTrie level
    rank1 lv (2 * id)

/-- `binTrie::getRightChild` (include/binTrie.hpp:170-175). -/
def LevelTrie.getRightChild (t : LevelTrie) (id level : Nat) : R Nat :=
  if t.height ≤ level + 1 then .ok 0 else do
    let lv ← vGet t.bTrie level
    rank1 lv (2 * id + 1)

/-- `binTrie_il::getLeftChild` (include/binTrie_il.hpp:143-148); the subtraction is on `uint64_t`. -/
def LevelTrie.getLeftChildIl (t : LevelTrie) (id level : Nat) : R Nat :=
  if t.height ≤ level + 1 then .ok 0 else do
    let lv ← vGet t.bTrie level
    let k ← rank1 lv (2 * id + 1)
    .ok ((k + 2 ^ 64 - 1) % 2 ^ 64)

/-- `binTrie_il::getRightChild` (include/binTrie_il.hpp:151-156). -/
def LevelTrie.getRightChildIl (t : LevelTrie) (id level : Nat) : R Nat :=
  if t.height ≤ level + 1 then .ok 0 else do
    let lv ← vGet t.bTrie level
    let k ← rank1 lv (2 * id + 1 + 1)
    .ok ((k + 2 ^ 64 - 1) % 2 ^ 64)

/-- The level-wise trie seen through the virtual interface; `il` selects `binTrie_il`
(include/binTrie.hpp:152-175, include/binTrie_il.hpp:133-156). -/
def LevelTrie.nav (t : LevelTrie) (il : Bool) (pad : Nat) : Nav where
  height := t.height
  getNode := t.getNode pad
  getLeftChild := if il then t.getLeftChildIl else t.getLeftChild
  getRightChild := if il then t.getRightChildIl else t.getRightChild

end CBT
