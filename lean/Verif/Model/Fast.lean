import Verif.Model.Basic

/-!
# `fastBinaryTrie`: construction and navigation

The class is a template over the word type. `lg` is `log2(sizeof(wordType)*8)`, one of 3, 4, 5, 6, and words are
natural numbers below `2^(2^lg)`.
-/

namespace CBT

/-- The data members (include/fastBinaryTrie.hpp:21-28). -/
structure FastTrie where
  height : Nat
  heightWithRuns : Nat
  heightU : Nat
  runsEncoded : Bool
  emptyTrie : Bool
  bTrie : BV
  lastLevel : List Nat
  deriving DecidableEq, Repr

/-- Local variables of the constructor's loop (include/fastBinaryTrie.hpp:44-55). -/
structure FastSt where
  q : List (Nat × Nat × Nat)
  level : Nat
  nodesCurr : Nat
  count : Nat
  nodesNext : Nat
  index : Nat
  bTrie : BV
  lastLevel : List Nat
  deriving DecidableEq, Repr

/-- The word of a last-level range (include/fastBinaryTrie.hpp:66-70): `m` elements from index `i` on. -/
def fastWord (lg : Nat) (set : List Nat) : (m i word : Nat) → R Nat
  | 0, _, word => .ok word
  | m + 1, i, word => do
    let x ← vGet set i
    let element := x &&& ((1 <<< lg) - 1)
    fastWord lg set m (i + 1) (word ||| (1 <<< element))

/-- Write one child bit (include/fastBinaryTrie.hpp:100-114 left, 116-130 right). -/
def fastChild (s : FastSt) (child : Option (Nat × Nat × Nat)) : R FastSt :=
  match child with
  | none => .ok { s with index := s.index + 1 }
  | some c => do
    let v ← bvSet s.bTrie s.index
    .ok { s with bTrie := v, q := s.q ++ [c], nodesNext := s.nodesNext + 1, index := s.index + 1 }

/-- End of a level (include/fastBinaryTrie.hpp:132-141; `nodes_last_level` and `total_nodes` are never used). -/
def fastLevelEnd (s : FastSt) : FastSt :=
  if s.count = s.nodesCurr then
    { s with nodesCurr := s.nodesNext, nodesNext := 0, count := 0, level := s.level + 1 }
  else s

/-- One iteration on the range `(l, r)` (include/fastBinaryTrie.hpp:58-143); the flag says that the loop is left
by `break`. `height` is the field, `hu` is `height_u`; the shift `j - 1` with `j = height_u - level` is undefined
once `level` reaches `height_u`. -/
def fastStep (lg : Nat) (set : List Nat) (height hu : Nat) (s : FastSt) (l r : Nat) (q : List (Nat × Nat × Nat)) :
    R (FastSt × Bool) := do
  let s := { s with count := s.count + 1, q := q }
  if s.level + 1 = height then
    let w ← fastWord lg set ((r + 1) % 2 ^ 64 - l) l 0
    let s := { s with lastLevel := s.lastLevel ++ [w] }
    .ok (s, decide (s.count = s.nodesCurr) || decide (s.level = height))
  else if hu ≤ s.level then .error .shift
  else
    let (left, right) ← scan set (hu - s.level - 1) ((r + 1) % 2 ^ 64 - l) l 0
    let s ← fastChild s (if left > 0 then some (l, l + left - 1, left) else none)
    let s ← fastChild s (right.map fun i => (i, r, r - i + 1))
    let s := fastLevelEnd s
    .ok (s, decide (s.level = height))

/-- The loop (include/fastBinaryTrie.hpp:57-144). -/
def fastLoop (lg : Nat) (set : List Nat) (height hu : Nat) : (fuel : Nat) → FastSt → R FastSt
  | 0, _ => .error .fuel
  | f + 1, s =>
    match s.q with
    | [] => .ok s
    | (l, r, _) :: q => do
      let (s, brk) ← fastStep lg set height hu s l r q
      if brk then .ok s else fastLoop lg set height hu f s

/-- Values of the members that no constructor initialises (include/fastBinaryTrie.hpp:21-25, 31, 34). -/
structure FastJunk where
  height : Nat
  heightWithRuns : Nat
  heightU : Nat
  runsEncoded : Bool
  emptyTrie : Bool
  deriving DecidableEq, Repr

/-- Constructor `fastBinaryTrie(set, u)` (include/fastBinaryTrie.hpp:34-148): `height` is
`height_u - floor(log2(W)) + 1` computed in double and converted to `uint16_t`, out of range when negative.
`empty_trie` and `height_with_runs` are left indeterminate (`junk`). -/
def fastCtor (lg : Nat) (junk : FastJunk) (set : List Nat) (u : Nat) : R FastTrie := do
  let n := set.length % 2 ^ 32
  let hu ← heightOf u
  if hu + 1 < lg then .error .conv
  let height := hu + 1 - lg
  let mx ← maxNodes hu
  let s ← fastLoop lg set height hu (2 ^ hu)
    { q := [(0, (n + 2 ^ 32 - 1) % 2 ^ 32, n)], level := 0, nodesCurr := 1, count := 0, nodesNext := 0, index := 0,
      bTrie := List.replicate mx false, lastLevel := [] }
  .ok { height := height, heightWithRuns := junk.heightWithRuns, heightU := hu, runsEncoded := false,
        emptyTrie := junk.emptyTrie, bTrie := bvResize s.bTrie s.index, lastLevel := s.lastLevel }

/-- Default constructor (include/fastBinaryTrie.hpp:31): nothing but the vectors is initialised. -/
def fastDefault (junk : FastJunk) : FastTrie :=
  { height := junk.height, heightWithRuns := junk.heightWithRuns, heightU := junk.heightU,
    runsEncoded := junk.runsEncoded, emptyTrie := junk.emptyTrie, bTrie := [], lastLevel := [] }

/-- Constructor `fastBinaryTrie(set)` (include/fastBinaryTrie.hpp:151-154): builds and discards a temporary. -/
def fastCtor1 (lg : Nat) (junk : FastJunk) (set : List Nat) : R FastTrie :=
  match set.getLast? with
  | none => .error .oob
  | some u => do
    let _ ← fastCtor lg junk set u
    .ok (fastDefault junk)

/-- `getNode` (include/fastBinaryTrie.hpp:162-170). -/
def FastTrie.getNode (t : FastTrie) (pad : Nat) (id _level : Nat) : R Nat := do
  let b0 ← bvGet pad t.bTrie (2 * id)
  let b1 ← bvGet pad t.bTrie (2 * id + 1)
  .ok (node2 b0 b1)

/-- `getWord` (include/fastBinaryTrie.hpp:172-174); the unsigned difference wraps when negative. -/
def FastTrie.getWord (t : FastTrie) (id : Nat) : R Nat :=
  if id < t.bTrie.length / 2 then .error .oob else vGet t.lastLevel (id - t.bTrie.length / 2)

/-- `getLeftChild` (include/fastBinaryTrie.hpp:177-182). -/
def FastTrie.getLeftChild (t : FastTrie) (id level : Nat) : R Nat :=
  if t.height ≤ level + 1 then .ok 0 else rank1 t.bTrie (2 * id + 1)

/-- `getRightChild` (include/fastBinaryTrie.hpp:185-191). -/
def FastTrie.getRightChild (t : FastTrie) (id level : Nat) : R Nat :=
  if t.height ≤ level + 1 then .ok 0 else rank1 t.bTrie (2 * id + 2)

/-- Navigation interface of a fast trie: the methods used by decoding and intersecting
(include/fastBinaryTrie.hpp:157-191). -/
structure FNav extends Nav where
  getWord : (nodeId : Nat) → R Nat

/-- include/fastBinaryTrie.hpp:157-191. -/
def FastTrie.nav (t : FastTrie) (pad : Nat) : FNav where
  height := t.height
  getNode := t.getNode pad
  getLeftChild := t.getLeftChild
  getRightChild := t.getRightChild
  getWord := t.getWord

/-- `__builtin_ctzll(w)` for `w != 0` (include/fastBinaryTrie.hpp:356): index of the lowest set bit. -/
def ctz : (fuel w : Nat) → Nat
  | 0, _ => 0
  | f + 1, w => if w % 2 = 1 then 0 else ctz f (w / 2) + 1

/-- `while (w != 0) { t = w & (~w + 1); r = ctz(w); push(r + prefix); w ^= t; }`
(include/fastBinaryTrie.hpp:355-360, 381-386; src/fastTrieIntersection.cpp:53-58, 148-153) on words of `2^lg` bits. -/
def emitWord (lg : Nat) (pref : Nat) : (fuel w : Nat) → (out : List Nat) → R (List Nat)
  | 0, w, out => if w = 0 then .ok out else .error .fuel
  | f + 1, w, out =>
    if w = 0 then .ok out
    else
      let t := w &&& ((2 ^ 2 ^ lg - 1 - w + 1) % 2 ^ 2 ^ lg)
      let r := ctz 64 w
      emitWord lg pref f (w ^^^ t) (out ++ [r + pref])

end CBT
