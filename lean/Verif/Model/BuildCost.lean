import Verif.Model.Fast
import Verif.Model.Flat
import Verif.Model.Level

/-!
# What the constructors look at and allocate

The constructors with counters of the reads `set[i]` and of the bits of the bit vectors created. The counters are not in /repo. A copy
of `set` made to pass it, and the queue, are not counted.
-/

namespace CBT

structure BuildCost where
  looks : Nat
  bits : Nat
  deriving DecidableEq, Repr

/-- `scan` (include/flatBinTrie.hpp:68-82, include/binTrie.hpp:64-78, include/fastBinaryTrie.hpp:81-95). -/
def scanC (set : List Nat) (sh : Nat) : (m i left : Nat) → R ((Nat × Option Nat) × Nat)
  | 0, _, left => .ok ((left, none), 0)
  | m + 1, i, left => do
    let x ← vGet set i
    if (x >>> sh) &&& 1 = 1 then .ok ((left, some i), 1)
    else do
      let (p, k) ← scanC set sh m (i + 1) (left + 1)
      .ok (p, k + 1)

/-! ## Flat -/

/-- `flatStep` (include/flatBinTrie.hpp:55-134). -/
def flatStepC (set : List Nat) (h : Nat) (s : FlatSt) (l r : Nat) (q : List (Nat × Nat × Nat)) : R (FlatSt × Nat) := do
  let s := { s with count := s.count + 1, q := q }
  let ((left, right), k) ← scanC set (h - s.level - 1) ((r + 1) % 2 ^ 64 - l) l 0
  let s ← flatChild h s (if left > 0 then some (l, l + left - 1, left) else none)
  let s ← flatChild h s (right.map fun i => (i, r, r - i + 1))
  .ok (flatLevelEnd h s, k)

/-- `flatLoop` (include/flatBinTrie.hpp:54-136). -/
def flatLoopC (set : List Nat) (h : Nat) : (fuel : Nat) → FlatSt → R (FlatSt × Nat)
  | 0, _ => .error .fuel
  | f + 1, s =>
    match s.q with
    | [] => .ok (s, 0)
    | (l, r, _) :: q => do
      let (s, k) ← flatStepC set h s l r q
      if s.level = h then .ok (s, k) else do
        let (s, k') ← flatLoopC set h f s
        .ok (s, k + k')

/-- `flatCtor` (include/flatBinTrie.hpp:28-141, include/flatBinTrie_il.hpp:27-143). The two vectors at lines 38-39. -/
def flatCtorC (set : List Nat) (u : Nat) : R (FlatTrie × BuildCost) := do
  let n := set.length % 2 ^ 32
  let h ← heightOf u
  let mx ← maxNodes h
  let (s, k) ← flatLoopC set h (2 ^ h)
    { q := [(0, (n + 2 ^ 32 - 1) % 2 ^ 32, n)], level := 0, nodesCurr := 1, count := 0, nodesNext := 0,
      index := 0, total := 0, nodesLast := 0,
      bTrie := List.replicate mx false, lastLevel := List.replicate (2 ^ h) false }
  .ok ({ height := h, heightWithRuns := 0, runsEncoded := false, emptyTrie := false,
         bTrie := bvResize s.bTrie (s.total - 2 * s.nodesLast),
         lastLevel := bvResize s.lastLevel (2 * s.nodesLast) }, ⟨k, mx + 2 ^ h⟩)

/-! ## Level-wise -/

/-- `levelStep` (include/binTrie.hpp:51-118, include/binTrie_il.hpp:53-111). -/
def levelStepC (set : List Nat) (h : Nat) (s : LevelSt) (l r : Nat) (q : List (Nat × Nat × Nat)) : R (LevelSt × Nat) := do
  let s := { s with count := s.count + 1, q := q }
  let ((left, right), k) ← scanC set (h - s.level - 1) ((r + 1) % 2 ^ 64 - l) l 0
  let s ← levelChild s (if left > 0 then some (l, l + left - 1, left) else none)
  let s ← levelChild s (right.map fun i => (i, r, r - i + 1))
  let s ← levelLevelEnd s
  .ok (s, k)

/-- `levelLoop` (include/binTrie.hpp:50-122, include/binTrie_il.hpp:52-115). -/
def levelLoopC (set : List Nat) (h : Nat) : (fuel : Nat) → LevelSt → R (LevelSt × Nat)
  | 0, _ => .error .fuel
  | f + 1, s =>
    match s.q with
    | [] => .ok (s, 0)
    | (l, r, _) :: q => do
      let (s, k) ← levelStepC set h s l r q
      if s.level = h then .ok (s, k) else do
        let (s, k') ← levelLoopC set h f s
        .ok (s, k + k')

/-- `levelCtor` (include/binTrie.hpp:28-128, include/binTrie_il.hpp:31-124). The vectors at lines 32-36 of binTrie.hpp; each is copied
into the vector of levels and then destroyed, which is not counted. -/
def levelCtorC (set : List Nat) (u : Nat) : R (LevelTrie × BuildCost) := do
  let n := set.length
  let h ← heightOf u
  if 63 < h then .error .conv
  let (s, k) ← levelLoopC set h (2 ^ h)
    { q := [(0, (n + 2 ^ 64 - 1) % 2 ^ 64, n)], level := 0, nodesCurr := 1, count := 0, nodesNext := 0, index := 0,
      bTrie := (List.range h).map fun level => List.replicate (2 * 2 ^ level) false }
  .ok ({ heightWithRuns := 0, runsEncoded := false, emptyTrie := false, bTrie := s.bTrie },
    ⟨k, ((List.range h).map fun level => 2 * 2 ^ level).sum⟩)

/-! ## Fast -/

/-- `fastWord` (include/fastBinaryTrie.hpp:66-70). -/
def fastWordC (lg : Nat) (set : List Nat) : (m i word : Nat) → R (Nat × Nat)
  | 0, _, word => .ok (word, 0)
  | m + 1, i, word => do
    let x ← vGet set i
    let element := x &&& ((1 <<< lg) - 1)
    let (w, k) ← fastWordC lg set m (i + 1) (word ||| (1 <<< element))
    .ok (w, k + 1)

/-- `fastStep` (include/fastBinaryTrie.hpp:58-143). -/
def fastStepC (lg : Nat) (set : List Nat) (height hu : Nat) (s : FastSt) (l r : Nat) (q : List (Nat × Nat × Nat)) :
    R ((FastSt × Bool) × Nat) := do
  let s := { s with count := s.count + 1, q := q }
  if s.level + 1 = height then
    let (w, k) ← fastWordC lg set ((r + 1) % 2 ^ 64 - l) l 0
    let s := { s with lastLevel := s.lastLevel ++ [w] }
    .ok ((s, decide (s.count = s.nodesCurr) || decide (s.level = height)), k)
  else if hu ≤ s.level then .error .shift
  else
    let ((left, right), k) ← scanC set (hu - s.level - 1) ((r + 1) % 2 ^ 64 - l) l 0
    let s ← fastChild s (if left > 0 then some (l, l + left - 1, left) else none)
    let s ← fastChild s (right.map fun i => (i, r, r - i + 1))
    let s := fastLevelEnd s
    .ok ((s, decide (s.level = height)), k)

/-- `fastLoop` (include/fastBinaryTrie.hpp:57-144). -/
def fastLoopC (lg : Nat) (set : List Nat) (height hu : Nat) : (fuel : Nat) → FastSt → R (FastSt × Nat)
  | 0, _ => .error .fuel
  | f + 1, s =>
    match s.q with
    | [] => .ok (s, 0)
    | (l, r, _) :: q => do
      let ((s, brk), k) ← fastStepC lg set height hu s l r q
      if brk then .ok (s, k) else do
        let (s, k') ← fastLoopC lg set height hu f s
        .ok (s, k + k')

/-- `fastCtor` (include/fastBinaryTrie.hpp:34-148). The vector at line 42. -/
def fastCtorC (lg : Nat) (junk : FastJunk) (set : List Nat) (u : Nat) : R (FastTrie × BuildCost) := do
  let n := set.length % 2 ^ 32
  let hu ← heightOf u
  if hu + 1 < lg then .error .conv
  let height := hu + 1 - lg
  let mx ← maxNodes hu
  let (s, k) ← fastLoopC lg set height hu (2 ^ hu)
    { q := [(0, (n + 2 ^ 32 - 1) % 2 ^ 32, n)], level := 0, nodesCurr := 1, count := 0, nodesNext := 0, index := 0,
      bTrie := List.replicate mx false, lastLevel := [] }
  .ok ({ height := height, heightWithRuns := junk.heightWithRuns, heightU := hu, runsEncoded := false,
         emptyTrie := junk.emptyTrie, bTrie := bvResize s.bTrie s.index, lastLevel := s.lastLevel }, ⟨k, mx⟩)

end CBT
