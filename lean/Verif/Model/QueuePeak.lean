import Verif.Model.Fast
import Verif.Model.Flat
import Verif.Model.Level

/-!
# How long the constructors' queue gets

The constructors with a record of the greatest length of the queue `q` of ranges. The record is not in /repo. Within one iteration the
queue loses its first range before it gains the children, so that it is longest before the iteration or after it.
-/

namespace CBT

/-- `flatLoop` (include/flatBinTrie.hpp:54-136). -/
def flatLoopQ (set : List Nat) (h : Nat) : (fuel : Nat) → FlatSt → R (FlatSt × Nat)
  | 0, _ => .error .fuel
  | f + 1, s =>
    match s.q with
    | [] => .ok (s, 0)
    | (l, r, _) :: q => do
      let s' ← flatStep set h s l r q
      if s'.level = h then .ok (s', max (q.length + 1) s'.q.length) else do
        let (s'', k) ← flatLoopQ set h f s'
        .ok (s'', max (q.length + 1) k)

/-- `flatCtor` (include/flatBinTrie.hpp:28-141, include/flatBinTrie_il.hpp:27-143). -/
def flatCtorQ (set : List Nat) (u : Nat) : R (FlatTrie × Nat) := do
  let n := set.length % 2 ^ 32
  let h ← heightOf u
  let mx ← maxNodes h
  let (s, k) ← flatLoopQ set h (2 ^ h)
    { q := [(0, (n + 2 ^ 32 - 1) % 2 ^ 32, n)], level := 0, nodesCurr := 1, count := 0, nodesNext := 0,
      index := 0, total := 0, nodesLast := 0,
      bTrie := List.replicate mx false, lastLevel := List.replicate (2 ^ h) false }
  .ok ({ height := h, heightWithRuns := 0, runsEncoded := false, emptyTrie := false,
         bTrie := bvResize s.bTrie (s.total - 2 * s.nodesLast),
         lastLevel := bvResize s.lastLevel (2 * s.nodesLast) }, k)

/-- `levelLoop` (include/binTrie.hpp:50-122, include/binTrie_il.hpp:52-115). -/
def levelLoopQ (set : List Nat) (h : Nat) : (fuel : Nat) → LevelSt → R (LevelSt × Nat)
  | 0, _ => .error .fuel
  | f + 1, s =>
    match s.q with
    | [] => .ok (s, 0)
    | (l, r, _) :: q => do
      let s' ← levelStep set h s l r q
      if s'.level = h then .ok (s', max (q.length + 1) s'.q.length) else do
        let (s'', k) ← levelLoopQ set h f s'
        .ok (s'', max (q.length + 1) k)

/-- `levelCtor` (include/binTrie.hpp:28-128, include/binTrie_il.hpp:31-124). -/
def levelCtorQ (set : List Nat) (u : Nat) : R (LevelTrie × Nat) := do
  let n := set.length
  let h ← heightOf u
  if 63 < h then .error .conv
  let (s, k) ← levelLoopQ set h (2 ^ h)
    { q := [(0, (n + 2 ^ 64 - 1) % 2 ^ 64, n)], level := 0, nodesCurr := 1, count := 0, nodesNext := 0, index := 0,
      bTrie := (List.range h).map fun level => List.replicate (2 * 2 ^ level) false }
  .ok ({ heightWithRuns := 0, runsEncoded := false, emptyTrie := false, bTrie := s.bTrie }, k)

/-- `fastLoop` (include/fastBinaryTrie.hpp:57-144). -/
def fastLoopQ (lg : Nat) (set : List Nat) (height hu : Nat) : (fuel : Nat) → FastSt → R (FastSt × Nat)
  | 0, _ => .error .fuel
  | f + 1, s =>
    match s.q with
    | [] => .ok (s, 0)
    | (l, r, _) :: q => do
      let (s', brk) ← fastStep lg set height hu s l r q
      if brk then .ok (s', max (q.length + 1) s'.q.length) else do
        let (s'', k) ← fastLoopQ lg set height hu f s'
        .ok (s'', max (q.length + 1) k)

/-- `fastCtor` (include/fastBinaryTrie.hpp:34-148). -/
def fastCtorQ (lg : Nat) (junk : FastJunk) (set : List Nat) (u : Nat) : R (FastTrie × Nat) := do
  let n := set.length % 2 ^ 32
  let hu ← heightOf u
  if hu + 1 < lg then .error .conv
  let height := hu + 1 - lg
  let mx ← maxNodes hu
  let (s, k) ← fastLoopQ lg set height hu (2 ^ hu)
    { q := [(0, (n + 2 ^ 32 - 1) % 2 ^ 32, n)], level := 0, nodesCurr := 1, count := 0, nodesNext := 0, index := 0,
      bTrie := List.replicate mx false, lastLevel := [] }
  .ok ({ height := height, heightWithRuns := junk.heightWithRuns, heightU := hu, runsEncoded := false,
         emptyTrie := junk.emptyTrie, bTrie := bvResize s.bTrie s.index, lastLevel := s.lastLevel }, k)

end CBT
