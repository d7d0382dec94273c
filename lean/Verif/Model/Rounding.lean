import Verif.Model.Flat
import Verif.Model.Level
import Verif.Model.Fast
import Verif.Model.Measures

/-!
# The constructors and the gap measure with rounded logarithms

`log2` is applied to a `double`: the argument is rounded when it is converted and the result is rounded again. The functions of the
other files take the result to be exact. Here `g x` stands for `floor(log2((double) x))`, whatever the rounding makes of it.
-/

namespace CBT

/-- What is assumed of the conversion and of `log2` of the C library, both external code: they do not reverse the order, and they are
exact on powers of two. This is so in every rounding mode, and for every `log2` whose result is one of the two doubles next to the exact
value. -/
structure RoundedLog (g : Nat → Nat) : Prop where
  mono : ∀ x y, 1 ≤ x → x ≤ y → y ≤ 2 ^ 63 → g x ≤ g y
  pow : ∀ k, k ≤ 63 → g (2 ^ k) = k

/-- The logarithm rounded down of the nearest double, with ties to even: a number of `k + 1` bits is rounded to 53 bits, which may make it
the next power of two. Not a definition of /repo: an instance of `RoundedLog` in which nothing but the conversion is rounded. -/
def nearestLog (x : Nat) : Nat :=
  if 53 ≤ Nat.log2 x ∧ 2 ^ (Nat.log2 x + 1) ≤ x + 2 ^ (Nat.log2 x - 53) then Nat.log2 x + 1 else Nat.log2 x

/-- `floor(log2(u - 1)) + 1` (include/flatBinTrie.hpp:32, include/binTrie.hpp:30, include/fastBinaryTrie.hpp:38). -/
def heightOfG (g : Nat → Nat) (u : Nat) : R Nat :=
  if u ≤ 1 then .error .conv else .ok (g (u - 1) + 1)

/-- `flatBinTrie(set, u)` (include/flatBinTrie.hpp:28-141, include/flatBinTrie_il.hpp:27-143). -/
def flatCtorG (g : Nat → Nat) (set : List Nat) (u : Nat) : R FlatTrie := do
  let n := set.length % 2 ^ 32
  let h ← heightOfG g u
  let mx ← maxNodes h
  let s ← flatLoop set h (2 ^ h)
    { q := [(0, (n + 2 ^ 32 - 1) % 2 ^ 32, n)], level := 0, nodesCurr := 1, count := 0, nodesNext := 0,
      index := 0, total := 0, nodesLast := 0,
      bTrie := List.replicate mx false, lastLevel := List.replicate (2 ^ h) false }
  .ok { height := h, heightWithRuns := 0, runsEncoded := false, emptyTrie := false,
        bTrie := bvResize s.bTrie (s.total - 2 * s.nodesLast),
        lastLevel := bvResize s.lastLevel (2 * s.nodesLast) }

/-- `binTrie(set, u)` (include/binTrie.hpp:28-128, include/binTrie_il.hpp:31-124). -/
def levelCtorG (g : Nat → Nat) (set : List Nat) (u : Nat) : R LevelTrie := do
  let n := set.length
  let h ← heightOfG g u
  if 63 < h then .error .conv
  let s ← levelLoop set h (2 ^ h)
    { q := [(0, (n + 2 ^ 64 - 1) % 2 ^ 64, n)], level := 0, nodesCurr := 1, count := 0, nodesNext := 0, index := 0,
      bTrie := (List.range h).map fun level => List.replicate (2 * 2 ^ level) false }
  .ok { heightWithRuns := 0, runsEncoded := false, emptyTrie := false, bTrie := s.bTrie }

/-- `fastBinaryTrie(set, u)` (include/fastBinaryTrie.hpp:34-148). `sizeof(wordType)*8` is a power of two. -/
def fastCtorG (g : Nat → Nat) (lg : Nat) (junk : FastJunk) (set : List Nat) (u : Nat) : R FastTrie := do
  let n := set.length % 2 ^ 32
  let hu ← heightOfG g u
  if hu + 1 < lg then .error .conv
  let height := hu + 1 - lg
  let mx ← maxNodes hu
  let s ← fastLoop lg set height hu (2 ^ hu)
    { q := [(0, (n + 2 ^ 32 - 1) % 2 ^ 32, n)], level := 0, nodesCurr := 1, count := 0, nodesNext := 0, index := 0,
      bTrie := List.replicate mx false, lastLevel := [] }
  .ok { height := height, heightWithRuns := junk.heightWithRuns, heightU := hu, runsEncoded := false,
        emptyTrie := junk.emptyTrie, bTrie := bvResize s.bTrie s.index, lastLevel := s.lastLevel }

/-- The loop of `Gap` (tools/measures.cpp:26-35). -/
def gapLoopG (g : Nat → Nat) : (prev gap : Nat) → List Nat → Nat
  | _, gap, [] => gap
  | prev, gap, x :: xs =>
    let d := (x + 2 ^ 64 - prev + 2 ^ 64 - 1) % 2 ^ 64
    let d := if d = 0 then 1 else d
    gapLoopG g x ((gap + (g d + 1)) % 2 ^ 64) xs

/-- `Gap` (tools/measures.cpp:15-37). -/
def gapMeasureG (g : Nat → Nat) : List Nat → R Nat
  | [] => .error .oob
  | x :: xs =>
    if 2 ^ 32 ≤ xs.length + 1 then .error .fuel
    else
      let d := if x = 0 then 1 else x
      .ok (gapLoopG g x (g d + 1) xs)

/-- The loop of `Rle` (tools/measures.cpp:58-74). -/
def rleLoopG (g : Nat → Nat) : (x run rle : Nat) → List Nat → Nat
  | _, _, rle, [] => rle
  | x, run, rle, y :: ys =>
    let delta := (y + 2 ^ 64 - x) % 2 ^ 64
    if delta = 1 then rleLoopG g y ((run + 1) % 2 ^ 64) rle ys
    else
      let sub0 := (delta + 2 ^ 64 - 2) % 2 ^ 64
      let sub1 := (run + 2 ^ 64 - 1) % 2 ^ 64
      let sub0 := if sub0 = 0 then 1 else sub0
      let sub1 := if sub1 = 0 then 1 else sub1
      rleLoopG g y 1 ((rle + (g sub0 + 1) + (g sub1 + 1)) % 2 ^ 64) ys

/-- `Rle` (tools/measures.cpp:39-92). -/
def rleMeasureG (g : Nat → Nat) : List Nat → R Nat
  | [] => .error .oob
  | x :: xs => .ok (if x ≠ 0 then rleLoopG g 0 1 0 (x :: xs) else rleLoopG g x 1 0 xs)

end CBT
