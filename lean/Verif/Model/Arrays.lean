import Verif.Model.Runs

/-!
# Flat tries made from arrays
-/

namespace CBT

/-- Constructor `flatBinTrie(ones_to_write, height, level_pos, runs_encoded)` (include/flatBinTrie.hpp:150-188,
include/flatBinTrie_il.hpp:152-193): `ones` lists the positions of the ones of every level, `pos` the numbers of bits of the levels. The
arrays must have `height` entries. Simplification: sums do not wrap, which only matters for level sizes of 2^64 in total and for height 0
with `level_pos[0] > 0`. -/
def flatOfArrays (ones : List (List Nat)) (height : Nat) (pos : List Nat) (runs : Bool) : R FlatTrie := do
  if ones.length < height ∨ pos.length < height then .error .oob
  let used := pos.take height
  let last := lastNonEmpty used 0 0
  let p ← vGet pos last
  let (b, l) ← flatWriteLoop last ((ones.zip pos).take height) 0 0 (List.replicate (used.sum - p) false) (List.replicate p false)
  .ok { height := height, heightWithRuns := last + 1, runsEncoded := runs, emptyTrie := decide (used.count 0 = height),
        bTrie := b, lastLevel := l }

end CBT
