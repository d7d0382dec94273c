import Verif.SpecRuns
import Verif.SpecUnreadable

/-!
# Which blocks a run-aware parallel intersection looks at
-/

namespace CBT.Spec

/-- The call reads the nodes of the tries for block `n` of size `2^i`: every set meets the block, and no larger block around it is
collapsed in any trie; where the blocks that are not larger than those handed to threads, or than their halves if they were replaced by
their halves, may be collapsed, since threads go on with the other tries. `2^j` is the size of the blocks handed to the `2^cut` threads. -/
def visited (cs : List (Bool × List Nat)) (j cut i n : Nat) : Bool :=
  let m := max i (if isSplit cs j cut (n * 2 ^ i / 2 ^ j) then j - 1 else j)
  exposed cs (j + cut) m (n * 2 ^ i / 2 ^ m) && meetsAll (cs.map Prod.snd) i n

end CBT.Spec
