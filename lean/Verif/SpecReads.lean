import Verif.SpecCost
import Verif.SpecUnreadPar

/-!
# The part of the universe that a run-aware parallel intersection looks at

`J` is the size of the blocks handed to threads, `2^cut` the number of threads; the universe is `2^(J + cut)`. A set comes with the
information whether its trie was run-encoded.
-/

namespace CBT.Spec

/-- The visited blocks of size `2^i`, each as often as there are sets no larger block around it is collapsed of. -/
def visitedAt (cs : List (Bool × List Nat)) (J cut i : Nat) : Nat :=
  (((List.range (2 ^ (J + cut - i))).filter (visited cs J cut i)).map (openCount cs (J + cut) i)).sum

/-- Those with a visited half, each as often as there are sets neither it nor a larger block around it is collapsed of. -/
def visitedForkAt (cs : List (Bool × List Nat)) (J cut i : Nat) : Nat :=
  (((List.range (2 ^ (J + cut - i))).filter fun k => visited cs J cut (i - 1) (2 * k) || visited cs J cut (i - 1) (2 * k + 1)).map
    fun k => openCount cs (J + cut) (i - 1) (2 * k)).sum

/-- Added up over the blocks larger than `2^b`. -/
def visitedAbove (cs : List (Bool × List Nat)) (J cut b : Nat) : Nat :=
  ((List.range (J + cut - b)).map fun i => visitedAt cs J cut (b + 1 + i)).sum

def visitedForksAbove (cs : List (Bool × List Nat)) (J cut b : Nat) : Nat :=
  ((List.range (J + cut - b)).map fun i => visitedForkAt cs J cut (b + 1 + i)).sum

end CBT.Spec
