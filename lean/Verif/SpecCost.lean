import Verif.SpecRuns

/-!
# The part of the universe that sets share

Blocks are aligned: block `k` of size `2^j` is `{k 2^j, …, (k+1) 2^j - 1}`. The universe is `2^t`.
-/

namespace CBT.Spec

/-- The number of blocks of size `2^j` that every set meets. -/
def commonCount (sets : List (List Nat)) (t j : Nat) : Nat := (commonBlocks sets j (t - j)).length

/-- The number of those that have a half that every set meets. -/
def forkCount (sets : List (List Nat)) (t j : Nat) : Nat :=
  ((commonBlocks sets j (t - j)).filter fun k => decide (commonHalves sets (j - 1) k ≠ 0)).length

/-- The number of blocks larger than `2^b` that every set meets. -/
def commonAbove (sets : List (List Nat)) (t b : Nat) : Nat := ((List.range (t - b)).map fun i => commonCount sets t (b + 1 + i)).sum

/-- The number of those that have a half that every set meets. -/
def forksAbove (sets : List (List Nat)) (t b : Nat) : Nat := ((List.range (t - b)).map fun i => forkCount sets t (b + 1 + i)).sum

/-! With the information which tries were run-encoded: -/

/-- The number of sets no larger block around the block is collapsed of. -/
def openCount (cs : List (Bool × List Nat)) (t j k : Nat) : Nat := cs.countP fun c => exposed [c] t j k

/-- Those, added up over the blocks of size `2^j` that every set meets. -/
def openAt (cs : List (Bool × List Nat)) (t j : Nat) : Nat := ((commonBlocks (cs.map Prod.snd) j (t - j)).map (openCount cs t j)).sum

/-- The same for the blocks with a half that every set meets, without the sets the block itself is collapsed of. -/
def openForkAt (cs : List (Bool × List Nat)) (t j : Nat) : Nat :=
  (((commonBlocks (cs.map Prod.snd) j (t - j)).filter fun k => decide (commonHalves (cs.map Prod.snd) (j - 1) k ≠ 0)).map
    fun k => openCount cs t (j - 1) (2 * k)).sum

/-- Added up over the blocks larger than `2^b`. -/
def openAbove (cs : List (Bool × List Nat)) (t b : Nat) : Nat := ((List.range (t - b)).map fun i => openAt cs t (b + 1 + i)).sum

def openForksAbove (cs : List (Bool × List Nat)) (t b : Nat) : Nat := ((List.range (t - b)).map fun i => openForkAt cs t (b + 1 + i)).sum

end CBT.Spec
