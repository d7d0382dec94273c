import Verif.SpecAdaptive

/-!
# How large the trie of a set is
-/

namespace CBT.Spec

/-- The number of maximal runs of consecutive elements: of elements whose predecessor is not an element. -/
def runCount (S : List Nat) : Nat := (S.filter fun x => decide (x = 0 ∨ x - 1 ∉ S)).length

/-- The number of blocks of size `2^j` (of `{0, …, 2^t - 1}`) with an element; of a run-encoded set without those inside a larger block
all of whose numbers are elements. -/
def storedAt (runs : Bool) (S : List Nat) (t j : Nat) : Nat :=
  ((List.range (2 ^ (t - j))).filter fun k => (S.any fun x => decide (x / 2 ^ j = k)) &&
    !(runs && (List.range (t - j)).any fun i =>
      (List.range (2 ^ (j + 1 + i))).all fun y => decide (k / 2 ^ (i + 1) * 2 ^ (j + 1 + i) + y ∈ S))).length

/-- The number of those larger than `2^b`. -/
def storedAbove (runs : Bool) (S : List Nat) (t b : Nat) : Nat := ((List.range (t - b)).map fun i => storedAt runs S t (b + 1 + i)).sum

end CBT.Spec
