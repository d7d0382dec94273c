import Verif.SpecRuns

/-!
# What a plain traversal sees of a run-encoded set

Full aligned blocks of `2^j` numbers of a run-encoded set are not seen: `j = 2` for flat and level-wise tries, one more than the logarithm
of the word size for fast tries.
-/

namespace CBT.Spec

/-- The elements outside the collapsed blocks of size `2^j`; all of them if the set is not run-encoded. -/
def outside (j : Nat) (c : Bool × List Nat) : List Nat := c.2.filter fun x => !collapsed c j (x / 2 ^ j)

end CBT.Spec
