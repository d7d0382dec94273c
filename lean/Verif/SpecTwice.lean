import Verif.SpecCount

/-!
# Specifications for a second run encoding
-/

namespace CBT.Spec

/-- The elements whose aligned block of `2^j` numbers is contained in `S` come after the other elements, block by block. -/
def fullLast (S : List Nat) (j : Nat) : Prop :=
  ∀ x ∈ S, ∀ y ∈ S, x / 2 ^ j < y / 2 ^ j → fullBlock S j x = true → fullBlock S j y = true

/-- The number of aligned blocks of `2^j` numbers that are contained in `S`, while the aligned block of `2^(j+1)` numbers around
them is not. -/
def maxBlocks (S : List Nat) (j : Nat) : Nat :=
  (S.filter fun x => decide (x % 2 ^ j = 0) && fullBlock S j x && !fullBlock S (j + 1) x).length

end CBT.Spec
