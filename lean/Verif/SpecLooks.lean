import Verif.Spec

/-!
# Which elements of a set have to be looked at to split it by one bit

Plain definitions on lists of numbers, for the exact count of C65.
-/

namespace CBT.Spec

/-- Whether `x` is looked at when the blocks of `S` of size `2^(k+1)` are split by bit `k`, each from its smallest element on and up to
the first that has the bit: either `x` does not have the bit, or it is the smallest element of its half block. -/
def seenAt (S : List Nat) (k x : Nat) : Bool := decide (x / 2 ^ k % 2 = 0 ∨ ∀ y ∈ S, y < x → y / 2 ^ k ≠ x / 2 ^ k)

/-- How many elements are looked at for the bits `lo, …, lo + n - 1` together. -/
def seenTotal (S : List Nat) (lo n : Nat) : Nat := ((List.range' lo n).map fun k => S.countP (seenAt S k)).sum

end CBT.Spec
