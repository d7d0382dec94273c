import Mathlib.Data.Finset.Card

/-!
# Specifications of the size measures
-/

namespace CBT.Spec

/-- The number of distinct values of the elements without their last `j` bits. -/
def prefixes (S : List Nat) (j : Nat) : Nat := (S.map (· / 2 ^ j)).toFinset.card

/-- The sum of the numbers of distinct prefixes of each length `1..h` of the elements, written with `h` bits. -/
def allPrefixes (S : List Nat) (h : Nat) : Nat := ((List.range h).map (prefixes S)).sum

/-- The aligned block of `2^i` numbers around `x` is contained in `S`. -/
def fullBlock (S : List Nat) (i x : Nat) : Bool := (List.range (2 ^ i)).all fun r => decide (x / 2 ^ i * 2 ^ i + r ∈ S)

/-- No aligned block of `2^i` numbers around `x` with `j < i <= h` and `2 <= i` is contained in `S`. -/
def survives (S : List Nat) (h j x : Nat) : Bool :=
  (List.range (h + 1)).all fun i => decide (i ≤ j ∨ i < 2) || !fullBlock S i x

/-- As `allPrefixes`, counting only the prefixes that are not inside a larger full block (of at least four numbers). -/
def survivingPrefixes (S : List Nat) (h : Nat) : Nat :=
  ((List.range h).map fun j => prefixes (S.filter (survives S h j)) j).sum

end CBT.Spec
