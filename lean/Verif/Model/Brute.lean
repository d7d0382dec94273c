import Verif.Model.Basic

/-!
# The reference intersection used by the tests
-/

namespace CBT

/-- `std::sort` with the comparison of sizes (src/intersection.cpp:26-30, src/fastTrieIntersection.cpp:21-25): the result is a
permutation of the vectors in which sizes do not decrease. The sort is not stable: any such permutation may come out. -/
structure SortedBySize (S S' : List (List Nat)) : Prop where
  perm : S'.Perm S
  sizes : S'.Pairwise fun a b => a.length ≤ b.length

/-- `std::set_intersection` with `back_inserter` (src/intersection.cpp:36-38): the usual merge of two sorted ranges. -/
def setIntersection : List Nat → List Nat → List Nat
  | [], _ => []
  | _ :: _, [] => []
  | a :: as, b :: bs =>
    if a < b then setIntersection as (b :: bs)
    else if b < a then setIntersection (a :: as) bs
    else a :: setIntersection as bs
  termination_by as bs => as.length + bs.length

/-- The loop over the remaining vectors (src/intersection.cpp:34-40, src/fastTrieIntersection.cpp:29-35). `i` is a `uint16_t`,
`k` a `uint64_t`; `fuel` bounds the number of iterations. -/
def bruteLoop (S : List (List Nat)) : (fuel i : Nat) → List Nat → R (List Nat)
  | fuel, i, acc =>
    if i < S.length then
      match fuel with
      | 0 => .error .fuel
      | fuel + 1 => do
        let s ← vGet S i
        bruteLoop S fuel ((i + 1) % 2 ^ 16) (setIntersection acc s)
    else .ok acc

/-- `forceBruteIntersection` (src/intersection.cpp:25-42, src/fastTrieIntersection.cpp:20-37) after the sort has left `S` in the
argument. -/
def forceBrute (fuel : Nat) (S : List (List Nat)) : R (List Nat) := do
  let s ← vGet S 0
  bruteLoop S fuel 1 s

end CBT
