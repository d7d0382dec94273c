import Verif.Spec

/-!
# Tasks of a parallel intersection, in terms of the sets
-/

namespace CBT.Spec

/-- Every set has an element in the aligned block `k` of size `2^j`. -/
def meetsAll (sets : List (List Nat)) (j k : Nat) : Bool := sets.all fun S => S.any fun x => decide (x / 2 ^ j = k)

/-- The blocks of size `2^j` below `2^(j+m)` that every set meets. -/
def commonBlocks (sets : List (List Nat)) (j m : Nat) : List Nat := (List.range (2 ^ m)).filter (meetsAll sets j)

/-- The number of halves of block `k` of size `2^(j+1)` that every set meets. -/
def commonHalves (sets : List (List Nat)) (j k : Nat) : Nat :=
  (if meetsAll sets j (2 * k) then 1 else 0) + (if meetsAll sets j (2 * k + 1) then 1 else 0)

/-- Tasks are replaced by their halves, from the first on, while more than one of `n` threads has no task; `used` threads have
one, the tasks have `cs` halves. The number of tasks replaced. -/
def replaced (n : Nat) : (used : Nat) → (cs : List Nat) → Nat
  | _, [] => 0
  | used, c :: cs => if used + 1 < n then 1 + replaced n (used + c - 1) cs else 0

/-- The number of tasks after that. -/
def threadCount (n : Nat) : (used : Nat) → (cs : List Nat) → Nat
  | used, [] => used
  | used, c :: cs => if used + 1 < n then threadCount n (used + c - 1) cs else used

end CBT.Spec
