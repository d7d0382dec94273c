import Verif.Model.Fast

/-!
# A client of the navigation methods

Not code of the repository: what a caller of `getNode`, `getLeftChild`, `getRightChild` and `getWord` (include/binaryTrie.hpp:20-23,
include/fastBinaryTrie.hpp:173-175) would write to look up one number. It follows the bits of `x` from the root; with `runs`, a node
without children stands for a full block.
-/

namespace CBT.Spec

open CBT

/-- Below a node at `level`, with `rem` levels of nodes above the leaves; a leaf stands for `2^b` numbers. -/
def lookupFrom (n : Nav) (runs : Bool) (leaf : (node level : Nat) → R Bool) (b x : Nat) : (rem level node : Nat) → R Bool
  | 0, level, node => leaf node level
  | rem + 1, level, node => do
    let v ← n.getNode node level
    if runs ∧ v = 0 then .ok true
    else if x.testBit (rem + b) then
      if v.testBit 0 then do
        let c ← n.getRightChild node level
        lookupFrom n runs leaf b x rem (level + 1) c
      else .ok false
    else if v.testBit 1 then do
      let c ← n.getLeftChild node level
      lookupFrom n runs leaf b x rem (level + 1) c
    else .ok false

/-- Flat and level-wise tries: the last level has nodes like the others. -/
def lookup (n : Nav) (runs : Bool) (x : Nat) : R Bool :=
  lookupFrom n runs (fun node level => do let v ← n.getNode node level; .ok (v.testBit (1 - x % 2))) 1 x (n.height - 1) 0 0

/-- Fast tries: the last level has words of `2^lg` bits. -/
def fastLookup (lg : Nat) (n : FNav) (runs : Bool) (x : Nat) : R Bool :=
  lookupFrom n.toNav runs (fun node _ => do let w ← n.getWord node; .ok (w.testBit (x % 2 ^ lg))) lg x (n.height - 1) 0 0

end CBT.Spec
