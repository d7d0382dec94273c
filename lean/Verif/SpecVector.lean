import Verif.Spec

/-!
# What a constructor sees of a vector in any order

A constructor splits a vector at the first element whose leading bit is 1 and takes everything from there on for numbers with that
bit, then goes on with the next bit in both parts. Within blocks of `2^w` numbers the order does not matter (fast tries: words).
-/

namespace CBT.Spec

/-- The numbers below `2^(d + w)` that are seen of a vector; `w = 0` for flat and level-wise tries, the logarithm of the word size for
fast tries. -/
def seen (w : Nat) : (d : Nat) → List Nat → List Nat
  | 0, v => (List.range (2 ^ w)).filter fun y => v.any fun x => x % 2 ^ w == y
  | d + 1, v =>
    seen w d (v.takeWhile fun x => !x.testBit (d + w)) ++
      (seen w d (v.dropWhile fun x => !x.testBit (d + w))).map (2 ^ (d + w) + ·)

/-- The blocks of `2^w` numbers come in order; with `w = 0`, the vector is in order, repetitions allowed. -/
def InOrder (w : Nat) (v : List Nat) : Prop := v.Pairwise fun x y => x / 2 ^ w ≤ y / 2 ^ w

end CBT.Spec
