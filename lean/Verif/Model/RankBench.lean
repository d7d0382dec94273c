import Verif.Model.Serialize

/-!
# The program that times rank

`test_rank` (test/test_rank.cpp). Not modelled: the times, the name of the file, which is a constant, and a file that cannot be opened, for
which there are no vectors.
-/

namespace CBT

/-- What is read of one trie (test/test_rank.cpp:29-37): six bytes are skipped; of what follows only the first vector is kept. -/
def readBenchTrie (B : BvIO) (K : RankIO) (s : Bytes) : R (BV × Bytes) := do
  let (v, s) ← B.read (s.drop 6)
  let (_, s) ← B.read s
  let (_, s) ← K.read s
  .ok (v, s)

/-- `read_inverted_lists` (test/test_rank.cpp:21-41) on an open file: two numbers, of which the second is printed, then `n` tries. -/
def readBench (B : BvIO) (K : RankIO) (n : Nat) (s : Bytes) : R (List BV) := do
  let (_, s) ← readLE 4 s
  let (_, s) ← readLE 4 s
  let (vs, _) ← readMany (readBenchTrie B K) n s
  .ok vs

/-- The positions of one vector (test/test_rank.cpp:48-56); `rand j` is the `j`-th number that `std::rand` gives. -/
def benchPositions (rand : Nat → Nat) (v : BV) : List Nat := (List.range (v.length / 50)).map fun j => rand j % v.length

/-- `generateRandomRanks` (test/test_rank.cpp:44-59), from the `i`-th vector on. -/
def benchRandom (rand : Nat → Nat → Nat) : (i : Nat) → List BV → List (List Nat)
  | _, [] => []
  | i, v :: vs => benchPositions (rand i) v :: benchRandom rand (i + 1) vs

/-- `total_ranks_r += r` for an `int r` that got the `uint64_t` `x` (test/test_rank.cpp:77-78, 93-94, 109-110): the low 32 bits of `x` with
their sign. -/
def addInt (total x : Nat) : Nat :=
  let w := x % 2 ^ 32
  (total + (if w < 2 ^ 31 then w else w + 2 ^ 64 - 2 ^ 32)) % 2 ^ 64

/-- The timed loop (test/test_rank.cpp:76-81, 92-95, 108-111). -/
def sumRanks (v : BV) : (total : Nat) → List Nat → R Nat
  | total, [] => .ok total
  | total, p :: ps => do
    let r ← rank1 v p
    sumRanks v (addInt total r) ps

/-- `testRankOp` (test/test_rank.cpp:62-119): the sum it prints; `il` for rank types other than 0 and 1. `none` is a division by zero:
with `il` the remainder of a number modulo the size of the vector is computed (line 106). A `uint32_t` never reaches `2^32`. -/
def benchRank (il : Bool) : (total : Nat) → List BV → List (List Nat) → R (Option Nat)
  | total, [], _ => .ok (some total)
  | _, _ :: _, [] => .error .oob
  | total, v :: vs, ps :: pss =>
    if il ∧ v.length = 0 then .ok none
    else if 2 ^ 32 ≤ ps.length then .error .fuel
    else do
      let total ← sumRanks v total ps
      benchRank il total vs pss

/-- `main` (test/test_rank.cpp:123-136) for one of the six measurements; `main` has `n = 10000`. -/
def rankBench (B : BvIO) (K : RankIO) (il : Bool) (n : Nat) (rand : Nat → Nat → Nat) (s : Bytes) : R (Option Nat) := do
  let vs ← readBench B K n s
  benchRank il 0 vs (benchRandom rand 0 vs)

end CBT
