import Verif.Spec

/-!
# The blocks a run-encoded flat trie cannot read

Blocks are aligned: block `k` of size `2^j` is `{k 2^j, …, (k+1) 2^j - 1}`. The universe is `2^t`.
-/

namespace CBT.Spec

def blockFull (S : List Nat) (j k : Nat) : Bool := (List.range (2 ^ j)).all fun i => decide (k * 2 ^ j + i ∈ S)

/-- A full block in no larger one. -/
def runBlock (S : List Nat) (t j k : Nat) : Bool := blockFull S j k && (decide (t ≤ j) || !blockFull S (j + 1) (k / 2))

/-- All of them of size `2^j`, in increasing order. -/
def runBlocks (S : List Nat) (t j : Nat) : List Nat := (List.range (2 ^ (t - j))).filter (runBlock S t j)

/-- The set consists of full blocks of four numbers. -/
def onlyFours (S : List Nat) : Bool := S.all fun x => blockFull S 2 (x / 4)

/-- If the set consists of full blocks of four, the smallest run blocks, in increasing order, are the ones whose two bits are missing. The
first `pad / 2` of them can be read nevertheless, where `pad` is the number of bits readable after the bit vector. -/
def unreadable (pad t : Nat) (S : List Nat) (j k : Nat) : Prop :=
  onlyFours S = true ∧ (∀ i < j, runBlocks S t i = []) ∧ k ∈ (runBlocks S t j).drop (pad / 2)

/-- Some set has no number in the block. -/
def blockMissed (sets : List (List Nat)) (j k : Nat) : Prop := ∃ S ∈ sets, ∀ x ∈ S, x / 2 ^ j ≠ k

/-- The bits that can be read after a bit vector of `n` bits if whole words of 64 bits are allocated, at least one more bit than needed. -/
def wordPad (n : Nat) : Nat := 64 - n % 64

end CBT.Spec
