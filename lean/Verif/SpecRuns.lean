import Verif.SpecMemory

/-!
# What a run-aware parallel intersection returns, in terms of the sets

A set comes with the information whether its trie was run-encoded. Blocks are aligned: block `k` of size `2^j` is
`{k 2^j, …, (k+1) 2^j - 1}`. The universe is `2^t`.
-/

namespace CBT.Spec

/-- The block is full and the trie run-encoded. -/
def collapsed (c : Bool × List Nat) (j k : Nat) : Bool := c.1 && (List.range (2 ^ j)).all fun i => decide (k * 2 ^ j + i ∈ c.2)

def someCollapsed (cs : List (Bool × List Nat)) (j k : Nat) : Bool := cs.any fun c => collapsed c j k

def allCollapsed (cs : List (Bool × List Nat)) (j k : Nat) : Bool := cs.all fun c => collapsed c j k

/-- No larger block around the block is collapsed in any trie. -/
def exposed (cs : List (Bool × List Nat)) (t j k : Nat) : Bool :=
  (List.range (t - j)).all fun i => !someCollapsed cs (j + 1 + i) (k / 2 ^ (i + 1))

/-- Moreover every set meets the block. -/
def reached (cs : List (Bool × List Nat)) (t j k : Nat) : Bool := exposed cs t j k && meetsAll (cs.map Prod.snd) j k

/-- `x` lies in an exposed block larger than `2^j` that is collapsed in all tries. -/
def reported (cs : List (Bool × List Nat)) (t j x : Nat) : Bool :=
  (List.range (t - j)).any fun i => allCollapsed cs (j + 1 + i) (x / 2 ^ (j + 1 + i)) && exposed cs t (j + 1 + i) (x / 2 ^ (j + 1 + i))

/-- The blocks of size `2^j` handed to threads; `2^cut` threads. -/
def taskBlocks (cs : List (Bool × List Nat)) (j cut : Nat) : List Nat := (List.range (2 ^ cut)).filter (reached cs (j + cut) j)

/-- The halves of a block that are reached. -/
def halvesReached (cs : List (Bool × List Nat)) (t j k : Nat) : Nat :=
  (if reached cs t j (2 * k) then 1 else 0) + (if reached cs t j (2 * k + 1) then 1 else 0)

/-- How many of them are replaced by their halves, the first ones. -/
def splitBlocks (cs : List (Bool × List Nat)) (j cut : Nat) : Nat :=
  replaced (2 ^ cut) (taskBlocks cs j cut).length ((taskBlocks cs j cut).map (halvesReached cs (j + cut) (j - 1)))

/-- How many threads are used. -/
def threadBlocks (cs : List (Bool × List Nat)) (j cut : Nat) : Nat :=
  threadCount (2 ^ cut) (taskBlocks cs j cut).length ((taskBlocks cs j cut).map (halvesReached cs (j + cut) (j - 1)))

/-- The block of size `2^j` is replaced by its halves. -/
def isSplit (cs : List (Bool × List Nat)) (j cut k : Nat) : Bool := decide (k ∈ (taskBlocks cs j cut).take (splitBlocks cs j cut))

/-- The result: elements of blocks collapsed in all tries come first, then those of the tasks. -/
def runsResult (cs : List (Bool × List Nat)) (j cut : Nat) : List Nat :=
  (List.range (2 ^ (j + cut))).filter (reported cs (j + cut) j) ++
  (List.range (2 ^ (j + cut))).filter (fun x => isSplit cs j cut (x / 2 ^ j) && allCollapsed cs j (x / 2 ^ j)) ++
  (List.range (2 ^ (j + cut))).filter (fun x => (cs.all fun c => decide (x ∈ c.2)) &&
    if isSplit cs j cut (x / 2 ^ j) then reached cs (j + cut) (j - 1) (x / 2 ^ (j - 1)) else reached cs (j + cut) j (x / 2 ^ j))

/-- `x` is in a block of size at least `2^j` that is collapsed in some tries, but not in all. -/
def uneven (cs : List (Bool × List Nat)) (t j x : Nat) : Prop :=
  ∃ i, j ≤ i ∧ i ≤ t ∧ someCollapsed cs i (x / 2 ^ i) = true ∧ allCollapsed cs i (x / 2 ^ i) = false

end CBT.Spec
