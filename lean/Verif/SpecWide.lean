import Verif.SpecRuns

/-!
# What a parallel intersection returns on any number of hardware threads, in terms of the sets

The number of blocks, and the number of half-blocks, is counted modulo 65536. As in `SpecRuns`, a set comes with the information
whether its trie was run-encoded, `2^cut` is the largest power of two up to the number of hardware threads, and the universe is
`2^(j + cut)`.
-/

namespace CBT.Spec

/-- The blocks of size `2^j` that are not forgotten. -/
def keptBlocks (cs : List (Bool × List Nat)) (j cut : Nat) : List Nat :=
  (taskBlocks cs j cut).take ((taskBlocks cs j cut).length % 2 ^ 16)

/-- The halves, of size `2^j`, of the blocks that are reached. -/
def halfBlocks (cs : List (Bool × List Nat)) (t j : Nat) (L : List Nat) : List Nat :=
  L.flatMap fun k => [2 * k, 2 * k + 1].filter (reached cs t j)

/-- The blocks replaced by their halves, with fewer than 131072 hardware threads. -/
def keptSplit (cs : List (Bool × List Nat)) (j cut : Nat) : Nat :=
  replaced (2 ^ cut) (keptBlocks cs j cut).length ((keptBlocks cs j cut).map (halvesReached cs (j + cut) (j - 1)))

/-- The common elements below `2^t` in the blocks of size `2^i`. -/
def commonIn (cs : List (Bool × List Nat)) (t i : Nat) (L : List Nat) : List Nat :=
  (List.range (2 ^ t)).filter fun x => (cs.all fun c => decide (x ∈ c.2)) && decide (x / 2 ^ i ∈ L)

/-- The elements of the blocks of size `2^j` that are collapsed in all tries. -/
def collapsedIn (cs : List (Bool × List Nat)) (t j : Nat) (L : List Nat) : List Nat :=
  (List.range (2 ^ t)).filter fun x => decide (x / 2 ^ j ∈ L) && allCollapsed cs j (x / 2 ^ j)

/-- The result; `none`: the program divides by zero. -/
def wideResult (cs : List (Bool × List Nat)) (j cut : Nat) : Option (List Nat) :=
  if cut ≤ 16 then
    some ((List.range (2 ^ (j + cut))).filter (reported cs (j + cut) j) ++
      collapsedIn cs (j + cut) j ((keptBlocks cs j cut).take (keptSplit cs j cut)) ++
      commonIn cs (j + cut) (j - 1) (halfBlocks cs (j + cut) (j - 1) ((keptBlocks cs j cut).take (keptSplit cs j cut))) ++
      commonIn cs (j + cut) j ((keptBlocks cs j cut).drop (keptSplit cs j cut)))
  else if (halfBlocks cs (j + cut) (j - 1) (keptBlocks cs j cut)).length ≠ 0 ∧
      2 ^ 16 ∣ (halfBlocks cs (j + cut) (j - 1) (keptBlocks cs j cut)).length then none
  else
    some ((List.range (2 ^ (j + cut))).filter (reported cs (j + cut) j) ++
      collapsedIn cs (j + cut) j (keptBlocks cs j cut) ++
      commonIn cs (j + cut) (j - 1) ((halfBlocks cs (j + cut) (j - 1) (keptBlocks cs j cut)).take
        ((halfBlocks cs (j + cut) (j - 1) (keptBlocks cs j cut)).length % 2 ^ 16)))

/-- Of the blocks of size `2^j` that all sets meet, those not forgotten. -/
def keptCommon (sets : List (List Nat)) (j cut : Nat) : List Nat :=
  (commonBlocks sets j cut).take ((commonBlocks sets j cut).length % 2 ^ 16)

/-- The half-blocks in them that all sets meet. -/
def keptHalves (sets : List (List Nat)) (j cut : Nat) : List Nat :=
  (commonBlocks sets (j - 1) (cut + 1)).filter fun k => decide (k / 2 ∈ keptCommon sets j cut)

/-- The elements below `2^t` of all sets in the blocks of size `2^i`. -/
def elementsIn (sets : List (List Nat)) (t i : Nat) (L : List Nat) : List Nat :=
  (List.range (2 ^ t)).filter fun x => (sets.all fun S => decide (x ∈ S)) && decide (x / 2 ^ i ∈ L)

/-- The result for plain tries; `none`: the program divides by zero. -/
def widePlain (sets : List (List Nat)) (j cut : Nat) : Option (List Nat) :=
  if cut ≤ 16 then some (elementsIn sets (j + cut) j (keptCommon sets j cut))
  else if (keptHalves sets j cut).length ≠ 0 ∧ 2 ^ 16 ∣ (keptHalves sets j cut).length then none
  else some (elementsIn sets (j + cut) (j - 1) ((keptHalves sets j cut).take ((keptHalves sets j cut).length % 2 ^ 16)))

end CBT.Spec
