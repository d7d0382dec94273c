import Verif.Spec
import Verif.SpecMemory

/-!
# Blocks of sets
-/

namespace CBT.Spec

/-- Every set has an element in the aligned block `k` of size `2^j`. -/
def AllMeet (sets : List (List Nat)) (j k : Nat) : Prop := ∀ S ∈ sets, ∃ x ∈ S, x / 2 ^ j = k

/-- For the aligned block `k` of size `2^(j+1)`: if every set meets the right half, every set meets the left half; and if every
set meets the left half but not every set meets the right half, there is an aligned block of size `2^b` in the left half that
every set meets (for `b = 0`: a common element). -/
def LeftFirstAt (b : Nat) (sets : List (List Nat)) (j k : Nat) : Prop :=
  (AllMeet sets j (2 * k + 1) → AllMeet sets j (2 * k)) ∧
  (AllMeet sets j (2 * k) → AllMeet sets j (2 * k + 1) ∨ ∃ w, w / 2 ^ (j - b) = 2 * k ∧ AllMeet sets b w)

/-- So for all aligned blocks larger than `2^b` and up to `2^n`. -/
def LeftFirst (b n : Nat) (sets : List (List Nat)) : Prop := ∀ j k, b ≤ j → j < n → LeftFirstAt b sets j k

/-- The blocks of size `2^n` that a parallel call with `2^cut` threads replaces by their halves. -/
def splitBlocksOf (sets : List (List Nat)) (n cut : Nat) : List Nat :=
  (commonBlocks sets n cut).take
    (replaced (2 ^ cut) (commonBlocks sets n cut).length ((commonBlocks sets n cut).map (commonHalves sets (n - 1))))

/-- So for all aligned blocks larger than `2^b` and up to `2^n`, except the blocks of size `2^n` replaced by their halves. -/
def LeftFirstPar (b n cut : Nat) (sets : List (List Nat)) : Prop :=
  LeftFirst b (n - 1) sets ∧ ∀ k, k ∉ splitBlocksOf sets n cut → LeftFirstAt b sets (n - 1) k

end CBT.Spec
