import Mathlib.Data.Nat.Size

/-!
# Specifications of the measures
-/

namespace CBT.Spec

/-- The bits charged for a number: its binary length, at least one. `Nat.size n ≤ k ↔ n < 2 ^ k`. -/
def bits (n : Nat) : Nat := max 1 n.size

/-- The numbers coded by the gap measure: the first element, then each gap minus one. -/
def gaps : List Nat → List Nat
  | [] => []
  | x :: xs => x :: (List.zipWith (fun a b => b - a - 1) (x :: xs) xs)

/-- A set given by its maximal runs: `(z, n)` stands for `z` absent numbers followed by `n` present ones, starting from `base`. -/
def ofRuns : (base : Nat) → List (Nat × Nat) → List Nat
  | _, [] => []
  | base, (z, n) :: rs => List.range' (base + z) n ++ ofRuns (base + z + n) rs

/-- The runs are maximal: they are not empty, and between two runs something is absent. -/
structure MaximalRuns (rs : List (Nat × Nat)) : Prop where
  len : ∀ r ∈ rs, 1 ≤ r.2
  gap : ∀ r ∈ rs.tail, 1 ≤ r.1

instance (rs : List (Nat × Nat)) : Decidable (MaximalRuns rs) :=
  decidable_of_iff ((∀ r ∈ rs, 1 ≤ r.2) ∧ ∀ r ∈ rs.tail, 1 ≤ r.1) ⟨fun h => ⟨h.1, h.2⟩, fun h => ⟨h.len, h.gap⟩⟩

/-- What a run-length code charges for a list of runs: each stretch of absences and each run, minus one. -/
def rleCost (rs : List (Nat × Nat)) : Nat := (rs.map fun r => bits (r.1 - 1) + bits (r.2 - 1)).sum

end CBT.Spec
