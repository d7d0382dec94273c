import Verif.SpecCost

/-!
# How hard an intersection is

Intervals `(a, b)` stand for `{a, …, b - 1}`.
-/

namespace CBT.Spec

/-- The intervals follow each other without a gap, from `a` to `b`, and none is empty. -/
def Tiles : (a : Nat) → (I : List (Nat × Nat)) → (b : Nat) → Prop
  | a, [], b => a = b
  | a, p :: I, b => p.1 = a ∧ p.1 < p.2 ∧ Tiles p.2 I b

/-- Some set has no element in the interval. -/
def Avoided (sets : List (List Nat)) (p : Nat × Nat) : Prop := ∃ S ∈ sets, ∀ x ∈ S, ¬ (p.1 ≤ x ∧ x < p.2)

/-- A partition certificate: the universe `{0, …, u - 1}` cut into intervals each of which is avoided by some set or is a single
common element. The intersection can be read off it. The smallest number of intervals measures how hard the intersection is. -/
structure Certificate (sets : List (List Nat)) (u : Nat) (I : List (Nat × Nat)) : Prop where
  tiles : Tiles 0 I u
  proves : ∀ p ∈ I, Avoided sets p ∨ p.2 = p.1 + 1 ∧ ∀ S ∈ sets, p.1 ∈ S

/-- The same, but an interval may also consist of any number of common elements. -/
structure RunCertificate (sets : List (List Nat)) (u : Nat) (I : List (Nat × Nat)) : Prop where
  tiles : Tiles 0 I u
  proves : ∀ p ∈ I, Avoided sets p ∨ ∀ x, p.1 ≤ x → x < p.2 → ∀ S ∈ sets, x ∈ S

/-- `δ (n - log₂ δ + 1)`: of a binary tree with `n` levels, at most `δ` nodes per level. -/
def treePart (δ n : Nat) : Nat := δ * (n - Nat.log2 δ + 1)

end CBT.Spec
