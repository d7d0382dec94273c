/-!
# Specifications

Plain statements about sets of numbers, independent of the model's data structures.
-/

namespace CBT.Spec

/-- The inputs the library is documented for: a non-empty, strictly increasing vector of numbers below `u`. -/
structure ValidSet (S : List Nat) (u : Nat) : Prop where
  ne : S ≠ []
  increasing : S.Pairwise (· < ·)
  below : ∀ x ∈ S, x < u

instance (S : List Nat) (u : Nat) : Decidable (ValidSet S u) :=
  decidable_of_iff (S ≠ [] ∧ S.Pairwise (· < ·) ∧ ∀ x ∈ S, x < u)
    ⟨fun h => ⟨h.1, h.2.1, h.2.2⟩, fun h => ⟨h.1, h.2, h.3⟩⟩

/-- `R` is the intersection of the sets, in increasing order and without repetitions. -/
structure IsIntersection (sets : List (List Nat)) (R : List Nat) : Prop where
  increasing : R.Pairwise (· < ·)
  mem : ∀ x, x ∈ R ↔ ∀ S ∈ sets, x ∈ S

end CBT.Spec
