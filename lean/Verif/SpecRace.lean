import Mathlib.Data.List.Defs

/-!
# Data races

An access is a memory location and whether it is a write. The accesses of one thread are a list; the threads run concurrently, without
any synchronisation between them.
-/

namespace CBT.Spec

/-- Two accesses conflict: same location, and at least one of them a write. -/
def Conflict {L : Type} (a b : L × Bool) : Prop := a.1 = b.1 ∧ (a.2 = true ∨ b.2 = true)

/-- No access of a thread conflicts with an access of another thread. -/
def RaceFree {L : Type} (threads : List (List (L × Bool))) : Prop :=
  ∀ (i j : Nat) (hi : i < threads.length) (hj : j < threads.length), i ≠ j → ∀ a ∈ threads[i], ∀ b ∈ threads[j], ¬ Conflict a b

end CBT.Spec
