import Verif.SpecTools
import Verif.SpecUnreadPar

/-!
# What the query tools answer in every mode
-/

namespace CBT.Spec

/-- The logarithm of the number of threads that a call on a universe of `2^t` uses, if it starts threads; `extra` levels must be left. -/
def forks (parallel : Bool) (t extra hw : Nat) : Option Nat := if parallel = true ∧ Nat.log2 hw + extra ≤ t then some (Nat.log2 hw) else none

/-- The answer of a call on the tries of `sets`. Run-aware parallel calls lose elements (`runsResult`); all others return the
intersection. -/
def AnsweredBy (runs : Bool) (t : Nat) : (threads : Option Nat) → (sets : List (List Nat)) → (R : List Nat) → Prop
  | some cut, sets, R => if runs then R = runsResult (sets.map fun S => (true, S)) (t - cut) cut else IsIntersection sets R
  | none, sets, R => IsIntersection sets R

/-- The call looks at a block that the run-encoded flat trie of one of the sets cannot read. -/
def stumbles (pad t : Nat) (threads : Option Nat) (sets : List (List Nat)) : Prop :=
  ∃ S ∈ sets, ∃ j k, unreadable pad t S j k ∧
    match threads with
    | some cut => visited (sets.map fun S => (true, S)) (t - cut) cut j k = true
    | none => ¬ blockMissed sets j k

/-- Some block of the set cannot be read: only in run-encoded flat tries. -/
def cannotDecode (runs levelwise : Bool) (pad t : Nat) (S : List Nat) : Prop :=
  runs = true ∧ levelwise = false ∧ ∃ j k, unreadable pad t S j k

/-- `Answers` with another condition on the answers. -/
def AnswersWith (P : List (List Nat) → List Nat → Prop) (sets : List (List Nat)) (q : List Nat) (a : Option (List Nat)) : Prop :=
  (q.length ≤ 16 → ∃ R, a = some R ∧ P (q.map fun i => sets.getD i []) R) ∧ (16 < q.length → a = none)

/-- `IsResults` with another condition on the answers. -/
def ResultsWith (P : List (List Nat) → List Nat → Prop) (sets queries : List (List Nat)) (rows : List (Nat × Nat)) : Prop :=
  List.Forall₂ (fun q r => r.1 = q.length ∧ ∃ R, P (q.map fun i => sets.getD i []) R ∧ r.2 = R.length)
    (queries.filter fun q => decide (q.length ≤ 16)) rows

/-- The log has a query about at most 16 sets of this kind. -/
def someQuery (P : List (List Nat) → Prop) (sets queries : List (List Nat)) : Prop :=
  ∃ q ∈ queries, q.length ≤ 16 ∧ P (q.map fun i => sets.getD i [])

end CBT.Spec
