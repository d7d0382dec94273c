import Mathlib.Data.List.Defs
import Verif.Model.Serialize
import Verif.Spec

/-!
# Specifications for the tools

The format of the collections the builders read, and what a query tool has to answer.
-/

namespace CBT.Spec

/-- One list of a collection: its length and its elements, as four-byte integers. -/
def listBytes (l : List Nat) : Bytes := leBytes 4 l.length ++ l.flatMap (leBytes 4)

/-- A collection: a number (not used further), the universe, and the lists. -/
def collectionBytes (one u : Nat) (lists : List (List Nat)) : Bytes :=
  leBytes 4 one ++ (leBytes 4 u ++ lists.flatMap listBytes)

/-- The lists whose length is above `minSize` and at most `maxSize`. -/
def kept (minSize maxSize : Nat) (lists : List (List Nat)) : List (List Nat) :=
  lists.filter fun l => decide (minSize < l.length) && decide (l.length ≤ maxSize)

/-- The lists that `--min_size m` is documented to keep: those that are not shorter than `m`. -/
def keptByReadme (m maxSize : Nat) (lists : List (List Nat)) : List (List Nat) :=
  lists.filter fun l => decide (m ≤ l.length) && decide (l.length ≤ maxSize)

/-- The lists that stand complete in the first `k` bytes of the lists of a collection. -/
def completeIn : Nat → List (List Nat) → List (List Nat)
  | _, [] => []
  | k, l :: ls => if 4 + 4 * l.length ≤ k then l :: completeIn (k - (4 + 4 * l.length)) ls else []

/-- The list among whose elements the first `k` bytes end: its length stands in them, its elements do not all. -/
def cutIn : Nat → List (List Nat) → Option (List Nat)
  | _, [] => none
  | k, l :: ls => if 4 + 4 * l.length ≤ k then cutIn (k - (4 + 4 * l.length)) ls else if 4 ≤ k then some l else none

/-- `a` is the answer to the query `q` about the numbered `sets`: the intersection of the sets listed, or nothing if more than
16 are listed. -/
def Answers (sets : List (List Nat)) (q : List Nat) (a : Option (List Nat)) : Prop :=
  (q.length ≤ 16 → ∃ R, a = some R ∧ IsIntersection (q.map fun i => sets.getD i []) R) ∧ (16 < q.length → a = none)

/-- The lines of a results file: for every query of at most 16 sets, in order, their number and the size of their intersection. -/
def IsResults (sets : List (List Nat)) (queries : List (List Nat)) (rows : List (Nat × Nat)) : Prop :=
  List.Forall₂ (fun q r => r.1 = q.length ∧ ∃ R, IsIntersection (q.map fun i => sets.getD i []) R ∧ r.2 = R.length)
    (queries.filter fun q => decide (q.length ≤ 16)) rows

end CBT.Spec
