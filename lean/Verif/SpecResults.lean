import Verif.SpecTools
import Verif.SpecText

/-!
# Specification of results files

A line of titles, then one line for every query of at most 16 sets: how many sets, a time, how many common elements.
-/

namespace CBT.Spec

/-- The line of the query `q` about the numbered `sets`: three fields with commas between them. Nothing is said about the time. -/
def IsResultLine (sets : List (List Nat)) (q : List Nat) (line : List Char) : Prop :=
  ∃ a t b, line = a ++ ',' :: (t ++ ',' :: b) ∧ Decimal a q.length ∧ (',' ∉ t ∧ '\n' ∉ t) ∧
    ∃ R, IsIntersection (q.map fun i => sets.getD i []) R ∧ Decimal b R.length

/-- `text` is a results file for the queries. -/
def IsResultsText (sets : List (List Nat)) (queries : List (List Nat)) (text : List Char) : Prop :=
  ∃ lines, text = ("elements_per_query,time execution,size_intersection".toList :: lines).flatMap (fun l => l ++ ['\n']) ∧
    List.Forall₂ (IsResultLine sets) (queries.filter fun q => decide (q.length ≤ 16)) lines

/-- `text` is a results file with the given numbers of sets and numbers of common elements. -/
def IsRowsText (rows : List (Nat × Nat)) (text : List Char) : Prop :=
  ∃ lines, text = ("elements_per_query,time execution,size_intersection".toList :: lines).flatMap (fun l => l ++ ['\n']) ∧
    List.Forall₂ (fun (row : Nat × Nat) line => ∃ a t b, line = a ++ ',' :: (t ++ ',' :: b) ∧ Decimal a row.1 ∧ (',' ∉ t ∧ '\n' ∉ t) ∧
      Decimal b row.2) rows lines

end CBT.Spec
