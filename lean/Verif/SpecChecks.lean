import Verif.SpecTools
import Verif.SpecStats
import Verif.SpecArgs

/-!
# Specifications for the checking programs
-/

namespace CBT.Spec

/-- The options of `test_encoding`, or of `test_fastTrie`, with meaningful values. -/
def BuildOption.CheckOk (fast : Bool) : BuildOption → Prop
  | .minSize n => n < 2 ^ 64
  | .rankIl b => b < 2 ^ 31
  | .wsize w => fast = true ∧ w < 2 ^ 16
  | .levelwise _ => fast = false
  | .out name => if fast then name ≠ "--wsize".toList else name ≠ "--levelwise".toList
  | .maxSize _ | .verbose => False
  | _ => True

/-- Where two lists differ: the positions both have, with both elements. -/
def differences (a b : List Nat) : List (Nat × Nat × Nat) :=
  ((a.zip b).zipIdx.filter fun p => decide (p.1.1 ≠ p.1.2)).map fun p => (p.2, p.1.1, p.1.2)

/-- What is to be said about a log of queries whose answers are `as`: every query of at most 16 sets is counted until the first
wrong answer, about which a complaint is made, with the number of queries before it, the sizes of the answer and of the intersection,
and the first ten differences. -/
inductive Verdict (sets : List (List Nat)) : (nq : Nat) → (queries : List (List Nat)) → (as : List (Option (List Nat))) →
    (complaint : Option (Nat × Nat × Nat × List (Nat × Nat × Nat))) → (count : Nat) → Prop
  | done {nq : Nat} : Verdict sets nq [] [] none nq
  | long {nq : Nat} {q : List Nat} {qs : List (List Nat)} {as : List (Option (List Nat))} {c count} (h : 16 < q.length)
      (hr : Verdict sets nq qs as c count) : Verdict sets nq (q :: qs) (none :: as) c count
  | right {nq : Nat} {q : List Nat} {qs : List (List Nat)} {R : List Nat} {as : List (Option (List Nat))} {c count}
      (h : q.length ≤ 16) (hR : IsIntersection (q.map fun i => sets.getD i []) R) (hr : Verdict sets (nq + 1) qs as c count) :
      Verdict sets nq (q :: qs) (some R :: as) c count
  | wrong {nq : Nat} {q : List Nat} {qs : List (List Nat)} {R S : List Nat} {as : List (Option (List Nat))}
      (h : q.length ≤ 16) (hR : ¬ IsIntersection (q.map fun i => sets.getD i []) R)
      (hS : IsIntersection (q.map fun i => sets.getD i []) S) :
      Verdict sets nq (q :: qs) (some R :: as) (some (nq, R.length, S.length, (differences R S).take 10)) nq

end CBT.Spec
