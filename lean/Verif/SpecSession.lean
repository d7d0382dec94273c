import Verif.Spec
import Verif.Model.Session
import Mathlib.Data.List.Forall2

/-!
# What a program that uses tries prints, and what it may do

The array of tries is an array of sets: `encode` changes nothing, `reload` appends the set once more. The rules name what the other
properties have shown to be needed.
-/

namespace CBT.Spec

/-- The numbers in all sets. -/
def common : List (List Nat) → List Nat
  | [] => []
  | S :: sets => S.filter fun x => sets.all fun S' => decide (x ∈ S')

/-- What the program prints, with the sets it has so far. -/
def answers : List (List Nat) → List Op → List (List Nat)
  | _, [] => []
  | sets, .build _ S _ :: ops => answers (sets ++ [S]) ops
  | sets, .encode _ :: ops => answers sets ops
  | sets, .decode i out :: ops => (out ++ sets.getD i []) :: answers sets ops
  | sets, .reload i :: ops => answers (sets ++ [sets.getD i []]) ops
  | sets, .intersect is _ _ _ :: ops => common (is.map fun i => sets.getD i []) :: answers sets ops

def fastAnswers : List (List Nat) → List FastOp → List (List Nat)
  | _, [] => []
  | sets, .build _ S _ :: ops => fastAnswers (sets ++ [S]) ops
  | sets, .encode _ :: ops => fastAnswers sets ops
  | sets, .decode i out :: ops => (out ++ sets.getD i []) :: fastAnswers sets ops
  | sets, .reload _ i :: ops => fastAnswers (sets ++ [sets.getD i []]) ops
  | sets, .intersect is _ _ _ :: ops => common (is.map fun i => sets.getD i []) :: fastAnswers sets ops

/-- What a programmer knows of a trie: the set, the number of bits of its universe, the class, whether runs were encoded. -/
structure Known where
  set : List Nat
  bits : Nat
  kind : Kind
  coded : Bool

/-- Some number in the set has no full block of four around it. -/
def hasPart (S : List Nat) : Prop := ∃ x ∈ S, ∃ y, y / 4 = x / 4 ∧ y ∉ S

/-- No aligned block of `2^j` numbers below `2^t` is in the set. -/
def noFullBlock (S : List Nat) (t j : Nat) : Prop := ∀ x < 2 ^ t, ∃ y, y / 2 ^ j = x / 2 ^ j ∧ y ∉ S

/-- One call of `Intersect`: 1 to 16 tries of one height; `runs` if any of them is run-encoded; in parallel not with height 1, and not with
run-encoded sets that fill the block of a thread. -/
def mayIntersect (ks : List Known) (h : Nat) (runs parallel : Bool) (env : Env) : Prop :=
  ks ≠ [] ∧ ks.length ≤ 16 ∧ (∀ k ∈ ks, k.bits = h) ∧ (runs = true ∨ ∀ k ∈ ks, k.coded = false) ∧ env.hw ≠ 0 ∧
    (parallel = true → 2 ≤ h ∧ env.hw < 2 ^ 16 ∧ ∀ k ∈ ks, k.coded = true → noFullBlock k.set h (h - Nat.log2 env.hw))

/-- The program obeys the rules: sets are valid; runs are encoded once, in flat tries only of sets with `hasPart`; `binTrie_il` is not saved;
calls of `Intersect` as above. -/
def Obeys : List Known → List Op → Prop
  | _, [] => True
  | ks, .build k S u :: ops => ValidSet S u ∧ S.length < 2 ^ 32 ∧ 2 ≤ u ∧ u ≤ 2 ^ 63 ∧ (∀ il, k = .flat il → 3 ≤ u ∧ u ≤ 2 ^ 62) ∧
      Obeys (ks ++ [⟨S, Nat.log2 (u - 1) + 1, k, false⟩]) ops
  | ks, .encode i :: ops => ∃ k, ks[i]? = some k ∧ k.coded = false ∧ (∀ il, k.kind = .flat il → hasPart k.set) ∧
      Obeys (ks.set i { k with coded := true }) ops
  | ks, .decode i _ :: ops => i < ks.length ∧ Obeys ks ops
  | ks, .reload i :: ops => ∃ k, ks[i]? = some k ∧ k.kind ≠ .level true ∧ Obeys (ks ++ [k]) ops
  | ks, .intersect is runs parallel env :: ops => ∃ ks' h, List.Forall₂ (fun i k => ks[i]? = some k) is ks' ∧
      mayIntersect ks' h runs parallel env ∧ Obeys ks ops

/-- What a programmer knows of a fast trie; `emptyTrie` is the member the constructor does not write. -/
structure FastKnown where
  set : List Nat
  bits : Nat
  coded : Bool
  emptyTrie : Bool

/-- As `mayIntersect`, words of `2^lg` bits. -/
def mayIntersectFast (lg : Nat) (ks : List FastKnown) (h : Nat) (runs parallel : Bool) (env : Env) : Prop :=
  ks ≠ [] ∧ ks.length ≤ 16 ∧ (∀ k ∈ ks, k.bits = h) ∧ (runs = true ∨ ∀ k ∈ ks, k.coded = false) ∧ env.hw ≠ 0 ∧
    (parallel = true → lg < h ∧ env.hw < 2 ^ 16 ∧ ∀ k ∈ ks, k.coded = true → noFullBlock k.set h (h - Nat.log2 env.hw))

/-- As `Obeys`; moreover a run-encoded trie is not decoded if its `empty_trie` happens to be true. `height_with_runs` is a `uint16_t`. -/
def FastObeys (lg : Nat) : List FastKnown → List FastOp → Prop
  | _, [] => True
  | ks, .build junk S u :: ops => ValidSet S u ∧ S.length < 2 ^ 32 ∧ 2 ^ (lg - 1) < u ∧ u ≤ 2 ^ 62 ∧ junk.heightWithRuns < 2 ^ 16 ∧
      FastObeys lg (ks ++ [⟨S, Nat.log2 (u - 1) + 1, false, junk.emptyTrie⟩]) ops
  | ks, .encode i :: ops => ∃ k, ks[i]? = some k ∧ k.coded = false ∧ FastObeys lg (ks.set i { k with coded := true }) ops
  | ks, .decode i _ :: ops => (∃ k, ks[i]? = some k ∧ (k.coded = true → k.emptyTrie = false)) ∧ FastObeys lg ks ops
  | ks, .reload _ i :: ops => ∃ k, ks[i]? = some k ∧ FastObeys lg (ks ++ [k]) ops
  | ks, .intersect is runs parallel env :: ops => ∃ ks' h, List.Forall₂ (fun i k => ks[i]? = some k) is ks' ∧
      mayIntersectFast lg ks' h runs parallel env ∧ FastObeys lg ks ops

end CBT.Spec
