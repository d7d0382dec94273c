import Verif.Props.Tries
import Verif.Props.Unreadable
import Verif.Proof.Lookup
import Verif.Proof.LookupBad

/-!
# C71: looking up one number by navigation
-/

namespace CBT

open Spec

theorem PlainTrie.height_pos {pad h : Nat} {S : List Nat} {n : Nav} (H : PlainTrie pad h S n) : h - 1 + 1 = h := by
  have h1 := H.holds.height
  have : n.height = h := by cases H <;> assumption
  omega

theorem RunsTrie.height_pos {pad h : Nat} {S : List Nat} {n : Nav} (H : RunsTrie pad h S n) : h - 1 + 1 = h := by
  have h1 := H.holds.height
  have : n.height = h := by
    cases H with
    | plain H => have := H.height_pos; have := H.holds.height; omega
    | flat _ _ _ _ _ _ h => exact h
    | level _ _ _ _ _ _ _ h => exact h
  omega

/-- C71. Following the bits of `x` from the root of a plain trie answers whether `x` is in the set, without undefined behaviour: for all
numbers below `2^h`, in particular all below the universe. -/
theorem C71_plain {pad h : Nat} {S : List Nat} {n : Nav} (H : PlainTrie pad h S n) {x : Nat} (hx : x < 2 ^ h) :
    lookup n false x = .ok (decide (x ∈ S)) :=
  H.holds.lookup (by rw [H.height_pos]; exact hx)

/-- C71, run-aware, for plain and run-encoded tries. Missing, as in C08: run-encoded flat tries whose last level collapsed. -/
theorem C71_runs_partial {pad h : Nat} {S : List Nat} {n : Nav} (H : RunsTrie pad h S n) {x : Nat} (hx : x < 2 ^ h) :
    lookup n true x = .ok (decide (x ∈ S)) :=
  H.holds.lookup (by rw [H.height_pos]; exact hx)

/-- C71, plain fast tries. -/
theorem C71_fast_plain {lg pad h : Nat} (hlg : 3 ≤ lg ∧ lg ≤ 6) {S : List Nat} {n : FNav} (H : FastPlain lg pad h S n) {x : Nat}
    (hx : x < 2 ^ (h - 1 + lg)) : fastLookup lg n false x = .ok (decide (x ∈ S)) :=
  (H.holds hlg).lookup hx

/-- C71, fast tries, run-aware. -/
theorem C71_fast_runs {lg pad h : Nat} (hlg : 3 ≤ lg ∧ lg ≤ 6) {S : List Nat} {n : FNav} (H : FastRuns lg pad h S n) {x : Nat}
    (hx : x < 2 ^ (h - 1 + lg)) : fastLookup lg n true x = .ok (decide (x ∈ S)) :=
  (H.holds hlg).lookup hx

/-- C71, exact, for all tries of the builders, plain or run-encoded, flat or level-wise: the run-aware lookup of `x` reads out of bounds
exactly if the trie is a run-encoded flat one and `x` lies in a full block that cannot be read, and else answers whether `x` is in the
set. The numbers whose lookup goes wrong are all in the set. -/
theorem C71_runs_exact {pad h : Nat} {c : Bool × List Nat} {n : Nav} (H : ReadTrie pad h c n) {x : Nat} (hx : x < 2 ^ h) :
    ((c.1 = true ∧ ∃ j, unreadable pad h c.2 j (x / 2 ^ j)) → lookup n true x = .error .oob) ∧
    (¬ (c.1 = true ∧ ∃ j, unreadable pad h c.2 j (x / 2 ^ j)) → lookup n true x = .ok (decide (x ∈ c.2))) := by
  have h1 : n.height = h := by
    cases H with
    | plain H => have := H.height_pos; have := H.holds.height; omega
    | flat _ _ _ _ _ _ h => exact h
    | level _ _ _ _ _ _ _ h => exact h
  have h2 := H.holds.height
  obtain ⟨i1, i2⟩ := H.holds.lookup (x := x) (by rw [show h - 1 + 1 = h by omega]; exact hx)
  have hiff : (∃ j, cannotRead pad h c j (x / 2 ^ j * 2 ^ j)) ↔ (c.1 = true ∧ ∃ j, unreadable pad h c.2 j (x / 2 ^ j)) := by
    constructor
    · rintro ⟨j, hc, k, hk, hu⟩
      rw [← Nat.eq_of_mul_eq_mul_right (Nat.two_pow_pos j) hk] at hu
      exact ⟨hc, j, hu⟩
    · rintro ⟨hc, j, hu⟩
      exact ⟨j, hc, _, rfl, hu⟩
  rw [hiff] at i1 i2
  exact ⟨i1, i2⟩

/-- C71 is false of run-encoded flat tries whose last level collapsed: an element of the set is not found, the lookup reads out of
bounds. -/
theorem C71_runs_negation : ¬ ∀ (S : List Nat) (u : Nat) (t t' : FlatTrie) (x : Nat), ValidSet S u → 3 ≤ u → flatCtor S u = .ok t →
    t.encodeRuns 0 = .ok t' → x < u → lookup (t'.nav 0) true x = .ok (decide (x ∈ S)) := by
  intro h
  have h1 := h [0, 1, 2, 3] 8 ⟨3, 0, false, false, [true, false, true, true], [true, true, true, true]⟩
    ⟨3, 2, true, false, [true, false], [false, false]⟩ 0 (by decide +kernel) (by decide) (by decide +kernel) (by decide +kernel)
    (by decide)
  have h2 : lookup (FlatTrie.nav ⟨3, 2, true, false, [true, false], [false, false]⟩ 0) true 0 = .error .oob := by decide +kernel
  rw [h2] at h1
  cases h1

example : PlainTrie 0 4 Ex.sF (Ex.flat.nav 0) ∧ lookup (Ex.flat.nav 0) false 5 = .ok true ∧ lookup (Ex.flat.nav 0) false 6 = .ok false :=
  ⟨Ex.flat_plain, by decide +kernel, by decide +kernel⟩

example : RunsTrie 0 4 Ex.sR (Ex.levelR.nav false 0) ∧ lookup (Ex.levelR.nav false 0) true 5 = .ok true ∧
    lookup (Ex.levelR.nav false 0) true 13 = .ok false :=
  ⟨Ex.level_runs, by decide +kernel, by decide +kernel⟩

example : FastPlain 3 0 3 Ex.sV (Ex.fast.nav 0) ∧ fastLookup 3 (Ex.fast.nav 0) false 17 = .ok true ∧
    fastLookup 3 (Ex.fast.nav 0) false 18 = .ok false :=
  ⟨Ex.fast_plain, by decide +kernel, by decide +kernel⟩

example : FastRuns 3 0 3 Ex.sW (Ex.fastR.nav 0) ∧ fastLookup 3 (Ex.fastR.nav 0) true 9 = .ok true ∧
    fastLookup 3 (Ex.fastR.nav 0) true 18 = .ok false :=
  ⟨Ex.fast_runs, by decide +kernel, by decide +kernel⟩

/-- With two readable bits after the bit vector the first of two blocks is read and the second is not. -/
example : ReadTrie 2 4 (true, [0, 1, 2, 3, 12, 13, 14, 15]) (Ex.flatCollapsed.nav 2) ∧
    unreadable 2 4 [0, 1, 2, 3, 12, 13, 14, 15] 2 (13 / 2 ^ 2) ∧ lookup (Ex.flatCollapsed.nav 2) true 13 = .error .oob ∧
    lookup (Ex.flatCollapsed.nav 2) true 1 = .ok true ∧ lookup (Ex.flatCollapsed.nav 2) true 6 = .ok false :=
  ⟨Ex.flatCollapsed_read, ⟨by decide +kernel, by decide +kernel, by decide +kernel⟩, by decide +kernel, by decide +kernel,
    by decide +kernel⟩

/-- Without `runs` a lookup in a run-encoded trie misses the elements of collapsed blocks. -/
example : lookup (Ex.levelR.nav false 0) false 5 = .ok false ∧ 5 ∈ Ex.sR := by decide +kernel

end CBT
