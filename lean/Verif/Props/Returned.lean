import Verif.Proof.Mono
import Verif.Proof.Arrays
import Verif.Props.Parallel
import Verif.Props.Intersect

/-!
# C08, C14, C16: what `Intersect` returns on all tries, if it returns

Run-encoded flat tries whose last level collapsed make `Intersect` read zeros after the end of a bit vector. If they can be read, the
result is right; otherwise there is none.
-/

namespace CBT

open Spec

/-- A trie built from the valid set `S`, run-encoded or not; without the condition of `RunsTrie.flat`. -/
inductive BuiltTrie (pad h : Nat) (S : List Nat) : Nav → Prop
  | plain {n : Nav} : PlainTrie pad h S n → BuiltTrie pad h S n
  | flat {u : Nat} {t t' : FlatTrie} : ValidSet S u → S.length < 2 ^ 32 → 3 ≤ u → u ≤ 2 ^ 62 → flatCtor S u = .ok t →
    t.encodeRuns pad = .ok t' → t'.height = h → BuiltTrie pad h S (t'.nav pad)
  | level {u : Nat} {t t' : LevelTrie} (il : Bool) : ValidSet S u → S.length < 2 ^ 64 → 2 ≤ u → u ≤ 2 ^ 63 →
    levelCtor S u = .ok t → t.encodeRuns il pad = .ok t' → t'.height = h → BuiltTrie pad h S (t'.nav il pad)

theorem BuiltTrie.extend {pad h : Nat} {S : List Nat} {n : Nav} (H : BuiltTrie pad h S n) :
    ∃ n', NavLe n n' ∧ HoldsR (h - 1) S n' := by
  cases H with
  | plain H => exact ⟨n, NavLe.refl n, H.holds.toR⟩
  | level il hS hlen hu hu' hc he hh => exact ⟨_, NavLe.refl _, (RunsTrie.level il hS hlen hu hu' hc he hh).holds⟩
  | @flat u t t' hS hlen hu hu' hc he hh =>
    refine ⟨_, t'.nav_mono (Nat.le_max_left pad t'.lastLevel.length), (RunsTrie.flat hS hlen hu hu' hc ?_ hh (.inr (Nat.le_max_right _ _))).holds⟩
    obtain ⟨T, hc', hne, -⟩ := flat_built hS hlen hu hu'
    rw [hc'] at hc
    cases hc
    rw [flatOfArrays_runs (hw' := 0) (r' := false) hne] at he ⊢
    exact he

theorem built_extend {pad h : Nat} {sets : List (List Nat)} {Ts : List Nav} (H : List.Forall₂ (BuiltTrie pad h) sets Ts) :
    ∃ Ts', List.Forall₂ NavLe Ts Ts' ∧ List.Forall₂ (HoldsR (h - 1)) sets Ts' := by
  induction H with
  | nil => exact ⟨[], .nil, .nil⟩
  | cons h _ ih =>
    obtain ⟨n', h1, h2⟩ := h.extend
    obtain ⟨Ts', h3, h4⟩ := ih
    exact ⟨n' :: Ts', .cons h1 h3, .cons h2 h4⟩

/-- If `Intersect` returns on built tries of one height, there are 1 to 16 of them and the machine has a number of threads. -/
theorem returned_limits {d : Nat} {sets : List (List Nat)} {Ts : List Nav} (H : List.Forall₂ (HoldsR d) sets Ts) {runs parallel : Bool}
    {env : Env} {R : List Nat} (hR : intersect Ts runs parallel env = .ok R) : Ts ≠ [] ∧ Ts.length ≤ 16 ∧ env.hw ≠ 0 := by
  have hne : Ts ≠ [] := by rintro rfl; cases hR
  rw [intersect_unfold hne (forall2_imp_right H fun _ _ h => h.height)] at hR
  have hw : env.hw ≠ 0 := by
    intro h0
    rw [intersectBody, if_pos h0] at hR
    cases hR
  refine ⟨hne, ?_, hw⟩
  by_contra hlen
  rw [body_oob hw (by omega) (forall2_imp_right H fun _ _ h => h.okOob) (by simp [flatCfg])] at hR
  cases hR

/-- C08, for every list of tries of one height: whatever sequential run-aware `Intersect` returns is the intersection. Whether it returns
at all is `C08_seq_intersect_runs_partial`. -/
theorem C08_seq_runs_returned {pad h : Nat} {sets : List (List Nat)} {Ts : List Nav} (hTs : List.Forall₂ (BuiltTrie pad h) sets Ts)
    {env : Env} {R : List Nat} (hR : intersect Ts true false env = .ok R) : IsIntersection sets R := by
  obtain ⟨Ts', h1, h2⟩ := built_extend hTs
  have hR' := intersect_mono h1 _ _ _ _ hR
  obtain ⟨a, b, c⟩ := returned_limits h2 hR'
  obtain ⟨R', h3, h4⟩ := intersect_seq_runs h2 a b c
  rw [h3] at hR'
  cases hR'
  exact h4

/-- C14, for every list of tries of one height of at least 2: whatever parallel run-aware `Intersect` returns consists of common elements,
none of them twice. -/
theorem C14_parallel_runs_returned {pad h : Nat} (h2 : 2 ≤ h) {sets : List (List Nat)} {Ts : List Nav}
    (hTs : List.Forall₂ (BuiltTrie pad h) sets Ts) {env : Env} (hw : env.hw < 2 ^ 16) {R : List Nat}
    (hR : intersect Ts true true env = .ok R) : (∀ x ∈ R, ∀ S ∈ sets, x ∈ S) ∧ R.Nodup := by
  obtain ⟨Ts', h1, h3⟩ := built_extend hTs
  have hR' := intersect_mono h1 _ _ _ _ hR
  obtain ⟨a, b, c⟩ := returned_limits h3 hR'
  obtain ⟨R', h4, h5⟩ := intersect_par_runs h3 (by omega) a b c hw
  rw [h4] at hR'
  cases hR'
  exact h5

namespace Ex

/-- {0, 1, 2, 3, 12, 13, 14, 15}: no leaves are left. -/
def flatCollapsed : FlatTrie :=
  { height := 4, heightWithRuns := 3, runsEncoded := true, emptyTrie := false,
    bTrie := [true, true, true, false, false, true], lastLevel := [false, false, false, false] }

theorem flatCollapsed_built : BuiltTrie 0 4 [0, 1, 2, 3, 12, 13, 14, 15] (flatCollapsed.nav 0) :=
  .flat (u := 16) (t := ⟨4, 0, false, false, [true, true, true, false, false, true, true, true, true, true],
      [true, true, true, true, true, true, true, true]⟩)
    (by decide +kernel) (by decide +kernel) (by decide) (by decide) (by decide +kernel) (by decide +kernel) rfl

def levelFour : LevelTrie :=
  { heightWithRuns := 0, runsEncoded := false, emptyTrie := false, bTrie := [[true, false], [false, true], [true, false], [true, false]] }

theorem levelFour_built : BuiltTrie 0 4 [4] (levelFour.nav false 0) :=
  .plain (.level (u := 16) false (by decide +kernel) (by decide +kernel) (by decide) (by decide) (by decide +kernel) rfl)

end Ex

example : List.Forall₂ (BuiltTrie 0 4) [[0, 1, 2, 3, 12, 13, 14, 15], [4]] [Ex.flatCollapsed.nav 0, Ex.levelFour.nav false 0] ∧
    intersect [Ex.flatCollapsed.nav 0, Ex.levelFour.nav false 0] true false ⟨1, [], []⟩ = .ok [] ∧
    intersect [Ex.flatCollapsed.nav 0, Ex.levelFour.nav false 0] true true ⟨4, [], []⟩ = .ok [] ∧
    intersect [Ex.flatCollapsed.nav 0] true false ⟨1, [], []⟩ = .error .oob :=
  ⟨.cons Ex.flatCollapsed_built (.cons Ex.levelFour_built .nil), by decide +kernel, by decide +kernel, by decide +kernel⟩

end CBT
