import Verif.Proof.Capacity
import Verif.Props.Tries

/-!
# C11 to C14, C16 to C18: parallel intersection and the capacity of its arrays
-/

namespace CBT

open Spec

/-- C11. For 1 to 16 plain tries of one height of at least 2, parallel `Intersect` returns what sequential `Intersect`
returns, whatever the number of hardware threads and the interleavings, namely the common elements in increasing order.
`env'` is the environment of the sequential call. -/
theorem C11_parallel_plain {pad h : Nat} {sets : List (List Nat)} {Ts : List Nav} (h2 : 2 ≤ h)
    (hTs : List.Forall₂ (PlainTrie pad h) sets Ts) (hne : Ts ≠ []) (hlen : Ts.length ≤ 16)
    (env env' : Env) (hw : env.hw ≠ 0) (hw2 : env.hw < 2 ^ 16) (hw' : env'.hw ≠ 0) :
    ∃ R, intersect Ts false true env = .ok R ∧ intersect Ts false false env' = .ok R ∧ IsIntersection sets R := by
  have hT := hTs.imp fun _ _ h => h.holds
  obtain ⟨R, h1, h3⟩ := intersect_par_plain hT (by omega) hne hlen hw hw2
  obtain ⟨R', h1', h3'⟩ := intersect_seq_plain hT hne hlen hw'
  exact ⟨R, h1, (IsIntersection.unique h3 h3') ▸ h1', h3⟩

example : List.Forall₂ (PlainTrie 0 4) [Ex.sF, Ex.sL] [Ex.flat.nav 0, Ex.level.nav true 0] ∧
    intersect [Ex.flat.nav 0, Ex.level.nav true 0] false true ⟨4, [1, 0, 2, 1, 1], [1, 0, 0]⟩ = .ok [1, 2, 3, 5, 14] :=
  ⟨.cons Ex.flat_plain (.cons Ex.level_plain .nil), by decide +kernel⟩

/-! ## Run-encoded tries -/

/-- C12 (partial). Parallel run-aware `Intersect` returns what the sequential call returns when every trie is plain or its
set contains no full aligned block of `2^(h - floor(log2(hw)))` elements, that is, no subtree collapsed in the levels
treated by `partialAND`. Missing: sets with such blocks, for which the claim is false, see the next two theorems. -/
theorem C12_parallel_runs_partial {pad h : Nat} {sets : List (List Nat)} {Ts : List Nav} (h2 : 2 ≤ h) (env env' : Env)
    (hTs : List.Forall₂ (fun S T => PlainTrie pad h S T ∨ RunsTrie pad h S T ∧
      ∀ x < 2 ^ h, ∃ y, y / 2 ^ (h - Nat.log2 env.hw) = x / 2 ^ (h - Nat.log2 env.hw) ∧ y ∉ S) sets Ts)
    (hne : Ts ≠ []) (hlen : Ts.length ≤ 16) (hw : env.hw ≠ 0) (hw2 : env.hw < 2 ^ 16) (hw' : env'.hw ≠ 0) :
    ∃ R, intersect Ts true true env = .ok R ∧ intersect Ts true false env' = .ok R ∧ IsIntersection sets R := by
  obtain ⟨d, rfl⟩ : ∃ d, h = d + 1 := ⟨h - 1, by omega⟩
  obtain ⟨R, h1, h3⟩ := intersect_par_runs_exact (d := d) (hTs.imp fun S n h => by
    rcases h with h | ⟨h, hb⟩
    · exact h.holds.toT
    · refine h.holds.toT (by omega) fun hm => ?_
      rw [show d + 1 - 1 + 2 - (Nat.log2 env.hw + 1) = d + 1 - Nat.log2 env.hw by omega]
      exact hb) (by omega) hne hlen hw hw2
  obtain ⟨R', h1', h3'⟩ := intersect_seq_runs (d := d) (hTs.imp fun _ _ h => by
    rcases h with h | ⟨h, _⟩
    · exact h.holds.toR
    · exact h.holds) hne hlen hw'
  exact ⟨R, h1, (IsIntersection.unique h3 h3') ▸ h1', h3⟩

namespace Ex

def sA : List Nat := [0, 1, 2, 3, 5, 8, 9, 10, 11, 14]
def sB : List Nat := [0, 1, 2, 3, 4, 5, 6, 7, 8, 14]
def sC : List Nat := [0, 8, 9, 10, 11, 12, 13, 14, 15]

def levelA : LevelTrie :=
  { heightWithRuns := 4, runsEncoded := true, emptyTrie := false,
    bTrie := [[true, true], [true, true, true, true], [false, false, true, false, false, false, false, true],
      [false, true, true, false]] }

def levelB : LevelTrie :=
  { heightWithRuns := 4, runsEncoded := true, emptyTrie := false,
    bTrie := [[true, true], [false, false, true, true], [true, false, false, true], [true, false, true, false]] }

def levelC : LevelTrie :=
  { heightWithRuns := 4, runsEncoded := true, emptyTrie := false,
    bTrie := [[true, true], [true, false, false, false], [true, false], [true, false]] }

theorem levelA_runs : RunsTrie 0 4 sA (levelA.nav false 0) :=
  .level (u := 16) (t := ⟨0, false, false, [[true, true], [true, true, true, true],
      [true, true, true, false, true, true, false, true],
      [true, true, true, true, false, true, true, true, true, true, true, false]]⟩) false
    (by decide +kernel) (by decide +kernel) (by decide) (by decide) (by decide +kernel) (by decide +kernel) rfl

theorem levelB_runs : RunsTrie 0 4 sB (levelB.nav false 0) :=
  .level (u := 16) (t := ⟨0, false, false, [[true, true], [true, true, true, true],
      [true, true, true, true, true, false, false, true],
      [true, true, true, true, true, true, true, true, true, false, true, false]]⟩) false
    (by decide +kernel) (by decide +kernel) (by decide) (by decide) (by decide +kernel) (by decide +kernel) rfl

theorem levelC_runs : RunsTrie 0 4 sC (levelC.nav false 0) :=
  .level (u := 16) (t := ⟨0, false, false, [[true, true], [true, false, true, true],
      [true, false, true, true, true, true],
      [true, false, true, true, true, true, true, true, true, true]]⟩) false
    (by decide +kernel) (by decide +kernel) (by decide) (by decide) (by decide +kernel) (by decide +kernel) rfl

end Ex

example : List.Forall₂ (fun S T => PlainTrie 0 4 S T ∨ RunsTrie 0 4 S T ∧
      ∀ x < 2 ^ 4, ∃ y, y / 2 ^ (4 - Nat.log2 3) = x / 2 ^ (4 - Nat.log2 3) ∧ y ∉ S) [Ex.sF, Ex.sA] [Ex.flat.nav 0, Ex.levelA.nav false 0] ∧
    intersect [Ex.flat.nav 0, Ex.levelA.nav false 0] true true ⟨3, [1, 0, 2, 1, 1], [1, 0, 0]⟩ = .ok [0, 1, 2, 3, 5, 8, 14] :=
  ⟨.cons (.inl Ex.flat_plain) (.cons (.inr ⟨Ex.levelA_runs, fun x hx => by
    have hl : Nat.log2 3 = 1 := by decide
    rw [hl]
    rcases Nat.lt_or_ge x 8 with h | h
    · exact ⟨4, by omega, by decide⟩
    · exact ⟨12, by omega, by decide⟩⟩) .nil), by decide +kernel⟩

/-- C12 is false: elements are lost when a subtree of one trie collapsed in the first levels and the others did not. The
sequential call on the same tries returns seven elements, the parallel one only `14`. -/
theorem C12_parallel_runs_negation : ¬ ∀ (pad h : Nat) (sets : List (List Nat)) (Ts : List Nav) (env : Env),
    List.Forall₂ (RunsTrie pad h) sets Ts → 2 ≤ h → Ts ≠ [] → Ts.length ≤ 16 → env.hw ≠ 0 → env.hw < 2 ^ 16 →
    intersect Ts true true env = intersect Ts true false env := by
  intro h
  have h1 := h 0 4 [Ex.sA, Ex.sB] [Ex.levelA.nav false 0, Ex.levelB.nav false 0] ⟨4, [], []⟩
    (.cons Ex.levelA_runs (.cons Ex.levelB_runs .nil)) (by decide) (by simp) (by decide) (by decide) (by decide)
  have h2 : intersect [Ex.levelA.nav false 0, Ex.levelB.nav false 0] true true ⟨4, [], []⟩ = .ok [14] := by decide +kernel
  have h3 : intersect [Ex.levelA.nav false 0, Ex.levelB.nav false 0] true false ⟨4, [], []⟩ = .ok [0, 1, 2, 3, 5, 8, 14] := by
    decide +kernel
  rw [h2, h3] at h1
  exact absurd h1 (by decide)

/-- C12 is false in another way: a subtree collapsed in all tries is reported before the elements found by the threads, so
the result of a run-aware parallel call is not sorted. -/
theorem C12_parallel_order_negation : ¬ ∀ (pad h : Nat) (sets : List (List Nat)) (Ts : List Nav) (env : Env) (R : List Nat),
    List.Forall₂ (RunsTrie pad h) sets Ts → 2 ≤ h → Ts ≠ [] → Ts.length ≤ 16 → env.hw ≠ 0 → env.hw < 2 ^ 16 →
    intersect Ts true true env = .ok R → R.Pairwise (· < ·) := by
  intro h
  have h1 := h 0 4 [Ex.sC, Ex.sC] [Ex.levelC.nav false 0, Ex.levelC.nav false 0] ⟨4, [], []⟩ [8, 9, 10, 11, 12, 13, 14, 15, 0]
    (.cons Ex.levelC_runs (.cons Ex.levelC_runs .nil)) (by decide) (by simp) (by decide) (by decide) (by decide) (by decide +kernel)
  exact absurd h1 (by decide)

/-! ## Fast tries -/

/-- C13, plain fast tries of height at least 2. -/
theorem C13_fast_parallel_plain {lg pad h : Nat} (hlg : 3 ≤ lg ∧ lg ≤ 6) {sets : List (List Nat)} {Ts : List FNav} (h2 : 2 ≤ h)
    (hTs : List.Forall₂ (FastPlain lg pad h) sets Ts) (hne : Ts ≠ []) (hlen : Ts.length ≤ 16)
    (env env' : Env) (hw : env.hw ≠ 0) (hw2 : env.hw < 2 ^ 16) (hw' : env'.hw ≠ 0) :
    ∃ R, fastIntersect lg Ts false true env = .ok R ∧ fastIntersect lg Ts false false env' = .ok R ∧ IsIntersection sets R := by
  have hT := hTs.imp fun _ _ h => h.holds hlg
  obtain ⟨R, h1, h3⟩ := fastIntersect_par_plain (by omega) hT (by omega) hne hlen hw hw2
  obtain ⟨R', h1', h3'⟩ := fastIntersect_seq_plain hlg.2 hT hne hlen hw'
  exact ⟨R, h1, (IsIntersection.unique h3 h3') ▸ h1', h3⟩

example : List.Forall₂ (FastPlain 3 0 3) [Ex.sV, Ex.sW] [Ex.fast.nav 0, Ex.fast2.nav 0] ∧
    fastIntersect 3 [Ex.fast.nav 0, Ex.fast2.nav 0] false true ⟨2, [1, 0, 0, 1], []⟩ = .ok [4, 17, 31] :=
  ⟨.cons Ex.fast_plain (.cons Ex.fast2_plain .nil), by decide +kernel⟩

/-- C13 (partial), run-aware calls on fast tries of height at least 2: as C12, with blocks of
`2^(h + lg - 1 - floor(log2(hw)))` elements. Missing: sets with full aligned blocks of that size and height 1, for which the
claim is false, see the next two theorems. -/
theorem C13_fast_parallel_runs_partial {lg pad h : Nat} (hlg : 3 ≤ lg ∧ lg ≤ 6) {sets : List (List Nat)} {Ts : List FNav}
    (h2 : 2 ≤ h) (env env' : Env)
    (hTs : List.Forall₂ (fun S T => FastPlain lg pad h S T ∨ FastRuns lg pad h S T ∧
      ∀ x < 2 ^ (h + lg - 1), ∃ y, y / 2 ^ (h + lg - 1 - Nat.log2 env.hw) = x / 2 ^ (h + lg - 1 - Nat.log2 env.hw) ∧ y ∉ S) sets Ts)
    (hne : Ts ≠ []) (hlen : Ts.length ≤ 16) (hw : env.hw ≠ 0) (hw2 : env.hw < 2 ^ 16) (hw' : env'.hw ≠ 0) :
    ∃ R, fastIntersect lg Ts true true env = .ok R ∧ fastIntersect lg Ts true false env' = .ok R ∧ IsIntersection sets R := by
  obtain ⟨d, rfl⟩ : ∃ d, h = d + 1 := ⟨h - 1, by omega⟩
  obtain ⟨R, h1, h3⟩ := fastIntersect_par_runs_exact (lg := lg) (d := d) (by omega) (hTs.imp fun S n h => by
    rcases h with h | ⟨h, hb⟩
    · exact (h.holds hlg).toT
    · refine (h.holds hlg).toT (by omega) fun hm => ?_
      rw [show d + 1 - 1 + lg + 1 - (Nat.log2 env.hw + 1) = d + 1 + lg - 1 - Nat.log2 env.hw by omega,
        show d + 1 - 1 + lg = d + 1 + lg - 1 by omega]
      exact hb) (by omega) hne hlen hw hw2
  obtain ⟨R', h1', h3'⟩ := fastIntersect_seq_runs (d := d) hlg.2 (hTs.imp fun _ _ h => by
    rcases h with h | ⟨h, _⟩
    · exact (h.holds hlg).toR
    · exact h.holds hlg) hne hlen hw'
  exact ⟨R, h1, (IsIntersection.unique h3 h3') ▸ h1', h3⟩

example : List.Forall₂ (fun S T => FastPlain 3 0 3 S T ∨ FastRuns 3 0 3 S T ∧
      ∀ x < 2 ^ 5, ∃ y, y / 2 ^ (5 - Nat.log2 1) = x / 2 ^ (5 - Nat.log2 1) ∧ y ∉ S) [Ex.sV, Ex.sW] [Ex.fast.nav 0, Ex.fastR.nav 0] ∧
    fastIntersect 3 [Ex.fast.nav 0, Ex.fastR.nav 0] true true ⟨1, [0, 1, 1], []⟩ = .ok [4, 17, 31] :=
  ⟨.cons (.inl Ex.fast_plain) (.cons (.inr ⟨Ex.fast_runs, fun x hx => ⟨16, by
    have hl : Nat.log2 1 = 0 := by decide
    rw [hl]
    omega, by decide⟩⟩) .nil), by decide +kernel⟩

namespace Ex

def fastD : FastTrie :=
  { height := 4, heightWithRuns := 3, heightU := 6, runsEncoded := true, emptyTrie := true,
    bTrie := [true, false, true, true, false, false, true, true], lastLevel := [2, 128] }

def fastE : FastTrie :=
  { height := 4, heightWithRuns := 9, heightU := 6, runsEncoded := false, emptyTrie := true,
    bTrie := [true, false, true, true, true, false, true, true], lastLevel := [8, 2, 128] }

theorem fastD_runs : FastRuns 3 0 4 sW (fastD.nav 0) :=
  .runs (u := 64) (junk := junk) (t := ⟨4, 9, 6, false, true, [true, false, true, true, true, true, true, true], [255, 255, 2, 128]⟩)
    (by decide +kernel) (by decide +kernel) (by decide) (by decide) (by decide +kernel) (by decide +kernel) rfl

theorem fastE_plain : FastPlain 3 0 4 [3, 17, 31] (fastE.nav 0) :=
  .mk (u := 64) (junk := junk) (by decide +kernel) (by decide +kernel) (by decide) (by decide) (by decide +kernel) rfl

/-- One word. -/
def fast1 : FastTrie :=
  { height := 1, heightWithRuns := 9, heightU := 3, runsEncoded := false, emptyTrie := true, bTrie := [], lastLevel := [10] }

theorem fast1_plain (pad : Nat) : FastPlain 3 pad 1 [1, 3] (fast1.nav pad) :=
  .mk (u := 8) (junk := junk) (by decide +kernel) (by decide +kernel) (by decide) (by decide) (by decide +kernel) rfl

end Ex

/-- C13 is false for run-aware calls: the element 3 of both sets is lost. -/
theorem C13_fast_parallel_runs_negation : ¬ ∀ (pad h : Nat) (sets : List (List Nat)) (Ts : List FNav) (env : Env),
    List.Forall₂ (FastRuns 3 pad h) sets Ts → 2 ≤ h → Ts ≠ [] → Ts.length ≤ 16 → env.hw ≠ 0 → env.hw < 2 ^ 16 →
    fastIntersect 3 Ts true true env = fastIntersect 3 Ts true false env := by
  intro h
  have h1 := h 0 4 [Ex.sW, [3, 17, 31]] [Ex.fastD.nav 0, Ex.fastE.nav 0] ⟨4, [], []⟩
    (.cons Ex.fastD_runs (.cons (.plain Ex.fastE_plain) .nil)) (by decide) (by simp) (by decide) (by decide) (by decide)
  have h2 : fastIntersect 3 [Ex.fastD.nav 0, Ex.fastE.nav 0] true true ⟨4, [], []⟩ = .ok [17, 31] := by decide +kernel
  have h3 : fastIntersect 3 [Ex.fastD.nav 0, Ex.fastE.nav 0] true false ⟨4, [], []⟩ = .ok [3, 17, 31] := by decide +kernel
  rw [h2, h3] at h1
  exact absurd h1 (by decide)

/-- C13 is false for height 1 (a universe of at most one word), even for plain tries: `height - 2` wraps, the parallel path is
taken and treats a node that does not exist. Without readable bits after the empty bit vector this is an access out of
bounds; with 64 of them the result is empty although the sequential call returns both elements. -/
theorem C13_fast_parallel_height1_negation :
    fastIntersect 3 [Ex.fast1.nav 0] false true ⟨4, [], []⟩ = .error .oob ∧
    fastIntersect 3 [Ex.fast1.nav 64] false true ⟨4, [], []⟩ = .ok [] ∧
    fastIntersect 3 [Ex.fast1.nav 64] false false ⟨4, [], []⟩ = .ok [1, 3] ∧ ∀ pad, FastPlain 3 pad 1 [1, 3] (Ex.fast1.nav pad) :=
  ⟨by decide +kernel, by decide +kernel, by decide +kernel, Ex.fast1_plain⟩

/-! ## What parallel run-aware calls do guarantee -/

/-- C14. Parallel run-aware `Intersect` of 1 to 16 tries of one height of at least 2 has no undefined behaviour, returns only
common elements, and none of them twice. -/
theorem C14_parallel_runs_sound {pad h : Nat} {sets : List (List Nat)} {Ts : List Nav} (h2 : 2 ≤ h)
    (hTs : List.Forall₂ (RunsTrie pad h) sets Ts) (hne : Ts ≠ []) (hlen : Ts.length ≤ 16)
    (env : Env) (hw : env.hw ≠ 0) (hw2 : env.hw < 2 ^ 16) :
    ∃ R, intersect Ts true true env = .ok R ∧ (∀ x ∈ R, ∀ S ∈ sets, x ∈ S) ∧ R.Nodup :=
  intersect_par_runs (hTs.imp fun _ _ h => h.holds) (by omega) hne hlen hw hw2

example : List.Forall₂ (RunsTrie 0 4) [Ex.sA, Ex.sB] [Ex.levelA.nav false 0, Ex.levelB.nav false 0] ∧
    intersect [Ex.levelA.nav false 0, Ex.levelB.nav false 0] true true ⟨4, [], []⟩ = .ok [14] :=
  ⟨.cons Ex.levelA_runs (.cons Ex.levelB_runs .nil), by decide +kernel⟩

/-- C14 for fast tries. -/
theorem C14_fast_parallel_runs_sound {lg pad h : Nat} (hlg : 3 ≤ lg ∧ lg ≤ 6) {sets : List (List Nat)} {Ts : List FNav} (h2 : 2 ≤ h)
    (hTs : List.Forall₂ (FastRuns lg pad h) sets Ts) (hne : Ts ≠ []) (hlen : Ts.length ≤ 16)
    (env : Env) (hw : env.hw ≠ 0) (hw2 : env.hw < 2 ^ 16) :
    ∃ R, fastIntersect lg Ts true true env = .ok R ∧ (∀ x ∈ R, ∀ S ∈ sets, x ∈ S) ∧ R.Nodup :=
  fastIntersect_par_runs (by omega) (hTs.imp fun _ _ h => h.holds hlg) (by omega) hne hlen hw hw2

example : List.Forall₂ (FastRuns 3 0 4) [Ex.sW, [3, 17, 31]] [Ex.fastD.nav 0, Ex.fastE.nav 0] ∧
    fastIntersect 3 [Ex.fastD.nav 0, Ex.fastE.nav 0] true true ⟨4, [], []⟩ = .ok [17, 31] :=
  ⟨.cons Ex.fastD_runs (.cons (.plain Ex.fastE_plain) .nil), by decide +kernel⟩

/-! ## Capacity -/

/-- C16. On no tries at all `Intersect` reads out of bounds. -/
theorem C16_no_tries (lg : Nat) (runs parallel : Bool) (env : Env) :
    intersect [] runs parallel env = .error .oob ∧ fastIntersect lg [] runs parallel env = .error .oob := ⟨rfl, rfl⟩

/-- C16. Up to 16 tries of one height every call is defined (height at least 2 for parallel calls). -/
theorem C16_up_to_16 {pad h : Nat} {sets : List (List Nat)} {Ts : List Nav} (hTs : List.Forall₂ (RunsTrie pad h) sets Ts)
    (hne : Ts ≠ []) (hlen : Ts.length ≤ 16) (runs parallel : Bool) (hp : parallel = true → 2 ≤ h)
    (hr : runs = false → List.Forall₂ (PlainTrie pad h) sets Ts) (env : Env) (hw : env.hw ≠ 0) (hw2 : env.hw < 2 ^ 16) :
    ∃ R, intersect Ts runs parallel env = .ok R := by
  cases runs <;> cases parallel
  · obtain ⟨R, h, _⟩ := intersect_seq_plain ((hr rfl).imp fun _ _ h => h.holds) hne hlen hw
    exact ⟨R, h⟩
  · obtain ⟨R, h, _⟩ := C11_parallel_plain (hp rfl) (hr rfl) hne hlen env env hw hw2 hw
    exact ⟨R, h⟩
  · obtain ⟨R, h, _⟩ := intersect_seq_runs (hTs.imp fun _ _ h => h.holds) hne hlen hw
    exact ⟨R, h⟩
  · obtain ⟨R, h, _⟩ := C14_parallel_runs_sound (hp rfl) hTs hne hlen env hw hw2
    exact ⟨R, h⟩

/-- C16. With more than 16 tries of one height every call reads its arrays out of bounds, in every mode, on tries of
every height and content. -/
theorem C16_more_than_16 {pad h : Nat} {sets : List (List Nat)} {Ts : List Nav} (hTs : List.Forall₂ (RunsTrie pad h) sets Ts)
    (hlen : 16 < Ts.length) (runs parallel : Bool) (env : Env) (hw : env.hw ≠ 0) :
    intersect Ts runs parallel env = .error .oob := by
  have hne : Ts ≠ [] := by rintro rfl; simp at hlen
  have hT := hTs.imp fun _ _ h => h.holds
  rw [intersect_unfold hne (forall2_imp_right hT fun _ _ h => h.height)]
  exact body_oob hw hlen (forall2_imp_right hT fun _ _ h => h.okOob) (by simp [flatCfg])

example : List.Forall₂ (RunsTrie 0 4) (List.replicate 17 Ex.sA) (List.replicate 17 (Ex.levelA.nav false 0)) := by
  simp only [List.replicate, List.forall₂_cons, Ex.levelA_runs, List.Forall₂.nil, and_self]

/-- C16 for fast tries. -/
theorem C16_fast_more_than_16 {lg pad h : Nat} (hlg : 3 ≤ lg ∧ lg ≤ 6) {sets : List (List Nat)} {Ts : List FNav}
    (hTs : List.Forall₂ (FastRuns lg pad h) sets Ts) (hlen : 16 < Ts.length) (runs parallel : Bool) (env : Env) (hw : env.hw ≠ 0) :
    fastIntersect lg Ts runs parallel env = .error .oob := by
  have hne : Ts ≠ [] := by rintro rfl; simp at hlen
  have hT := hTs.imp fun _ _ h => h.holds hlg
  have hok : ∀ T ∈ Ts, OkOob (T.toNav.getNode 0 0) ∧ OkOob (T.getWord 0) := forall2_imp_right hTs fun _ _ h => by
    cases h with
    | plain h => cases h with | @mk u junk t => exact t.okOob pad
    | runs => exact FastTrie.okOob _ pad
  rw [fastIntersect_unfold hne (forall2_imp_right hT fun _ _ h => h.height)]
  by_cases hh : h - 1 = 0
  · rw [hh]
    exact body_oob_words hw hlen (fun T hT => (hok T hT).2) (fun T hT => (hok T hT).1)
  · exact body_oob hw (by simpa using hlen) (by simpa using fun T hT => (hok T hT).1) (by simp [fastCfg]; omega)

example : List.Forall₂ (FastRuns 3 0 1) (List.replicate 17 [1, 3]) (List.replicate 17 (Ex.fast1.nav 0)) := by
  simp only [List.replicate, List.forall₂_cons, FastRuns.plain (Ex.fast1_plain 0), List.Forall₂.nil, and_self]

/-! ## Threads -/

/-- C17. Whatever the interleaving `sched1` of the pushes of the threads and the interleaving `sched2` of their writes, the
collected vector is what was found before, followed by the results of the threads in the order of the threads. `outs[t]`
is what thread `t` pushes. Both ways of collecting (below and above 450000 elements) are covered. -/
theorem C17_gather (sched1 sched2 inter : List Nat) (outs : List (List Nat)) (hne : outs ≠ []) :
    (do let results ← parallelFor actPush sched1 outs.length outs.length (fun t => do
          let v ← vGet outs t
          pure (v.map fun x => (t, x))) (List.replicate outs.length [])
        gather sched2 inter results outs.length) = .ok (inter ++ outs.flatten) := by
  rw [parallelFor_push hne, R_bind_ok, gather_ok _ _ _ hne]
  intro t ht
  rw [vGet, List.getElem?_eq_getElem ht]
  rfl

example : [[3, 1], [2], [5, 4]] ≠ ([] : List (List Nat)) ∧
    (do let results ← parallelFor actPush [2, 0, 1, 2] 3 3 (fun t => do
          let v ← vGet [[3, 1], [2], [5, 4]] t
          pure (v.map fun x => (t, x))) (List.replicate 3 [])
        gather [2, 1, 0, 0] [9] results 3) = .ok [9, 3, 1, 2, 5, 4] := by decide +kernel

/-- C18. `parallel_for(n, k, f)` with `k > 0` calls `f` on `k + 1` ranges which, one after the other, are the indices
`0 … n-1`, each once and in order. -/
theorem C18_parallel_for {n k : Nat} (hk : 0 < k) : ∃ ranges, parallelChunks n k = .ok ranges ∧ ranges.length = k + 1 ∧
    (∀ r ∈ ranges, r.1 ≤ r.2 ∧ r.2 ≤ n) ∧ (ranges.flatMap fun r => List.range' r.1 (r.2 - r.1)) = List.range n := by
  obtain ⟨c, h1, h2, h3, h4⟩ := parallelChunks_ok (n := n) hk
  exact ⟨c, h1, h2, h3, by rw [List.flatMap_def]; exact h4⟩

example : parallelChunks 7 3 = .ok [(0, 2), (2, 4), (4, 6), (6, 7)] := by decide +kernel

/-- C18. Zero threads is a division by zero. -/
theorem C18_zero_threads (n : Nat) : parallelChunks n 0 = .error .conv := rfl

/-- C18. If the actions of different indices commute, a parallel loop is the sequential loop, under every interleaving. -/
theorem C18_loop {α σ : Type} {act : α → σ → R σ} {sched : List Nat} {n k : Nat} {f : Nat → List α} {s : σ} (hk : 0 < k)
    (hcomm : ∀ i < n, ∀ j < n, i ≠ j → ∀ a ∈ f i, ∀ b ∈ f j, Commutes act a b) :
    parallelFor act sched n k (fun i => .ok (f i)) s = ((List.range n).flatMap f).foldlM (fun s a => act a s) s := by
  rw [parallelFor_eq hk (fun _ _ => rfl) hcomm, List.flatMap_def]

example : ∀ i < 5, ∀ j < 5, i ≠ j → ∀ a ∈ [(i, 7 * i)], ∀ b ∈ [(j, 7 * j)], Commutes actWrite a b := by
  intro i _ j _ hij a ha b hb
  simp only [List.mem_singleton] at ha hb
  subst ha hb
  exact actWrite_comm hij

end CBT
