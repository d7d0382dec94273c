import Verif.Proof.Height1
import Verif.Props.Returned
import Verif.Props.Small

/-!
# C13, C14, C16, C32: `Intersect` of tries of height 1, completely
-/

namespace CBT

open Spec

theorem levelOf_one {T : Tr 0} {hw pad : Nat} {runs il : Bool} (h : NE 1 0 T) :
    ∃ w, One w ((levelOf 0 T hw runs).nav il pad) := by
  have h0 : T.word ≠ 0 := Nat.ne_of_gt h.1
  have h4 : T.word < 4 := h.2
  have : T.word = 1 ∨ T.word = 2 ∨ T.word = 3 := by omega
  refine ⟨if T.word = 1 then 2 else if T.word = 2 then 1 else 3, levelOf_height, by split <;> [decide; (split <;> decide)], ?_, ?_, ?_, ?_⟩
  · rcases this with e | e | e <;>
      simp [LevelTrie.nav, LevelTrie.getNode, levelOf, nodeLevels, leaves, leafBits, vGet, bvGet, node2, e] <;> decide
  · cases il <;> simp [LevelTrie.nav, LevelTrie.getLeftChild, LevelTrie.getLeftChildIl, levelOf_height]
  · cases il <;> simp [LevelTrie.nav, LevelTrie.getRightChild, LevelTrie.getRightChildIl, levelOf_height]
  · intro id
    simp [LevelTrie.nav, LevelTrie.getNode, levelOf, nodeLevels, vGet, bind, Except.bind]

theorem BuiltTrie.pos {pad h : Nat} {S : List Nat} {n : Nav} (H : BuiltTrie pad h S n) : 0 < h := by
  cases H with
  | plain H =>
    cases H with
    | flat hS hlen hu hu' hc hh =>
      obtain ⟨T, hc', -, -⟩ := flat_built hS hlen hu hu'
      rw [hc'] at hc
      cases hc
      simp only [flatOf] at hh
      omega
    | level il hS hlen hu hu' hc hh =>
      obtain ⟨T, hc', -, -⟩ := level_built hS hlen hu (by omega)
      rw [hc'] at hc
      cases hc
      rw [levelOf_height] at hh
      omega
  | flat hS hlen hu hu' hc he hh =>
    obtain ⟨T, hc', hne, -⟩ := flat_built hS hlen hu hu'
    rw [hc'] at hc
    cases hc
    obtain ⟨t'', he', hh', -⟩ := flatOf_encode_cases (pad := pad) (hw := 0) (runs := false) hne
    rw [he'] at he
    cases he
    omega
  | level il hS hlen hu hu' hc he hh =>
    obtain ⟨T, hc', hne, -⟩ := level_built hS hlen hu (by omega)
    rw [hc'] at hc
    cases hc
    have hd := level_depth hu hu'
    obtain ⟨k, _, _, he'⟩ := levelOf_encode (pad := pad) (il := il) (hw := 0) (runs := false) (by omega) hne
    rw [he'] at he
    cases he
    rw [levelOf_height] at hh
    omega

theorem BuiltTrie.one {pad : Nat} {S : List Nat} {n : Nav} (H : BuiltTrie pad 1 S n) : (∃ w, One w n) ∧ HoldsR 0 S n := by
  cases H with
  | plain H =>
    refine ⟨?_, H.holds.toR⟩
    cases H with
    | flat hS hlen hu hu' hc hh =>
      obtain ⟨T, hc', hne, hT⟩ := flat_built hS hlen hu hu'
      rw [hc'] at hc
      cases hc
      have := (log2_bounds hu hu').1
      simp only [flatOf] at hh
      omega
    | @level u t il hS hlen hu hu' hc hh =>
      obtain ⟨T, hc', hne, hT⟩ := level_built hS hlen hu (by omega)
      rw [hc'] at hc
      cases hc
      rw [levelOf_height] at hh
      have hl : Nat.log2 (u - 1) = 0 := by omega
      clear hT hc'
      revert T
      rw [hl]
      intro T hne
      exact levelOf_one hne
  | flat hS hlen hu hu' hc he hh =>
    obtain ⟨T, hc', hne, hT⟩ := flat_built hS hlen hu hu'
    rw [hc'] at hc
    cases hc
    obtain ⟨t'', he', hh', -⟩ := flatOf_encode_cases (pad := pad) (hw := 0) (runs := false) hne
    rw [he'] at he
    cases he
    have := (log2_bounds hu hu').1
    omega
  | @level u t t' il hS hlen hu hu' hc he hh =>
    refine ⟨?_, (RunsTrie.level il hS hlen hu hu' hc he hh).holds⟩
    obtain ⟨T, hc', hne, hT⟩ := level_built hS hlen hu (by omega)
    rw [hc'] at hc
    cases hc
    have hd := level_depth hu hu'
    obtain ⟨k, _, _, he'⟩ := levelOf_encode (pad := pad) (il := il) (hw := 0) (runs := false) (by omega) hne
    rw [he'] at he
    cases he
    rw [levelOf_height] at hh
    have hl : Nat.log2 (u - 1) = 0 := by omega
    clear hT hc' he' hd
    revert T
    rw [hl]
    intro T hne _
    exact levelOf_one hne

theorem built_one {pad : Nat} {sets : List (List Nat)} {Ts : List Nav} (H : List.Forall₂ (BuiltTrie pad 1) sets Ts) :
    ∃ ws, List.Forall₂ One ws Ts := by
  induction H with
  | nil => exact ⟨[], .nil⟩
  | cons h _ ih =>
    obtain ⟨w, hw⟩ := h.one.1
    obtain ⟨ws, hws⟩ := ih
    exact ⟨w :: ws, .cons hw hws⟩

/-- C32, C14, C16: `Intersect` of 1 to 16 tries of height 1, plain or run-encoded, in every mode. The sequential call returns the
intersection. The parallel call returns the same vector with fewer than four hardware threads or if the intersection is empty; otherwise
it reads a level that does not exist. -/
theorem C32_height1_intersect {pad : Nat} {sets : List (List Nat)} {Ts : List Nav} (hTs : List.Forall₂ (BuiltTrie pad 1) sets Ts)
    (hne : Ts ≠ []) (hlen : Ts.length ≤ 16) : ∃ R, IsIntersection sets R ∧ ∀ (runs : Bool) (env : Env), env.hw ≠ 0 →
      intersect Ts runs false env = .ok R ∧ (env.hw < 2 ^ 64 →
        intersect Ts runs true env = if env.hw < 4 ∨ R = [] then .ok R else .error .oob) := by
  obtain ⟨ws, hws⟩ := built_one hTs
  have hle := le3 (foldl_and_le ws 3)
  obtain ⟨R, h1, h2⟩ := intersect_seq_runs (hTs.imp fun _ _ h => h.one.2) hne hlen (env := ⟨1, [], []⟩) (by decide)
  rw [seq_one hws hne hlen true (by decide)] at h1
  cases h1
  refine ⟨_, h2, fun runs env hw => ⟨seq_one hws hne hlen runs hw, fun hw' => ?_⟩⟩
  rw [par_one hws hne hlen runs hw hw']
  have : rootElems (ws.foldl (· &&& ·) 3) = [] ↔ ws.foldl (· &&& ·) 3 = 0 := by
    rcases hle with e | e | e | e <;> rw [e] <;> decide
  simp only [this]

namespace Ex

def level0 : LevelTrie := ⟨0, false, false, [[true, false]]⟩
def level1 : LevelTrie := ⟨0, false, false, [[false, true]]⟩
def level01 : LevelTrie := ⟨1, true, false, [[true, true]]⟩

theorem level0_built (pad : Nat) : BuiltTrie pad 1 [0] (level0.nav true pad) :=
  .plain (.level (u := 2) true (by decide +kernel) (by decide) (by decide) (by decide) (by decide +kernel) rfl)

theorem level1_built (pad : Nat) : BuiltTrie pad 1 [1] (level1.nav false pad) :=
  .plain (.level (u := 2) false (by decide +kernel) (by decide) (by decide) (by decide) (by decide +kernel) rfl)

theorem level01_built : BuiltTrie 0 1 [0, 1] (level01.nav false 0) :=
  .level (u := 2) (t := ⟨0, false, false, [[true, true]]⟩) false (by decide +kernel) (by decide) (by decide) (by decide)
    (by decide +kernel) (by decide +kernel) rfl

end Ex

example : List.Forall₂ (BuiltTrie 0 1) [[1], [0, 1]] [Ex.level1.nav false 0, Ex.level01.nav false 0] ∧
    intersect [Ex.level1.nav false 0, Ex.level01.nav false 0] true true ⟨3, [], []⟩ = .ok [1] ∧
    intersect [Ex.level1.nav false 0, Ex.level01.nav false 0] true true ⟨4, [], []⟩ = .error .oob ∧
    intersect [Ex.level1.nav false 0, Ex.level0.nav true 0] true true ⟨4, [], []⟩ = .ok [] :=
  ⟨.cons (Ex.level1_built 0) (.cons Ex.level01_built .nil), by decide +kernel, by decide +kernel, by decide +kernel⟩

/-- C14, flat and level-wise tries of every height: whatever parallel run-aware `Intersect` returns consists of common elements, none of
them twice. -/
theorem C14_parallel_runs_returned_all {pad h : Nat} {sets : List (List Nat)} {Ts : List Nav}
    (hTs : List.Forall₂ (BuiltTrie pad h) sets Ts) {env : Env} (hw : env.hw < 2 ^ 16) {R : List Nat}
    (hR : intersect Ts true true env = .ok R) : (∀ x ∈ R, ∀ S ∈ sets, x ∈ S) ∧ R.Nodup := by
  by_cases h2 : 2 ≤ h
  · exact C14_parallel_runs_returned h2 hTs hw hR
  have hne : Ts ≠ [] := by rintro rfl; cases hR
  obtain rfl : h = 1 := by
    obtain ⟨T, Ts, rfl⟩ := List.exists_cons_of_ne_nil hne
    cases hTs with
    | cons hT _ =>
      have := hT.pos
      omega
  obtain ⟨Ts', h1, h3⟩ := built_extend hTs
  obtain ⟨a, b, c⟩ := returned_limits h3 (intersect_mono h1 _ _ _ _ hR)
  have hlen : Ts.length ≤ 16 := h1.length_eq ▸ b
  obtain ⟨R', h4, h5⟩ := C32_height1_intersect hTs hne hlen
  have h6 := (h5 true env c).2 (by omega)
  rw [hR] at h6
  split at h6
  · cases h6
    exact ⟨fun x hx => (h4.mem x).1 hx, h4.increasing.imp fun h => Nat.ne_of_lt h⟩
  · cases h6

example : List.Forall₂ (BuiltTrie 0 1) [[1], [0, 1]] [Ex.level1.nav false 0, Ex.level01.nav false 0] ∧
    intersect [Ex.level1.nav false 0, Ex.level01.nav false 0] true true ⟨3, [], []⟩ = .ok [1] :=
  ⟨.cons (Ex.level1_built 0) (.cons Ex.level01_built .nil), by decide +kernel⟩

/-! ## Fast tries of one word -/

theorem FastRuns.one {lg pad : Nat} (hlg : 3 ≤ lg ∧ lg ≤ 6) {S : List Nat} {n : FNav} (H : FastRuns lg pad 1 S n) :
    n.height = 1 ∧ n.getNode 0 0 = if 2 ≤ pad then .ok 0 else .error .oob := by
  cases H with
  | plain H =>
    cases H with
    | @mk u junk t hS hlen hu hu' hc hh =>
      obtain ⟨T, hc', hne, hT⟩ := fast_built hlg hS hlen hu hu' junk
      rw [hc'] at hc
      cases hc
      have hl : Nat.log2 (u - 1) + 1 - lg = 0 := by simp only [fastOf] at hh; omega
      refine ⟨hh, ?_⟩
      clear hT hc' hh
      revert T
      rw [hl]
      intro T hne
      exact fastOf_one_node
  | @runs u junk t t' hS hlen hu hu' hc he hh =>
    obtain ⟨T, hc', hne, hT⟩ := fast_built hlg hS hlen hu hu' junk
    rw [hc'] at hc
    cases hc
    obtain ⟨k, he'⟩ := fastOf_encode (pad := pad) (hw := junk.heightWithRuns) (runs := false) (empty := junk.emptyTrie) hne
    rw [he'] at he
    cases he
    have hl : Nat.log2 (u - 1) + 1 - lg = 0 := by simp only [fastOf] at hh; omega
    refine ⟨hh, ?_⟩
    clear hT hc' hh he'
    revert T
    rw [hl]
    intro T hne
    exact fastOf_one_node

/-- C13, C14, C32: parallel `Intersect` of 1 to 16 fast tries of one word, plain or run-encoded. With one hardware thread it returns what
the sequential call returns. With more it reads the first two bits of an empty bit vector: where that is possible, a plain call returns
nothing and a run-aware call returns every value of a word, whatever the sets are. -/
theorem C32_fast_height1_parallel {lg pad : Nat} (hlg : 3 ≤ lg ∧ lg ≤ 6) {sets : List (List Nat)} {Ts : List FNav}
    (hTs : List.Forall₂ (FastRuns lg pad 1) sets Ts) (hne : Ts ≠ []) (hlen : Ts.length ≤ 16) (runs : Bool) (env : Env) :
    (env.hw = 1 → ∀ env' R, fastIntersect lg Ts runs false env' = .ok R → fastIntersect lg Ts runs true env = .ok R) ∧
    (2 ≤ env.hw → env.hw < 2 ^ 64 → fastIntersect lg Ts runs true env =
      if 2 ≤ pad then .ok (if runs then List.range (2 ^ lg) else []) else .error .oob) := by
  have h := forall2_imp_right hTs fun _ _ h => h.one hlg
  exact ⟨fun hw env' R hR => fast_one_hw1 hne hlen (fun n hn => (h n hn).1) hw hR,
    fast_one_par hlg.2 hne hlen (fun n hn => (h n hn).1) fun n hn => (h n hn).2⟩

example : List.Forall₂ (FastRuns 3 64 1) [[1, 3], [1, 3]] [Ex.fast1.nav 64, Ex.fast1.nav 64] ∧
    fastIntersect 3 [Ex.fast1.nav 64, Ex.fast1.nav 64] true true ⟨1, [], []⟩ = .ok [1, 3] ∧
    fastIntersect 3 [Ex.fast1.nav 64, Ex.fast1.nav 64] true true ⟨2, [], []⟩ = .ok [0, 1, 2, 3, 4, 5, 6, 7] ∧
    fastIntersect 3 [Ex.fast1.nav 64, Ex.fast1.nav 64] false true ⟨2, [], []⟩ = .ok [] :=
  ⟨.cons (.plain (Ex.fast1_plain 64)) (.cons (.plain (Ex.fast1_plain 64)) .nil), by decide +kernel, by decide +kernel, by decide +kernel⟩

/-- C14 is false for fast tries of one word: with two or more hardware threads the parallel run-aware call on tries of any sets, not all
full, returns an element that is not common (or reads out of bounds). -/
theorem C14_fast_height1_negation {lg pad : Nat} (hlg : 3 ≤ lg ∧ lg ≤ 6) {sets : List (List Nat)} {Ts : List FNav}
    (hTs : List.Forall₂ (FastRuns lg pad 1) sets Ts) (hne : Ts ≠ []) (hlen : Ts.length ≤ 16) {env : Env} (hw : 2 ≤ env.hw)
    (hw' : env.hw < 2 ^ 64) (hfull : ∃ S ∈ sets, ∃ x < 2 ^ lg, x ∉ S) :
    ¬ ∃ R, fastIntersect lg Ts true true env = .ok R ∧ ∀ x ∈ R, ∀ S ∈ sets, x ∈ S := by
  rintro ⟨R, h1, h2⟩
  obtain ⟨S, hS, x, hx, hn⟩ := hfull
  rw [(C32_fast_height1_parallel hlg hTs hne hlen true env).2 hw hw'] at h1
  split at h1
  · cases h1
    exact hn (h2 x (by simpa using hx) S hS)
  · cases h1

example : List.Forall₂ (FastRuns 3 64 1) [[1, 3]] [Ex.fast1.nav 64] ∧ (∃ S ∈ [[1, 3]], ∃ x < 2 ^ 3, x ∉ S) :=
  ⟨.cons (.plain (Ex.fast1_plain 64)) .nil, [1, 3], by simp, 0, by decide, by decide⟩

end CBT
