import Verif.Proof.Space
import Verif.Proof.Edges

/-!
# C64: how large the trie of a set is
-/

namespace CBT

open Spec

theorem ctree_plain {b d : Nat} {S : List Nat} {T : Tr d} (hne : NE b d T) (hT : Holds (d + b) (has b d T) S) (hb : ∀ x ∈ S, x < 2 ^ (d + b)) :
    CTree b d (false, S) T := ⟨hb, T, hne, hT, rfl⟩

theorem ctree_runs {b d : Nat} {S : List Nat} {T : Tr d} (hne : NE b d T) (hT : Holds (d + b) (has b d T) S) (hb : ∀ x ∈ S, x < 2 ^ (d + b)) :
    CTree b d (true, S) (prune b d T) := ⟨hb, T, hne, hT, rfl⟩

/-- C64, flat tries: exactly two bits for every block of at least two numbers that contains an element; after `encodeRuns` without
the blocks inside a larger block that is full. -/
theorem C64_flat_blocks {S : List Nat} {u : Nat} (hS : ValidSet S u) (hlen : S.length < 2 ^ 32) (hu : 3 ≤ u) (hu' : u ≤ 2 ^ 62) (pad : Nat) :
    ∃ t t', flatCtor S u = .ok t ∧ t.encodeRuns pad = .ok t' ∧
      t.bTrie.length + t.lastLevel.length = 2 * storedAbove false S t.height 0 ∧
      t'.bTrie.length + t'.lastLevel.length = 2 * storedAbove true S t.height 0 := by
  obtain ⟨T, hc, hne, hT⟩ := flat_built hS hlen hu hu'
  have hb : ∀ x ∈ S, x < 2 ^ (Nat.log2 (u - 1) + 1) := fun x hx => lt_height (hS.below x hx)
  obtain ⟨t', he, hbits, -⟩ := flatOf_encode_bits (pad := pad) (hw := 0) (runs := false) hne
  obtain ⟨h1, h2⟩ := (ctree_plain hne hT hb).size
  obtain ⟨h3, h4⟩ := (ctree_runs hne hT hb).size
  refine ⟨_, t', hc, he, ?_, ?_⟩
  · simp only [flatOf, length_leafBits, storedAbove_zero, h1, h2]
    omega
  · rw [← List.length_append, hbits, List.length_append, length_leafBits, h3, h4]
    simp only [flatOf, storedAbove_zero]
    omega

example : ValidSet [0, 1, 2, 3, 5, 12] 16 ∧ storedAbove false [0, 1, 2, 3, 5, 12] 4 0 = 4 + 3 + 2 + 1 ∧
    storedAbove true [0, 1, 2, 3, 5, 12] 4 0 = 2 + 3 + 2 + 1 ∧ runCount [0, 1, 2, 3, 5, 12] = 3 := by decide +kernel

/-- C64, level-wise tries. -/
theorem C64_level_blocks {S : List Nat} {u : Nat} (hS : ValidSet S u) (hlen : S.length < 2 ^ 64) (hu : 2 ≤ u) (hu' : u ≤ 2 ^ 63)
    (il : Bool) (pad : Nat) :
    ∃ t t', levelCtor S u = .ok t ∧ t.encodeRuns il pad = .ok t' ∧ t.bTrie.flatten.length = 2 * storedAbove false S t.height 0 ∧
      t'.bTrie.flatten.length = 2 * storedAbove true S t.height 0 := by
  obtain ⟨T, hc, hne, hT⟩ := level_built hS hlen hu hu'
  have hb : ∀ x ∈ S, x < 2 ^ (Nat.log2 (u - 1) + 1) := fun x hx => lt_height (hS.below x hx)
  have hd : Nat.log2 (u - 1) < 63 := (Nat.log2_lt (by omega)).2 (by omega)
  obtain ⟨k, -, -, he⟩ := levelOf_encode (pad := pad) (il := il) (hw := 0) (runs := false) (by omega) hne
  obtain ⟨h1, h2⟩ := (ctree_plain hne hT hb).size
  obtain ⟨h3, h4⟩ := (ctree_runs hne hT hb).size
  refine ⟨_, _, hc, he, ?_, ?_⟩ <;> rw [levelOf_height, storedAbove_zero]
  · simp only [levelOf, List.flatten_append, flatten_nodeLevels, List.length_append, List.flatten_singleton, length_leafBits, h1, h2]
    omega
  · simp only [levelOf, List.flatten_append, flatten_nodeLevels, List.length_append, List.flatten_singleton, length_leafBits, h3, h4]
    omega

example : (levelCtor [0, 1, 2, 3, 5, 12] 16 >>= fun t => t.encodeRuns false 0 >>= fun t' => .ok (t.height, t.bTrie.flatten.length,
    t'.bTrie.flatten.length)) = .ok (4, 20, 16) := by decide +kernel

/-- C64, fast tries with words of `2^lg` bits: two bits for every stored block larger than a word, one word for every stored block of
the size of a word. -/
theorem C64_fast_blocks {lg : Nat} (hlg : 3 ≤ lg ∧ lg ≤ 6) {S : List Nat} {u : Nat} (hS : ValidSet S u) (hlen : S.length < 2 ^ 32)
    (hu : 2 ^ (lg - 1) < u) (hu' : u ≤ 2 ^ 62) (junk : FastJunk) (pad : Nat) :
    ∃ t t', fastCtor lg junk S u = .ok t ∧ t.encodeRuns lg pad = .ok t' ∧
      t.bTrie.length = 2 * storedAbove false S (t.height - 1 + lg) lg ∧ t.lastLevel.length = storedAt false S (t.height - 1 + lg) lg ∧
      t'.bTrie.length = 2 * storedAbove true S (t.height - 1 + lg) lg ∧ t'.lastLevel.length = storedAt true S (t.height - 1 + lg) lg := by
  obtain ⟨T, hc, hne, hT⟩ := fast_built hlg hS hlen hu hu' junk
  obtain ⟨h0, hh, -⟩ := fast_depth hlg hu hu'
  have hb : ∀ x ∈ S, x < 2 ^ (Nat.log2 (u - 1) + 1 - lg + lg) := fun x hx => hh ▸ lt_height (hS.below x hx)
  obtain ⟨k, he⟩ := fastOf_encode (pad := pad) (hw := junk.heightWithRuns) (runs := false) (empty := junk.emptyTrie) hne
  obtain ⟨h1, h2⟩ := (ctree_plain hne hT hb).size
  obtain ⟨h3, h4⟩ := (ctree_runs hne hT hb).size
  exact ⟨_, _, hc, he, h1, h2, h3, h4⟩

example : ValidSet [0, 1, 2, 3, 4, 5, 6, 7, 8, 9, 10, 11, 12, 13, 14, 15, 40] 64 ∧
    (fastCtor 3 ⟨0, 0, 0, false, false⟩ [0, 1, 2, 3, 4, 5, 6, 7, 8, 9, 10, 11, 12, 13, 14, 15, 40] 64).map FastTrie.height = .ok 4 ∧
    storedAbove false [0, 1, 2, 3, 4, 5, 6, 7, 8, 9, 10, 11, 12, 13, 14, 15, 40] 6 3 = 5 ∧
    storedAt false [0, 1, 2, 3, 4, 5, 6, 7, 8, 9, 10, 11, 12, 13, 14, 15, 40] 6 3 = 3 ∧
    storedAt true [0, 1, 2, 3, 4, 5, 6, 7, 8, 9, 10, 11, 12, 13, 14, 15, 40] 6 3 = 1 := by decide +kernel

/-- How large the numbers of blocks are at most: `n` elements in `r` runs below `2^t` make at most `n (t - b - log₂ n + 1)` blocks larger than
`2^b`, and after `encodeRuns` at most `k (t - b - log₂ k + 1)` with `k = 4r + 2` whatever `n` is. More generally every division of the
universe into `δ` intervals of elements or of non-elements gives a bound. -/
theorem stored_bound {S : List Nat} (hne : S ≠ []) {t b : Nat} (hb : b ≤ t) (runs : Bool) :
    storedAbove runs S t b ≤ treePart S.length (t - b) ∧ storedAt runs S t b ≤ S.length ∧
    storedAbove true S t b ≤ treePart (2 * (2 * runCount S + 1)) (t - b) ∧ storedAt true S t b ≤ 2 * (2 * runCount S + 1) ∧
    ∀ I, RunCertificate [S] (2 ^ t) I → storedAbove true S t b ≤ treePart (2 * I.length) (t - b) ∧ storedAt true S t b ≤ 2 * I.length :=
  ⟨storedAbove_le hne runs t b, (storedAt_le runs S t b).1, storedAbove_runs S t b, storedAt_runs S hb,
    fun _ hI => ⟨storedAbove_certificate hI b, storedAt_certificate hI hb⟩⟩

/-- Three runs and the gaps. -/
example : RunCertificate [[0, 1, 2, 3, 5, 12]] (2 ^ 4) [(0, 4), (4, 5), (5, 6), (6, 12), (12, 13), (13, 16)] ∧
    runCount [0, 1, 2, 3, 5, 12] = 3 := by
  refine ⟨⟨by simp [Tiles], ?_⟩, by decide +kernel⟩
  simp only [Avoided]
  decide +kernel

/-- The other direction: no fewer blocks are stored than the set has runs, less one. -/
theorem stored_needed {S : List Nat} {t : Nat} (hs : S.Pairwise (· < ·)) (hb : ∀ x ∈ S, x < 2 ^ t) (runs : Bool) :
    runCount S ≤ storedAbove runs S t 0 + 1 := runCount_le_stored hs hb runs

example : runCount [0, 1, 2, 3, 5, 12] = 3 ∧ storedAbove true [0, 1, 2, 3, 5, 12] 4 0 = 8 := by decide +kernel

/-- C64, in bits: a flat trie of `n` elements in `r` runs. -/
theorem C64_flat_bits {S : List Nat} {u : Nat} (hS : ValidSet S u) (hlen : S.length < 2 ^ 32) (hu : 3 ≤ u) (hu' : u ≤ 2 ^ 62) (pad : Nat) :
    ∃ t t', flatCtor S u = .ok t ∧ t.encodeRuns pad = .ok t' ∧ t.height = Nat.log2 (u - 1) + 1 ∧
      t.bTrie.length + t.lastLevel.length ≤ 2 * treePart S.length t.height ∧
      t'.bTrie.length + t'.lastLevel.length ≤ 2 * treePart (2 * (2 * runCount S + 1)) t.height ∧
      2 * runCount S ≤ t'.bTrie.length + t'.lastLevel.length + 2 := by
  obtain ⟨t, t', h1, h2, h3, h4⟩ := C64_flat_blocks hS hlen hu hu' pad
  have hh : t.height = Nat.log2 (u - 1) + 1 := by
    obtain ⟨T, hc, -, -⟩ := flat_built hS hlen hu hu'
    rw [hc] at h1
    injection h1 with h1
    rw [← h1]
    rfl
  have hb : ∀ x ∈ S, x < 2 ^ t.height := fun x hx => hh ▸ lt_height (hS.below x hx)
  refine ⟨t, t', h1, h2, hh, ?_, ?_, ?_⟩
  · rw [h3]
    exact Nat.mul_le_mul_left 2 (storedAbove_le hS.ne false t.height 0)
  · rw [h4]
    exact Nat.mul_le_mul_left 2 (storedAbove_runs S t.height 0)
  · rw [h4]
    have := runCount_le_stored hS.increasing hb true
    omega

/-- A run of 61 elements. -/
example : ValidSet (List.range' 1 61) 64 ∧ runCount (List.range' 1 61) = 1 ∧
    (flatCtor (List.range' 1 61) 64 >>= fun t => t.encodeRuns 0 >>= fun t' => .ok (t.bTrie.length + t.lastLevel.length,
      t'.bTrie.length + t'.lastLevel.length)) = .ok (124, 36) := by decide +kernel

/-- The same for level-wise tries. -/
theorem C64_level_bits {S : List Nat} {u : Nat} (hS : ValidSet S u) (hlen : S.length < 2 ^ 64) (hu : 2 ≤ u) (hu' : u ≤ 2 ^ 63)
    (il : Bool) (pad : Nat) :
    ∃ t t', levelCtor S u = .ok t ∧ t.encodeRuns il pad = .ok t' ∧ t.height = Nat.log2 (u - 1) + 1 ∧
      t.bTrie.flatten.length ≤ 2 * treePart S.length t.height ∧
      t'.bTrie.flatten.length ≤ 2 * treePart (2 * (2 * runCount S + 1)) t.height ∧
      2 * runCount S ≤ t'.bTrie.flatten.length + 2 := by
  obtain ⟨t, t', h1, h2, h3, h4⟩ := C64_level_blocks hS hlen hu hu' il pad
  have hh : t.height = Nat.log2 (u - 1) + 1 := by
    obtain ⟨T, hc, -, -⟩ := level_built hS hlen hu hu'
    rw [hc] at h1
    injection h1 with h1
    rw [← h1]
    exact levelOf_height
  have hb : ∀ x ∈ S, x < 2 ^ t.height := fun x hx => hh ▸ lt_height (hS.below x hx)
  refine ⟨t, t', h1, h2, hh, ?_, ?_, ?_⟩
  · rw [h3]
    exact Nat.mul_le_mul_left 2 (storedAbove_le hS.ne false t.height 0)
  · rw [h4]
    exact Nat.mul_le_mul_left 2 (storedAbove_runs S t.height 0)
  · rw [h4]
    have := runCount_le_stored hS.increasing hb true
    omega

example : (levelCtor (List.range' 1 61) 64 >>= fun t => t.encodeRuns false 0 >>= fun t' => .ok (t.bTrie.flatten.length,
      t'.bTrie.flatten.length)) = .ok (124, 36) := by decide +kernel

/-- The same for fast tries; of every stored word there are `2^lg` bits in addition. -/
theorem C64_fast_bits {lg : Nat} (hlg : 3 ≤ lg ∧ lg ≤ 6) {S : List Nat} {u : Nat} (hS : ValidSet S u) (hlen : S.length < 2 ^ 32)
    (hu : 2 ^ (lg - 1) < u) (hu' : u ≤ 2 ^ 62) (junk : FastJunk) (pad : Nat) :
    ∃ t t', fastCtor lg junk S u = .ok t ∧ t.encodeRuns lg pad = .ok t' ∧ t.height - 1 + lg = Nat.log2 (u - 1) + 1 ∧
      t.bTrie.length ≤ 2 * treePart S.length (t.height - 1) ∧ t.lastLevel.length ≤ S.length ∧
      t'.bTrie.length ≤ 2 * treePart (2 * (2 * runCount S + 1)) (t.height - 1) ∧ t'.lastLevel.length ≤ 2 * (2 * runCount S + 1) := by
  obtain ⟨t, t', h1, h2, h3, h4, h5, h6⟩ := C64_fast_blocks hlg hS hlen hu hu' junk pad
  have hh : t.height - 1 + lg = Nat.log2 (u - 1) + 1 := by
    obtain ⟨T, hc, -, -⟩ := fast_built hlg hS hlen hu hu' junk
    rw [hc] at h1
    injection h1 with h1
    rw [← h1]
    exact (fast_depth hlg hu hu').2.1.symm
  have h7 := storedAbove_le hS.ne false (t.height - 1 + lg) lg
  have h8 := storedAbove_runs S (t.height - 1 + lg) lg
  rw [Nat.add_sub_cancel] at h7 h8
  exact ⟨t, t', h1, h2, hh, h3 ▸ Nat.mul_le_mul_left 2 h7, h4 ▸ (storedAt_le false S _ lg).1, h5 ▸ Nat.mul_le_mul_left 2 h8,
    h6 ▸ storedAt_runs S (by omega)⟩

example : (fastCtor 3 ⟨0, 0, 0, false, false⟩ (List.range' 1 61) 64 >>= fun t => t.encodeRuns 3 0 >>= fun t' => .ok (t.bTrie.length, t.lastLevel.length,
      t'.bTrie.length, t'.lastLevel.length)) = .ok (14, 8, 14, 4) := by decide +kernel

end CBT
