import Verif.Proof.Edges

/-!
# C25, C26, C30, C40: the size of tries
-/

namespace CBT

open Spec

/-- C25. `trieMeasure` of a freshly built flat trie is the number of distinct non-empty prefixes of the elements. -/
theorem C25_trieMeasure {S : List Nat} {u : Nat} (hS : ValidSet S u) (hlen : S.length < 2 ^ 32) (hu : 3 ≤ u) (hu' : u ≤ 2 ^ 62) :
    ∃ t, flatCtor S u = .ok t ∧ t.trieMeasure = .ok (allPrefixes S (Nat.log2 (u - 1) + 1)) := by
  obtain ⟨T, hc, hne, hT⟩ := flat_built hS hlen hu hu'
  refine ⟨_, hc, ?_⟩
  rw [trieMeasure_eq, flatOf, List.count_append, count_edges,
    ← allPrefixes_root hne hT hS.increasing (fun x hx => lt_height (hS.below x hx))]
  simp

example : ValidSet [0, 1, 2, 3, 5, 12] 16 ∧ allPrefixes [0, 1, 2, 3, 5, 12] 4 = 2 + 3 + 4 + 6 ∧
    (flatCtor [0, 1, 2, 3, 5, 12] 16 >>= FlatTrie.trieMeasure) = .ok 15 := by decide +kernel

/-- C26. `trieMeasure` after `encodeRuns` counts the prefixes that are not inside a larger full block, and is at most
`trieMeasure` before. -/
theorem C26_trieMeasure_runs {S : List Nat} {u : Nat} (hS : ValidSet S u) (hlen : S.length < 2 ^ 32) (hu : 3 ≤ u)
    (hu' : u ≤ 2 ^ 62) (pad : Nat) :
    ∃ t t' m m', flatCtor S u = .ok t ∧ t.encodeRuns pad = .ok t' ∧ t.trieMeasure = .ok m ∧ t'.trieMeasure = .ok m' ∧
      m' = survivingPrefixes S (Nat.log2 (u - 1) + 1) ∧ m' ≤ m := by
  obtain ⟨t, hc', hm⟩ := C25_trieMeasure hS hlen hu hu'
  obtain ⟨T, hc, hne, hT⟩ := flat_built hS hlen hu hu'
  rw [hc] at hc'
  injection hc' with hc'
  subst hc'
  obtain ⟨t', he, hbits, -⟩ := flatOf_encode_bits (pad := pad) (hw := 0) (runs := false) hne
  refine ⟨_, t', _, survivingPrefixes S (Nat.log2 (u - 1) + 1), hc, he, hm, ?_, rfl, surviving_le _ _⟩
  rw [trieMeasure_eq, hbits, List.count_append, count_edges]
  have := edges_prune _ T 0 hne (dvd_zero _)
  rw [hT.enum hS.increasing (fun x hx => lt_height (hS.below x hx))] at this
  simp [this]

example : ValidSet [0, 1, 2, 3, 5, 12] 16 ∧ survivingPrefixes [0, 1, 2, 3, 5, 12] 4 = 2 + 3 + 2 + 2 ∧
    (flatCtor [0, 1, 2, 3, 5, 12] 16 >>= fun t => t.encodeRuns 0 >>= FlatTrie.trieMeasure) = .ok 9 := by decide +kernel

/-- C40. `elements_coded` of a freshly built trie is the number of elements; after `encodeRuns` it leaves out exactly the
elements inside full aligned blocks of at least four numbers. -/
theorem C40_elements_coded {S : List Nat} {u : Nat} (hS : ValidSet S u) (hlen : S.length < 2 ^ 32) (hu : 3 ≤ u)
    (hu' : u ≤ 2 ^ 62) (pad : Nat) :
    ∃ t t', flatCtor S u = .ok t ∧ t.encodeRuns pad = .ok t' ∧ t.elementsCoded = S.length ∧
      t'.elementsCoded = (S.filter fun x => !fullBlock S 2 x).length := by
  obtain ⟨h1, h2⟩ := log2_bounds hu hu'
  obtain ⟨T, hc, hne, hT⟩ := flat_built hS hlen hu hu'
  have hb : ∀ x ∈ S, x < 2 ^ (Nat.log2 (u - 1) + 1) := fun x hx => lt_height (hS.below x hx)
  obtain ⟨t', he, -, hbits⟩ := flatOf_encode_bits (pad := pad) (hw := 0) (runs := false) hne
  refine ⟨_, t', hc, he, ?_, ?_⟩
  · rw [elementsCoded_eq, flatOf, count_bottom]
    simp only [List.map_singleton, List.sum_singleton]
    rw [bottom_eq _ T 0, hT.enum hS.increasing hb]
  · rw [elementsCoded_eq, hbits, count_bottom]
    simp only [List.map_singleton, List.sum_singleton]
    rw [bottom_prune _ T 0 hne (dvd_zero _), hT.enum hS.increasing hb]
    congr 1
    apply List.filter_congr
    intro x _
    rw [Bool.eq_iff_iff, survives_iff, Bool.not_eq_true']
    constructor
    · intro h; exact h 2 (by omega) (by omega) (by omega)
    · intro h i _ hi _
      rw [← Bool.not_eq_true, fullBlock_iff] at h ⊢
      intro hall
      apply h
      intro y hy
      apply hall
      obtain ⟨j, rfl⟩ : ∃ j, i = 2 + j := ⟨i - 2, by omega⟩
      rw [Nat.pow_add, ← Nat.div_div_eq_div_mul, ← Nat.div_div_eq_div_mul, hy]

example : ValidSet [0, 1, 2, 3, 5, 12] 16 ∧ [0, 1, 2, 3, 5, 12].filter (fun x => !fullBlock [0, 1, 2, 3, 5, 12] 2 x) = [5, 12] ∧
    (flatCtor [0, 1, 2, 3, 5, 12] 16).map FlatTrie.elementsCoded = .ok 6 ∧
    (flatCtor [0, 1, 2, 3, 5, 12] 16 >>= fun t => (t.encodeRuns 0).map FlatTrie.elementsCoded) = .ok 2 := by decide +kernel

/-- C30, flat tries: at most `2*(1 + n*(h-1))` bits, and `encodeRuns` never adds bits. -/
theorem C30_flat_size {S : List Nat} {u : Nat} (hS : ValidSet S u) (hlen : S.length < 2 ^ 32) (hu : 3 ≤ u) (hu' : u ≤ 2 ^ 62)
    (pad : Nat) :
    ∃ t t', flatCtor S u = .ok t ∧ t.encodeRuns pad = .ok t' ∧
      t.bTrie.length + t.lastLevel.length ≤ 2 * (1 + S.length * (t.height - 1)) ∧
      t'.bTrie.length + t'.lastLevel.length ≤ t.bTrie.length + t.lastLevel.length := by
  obtain ⟨T, hc, hne, hT⟩ := flat_built hS hlen hu hu'
  obtain ⟨t', he, hbits, -⟩ := flatOf_encode_bits (pad := pad) (hw := 0) (runs := false) hne
  have h1 := (size_le hne hT hS.increasing (fun x hx => lt_height (hS.below x hx))).1
  have h2 := prune_size (b := 1) _ [T] [prune 1 _ T] (List.Sublist.refl _)
  refine ⟨_, t', hc, he, ?_, ?_⟩
  · simp only [flatOf, length_leafBits, Nat.add_sub_cancel]
    omega
  · rw [← List.length_append, hbits]
    simp only [flatOf, length_leafBits, List.length_append]
    omega

example : ValidSet [0, 1, 2, 3, 5, 12] 16 ∧
    (flatCtor [0, 1, 2, 3, 5, 12] 16).map (fun t => t.bTrie.length + t.lastLevel.length) = .ok 20 ∧
    (flatCtor [0, 1, 2, 3, 5, 12] 16 >>= fun t => (t.encodeRuns 0).map fun t => t.bTrie.length + t.lastLevel.length) = .ok 16 := by
  decide +kernel

/-- C30, level-wise tries. -/
theorem C30_level_size {S : List Nat} {u : Nat} (hS : ValidSet S u) (hlen : S.length < 2 ^ 64) (hu : 2 ≤ u) (hu' : u ≤ 2 ^ 63)
    (il : Bool) (pad : Nat) :
    ∃ t t', levelCtor S u = .ok t ∧ t.encodeRuns il pad = .ok t' ∧
      t.bTrie.flatten.length ≤ 2 * (1 + S.length * (t.height - 1)) ∧
      t'.bTrie.flatten.length ≤ t.bTrie.flatten.length := by
  obtain ⟨T, hc, hne, hT⟩ := level_built hS hlen hu hu'
  have hd : Nat.log2 (u - 1) < 63 := (Nat.log2_lt (by omega)).2 (by omega)
  obtain ⟨k, -, -, he⟩ := levelOf_encode (pad := pad) (il := il) (hw := 0) (runs := false) (by omega) hne
  have h1 := (size_le hne hT hS.increasing (fun x hx => lt_height (hS.below x hx))).1
  have h2 := prune_size (b := 1) _ [T] [prune 1 _ T] (List.Sublist.refl _)
  refine ⟨_, _, hc, he, ?_, ?_⟩
  · rw [levelOf_height]
    simp only [levelOf, List.flatten_append, flatten_nodeLevels, List.length_append, List.flatten_singleton, length_leafBits,
      Nat.add_sub_cancel]
    omega
  · simp only [levelOf, List.flatten_append, flatten_nodeLevels, List.length_append, List.flatten_singleton, length_leafBits]
    omega

example : ValidSet [0, 1, 2, 3, 5, 12] 16 ∧
    (levelCtor [0, 1, 2, 3, 5, 12] 16).map (fun t => t.bTrie.flatten.length) = .ok 20 ∧
    (levelCtor [0, 1, 2, 3, 5, 12] 16 >>= fun t => (t.encodeRuns true 0).map fun t => t.bTrie.flatten.length) = .ok 16 := by
  decide +kernel

/-- C30, fast tries: the bits of the upper levels and the number of last-level words. -/
theorem C30_fast_size {lg : Nat} (hlg : 3 ≤ lg ∧ lg ≤ 6) {S : List Nat} {u : Nat} (hS : ValidSet S u)
    (hlen : S.length < 2 ^ 32) (hu : 2 ^ (lg - 1) < u) (hu' : u ≤ 2 ^ 62) (junk : FastJunk) (pad : Nat) :
    ∃ t t', fastCtor lg junk S u = .ok t ∧ t.encodeRuns lg pad = .ok t' ∧
      t.bTrie.length + 2 * t.lastLevel.length ≤ 2 * (1 + S.length * (t.height - 1)) ∧ t.lastLevel.length ≤ S.length ∧
      t'.bTrie.length ≤ t.bTrie.length ∧ t'.lastLevel.length ≤ t.lastLevel.length := by
  obtain ⟨T, hc, hne, hT⟩ := fast_built hlg hS hlen hu hu' junk
  obtain ⟨h0, hh, h2⟩ := fast_depth hlg hu hu'
  obtain ⟨k, he⟩ := fastOf_encode (pad := pad) (hw := junk.heightWithRuns) (runs := false) (empty := junk.emptyTrie) hne
  obtain ⟨h1, h1'⟩ := size_le hne hT hS.increasing (fun x hx => hh ▸ lt_height (hS.below x hx))
  have h2 := prune_size (b := lg) _ [T] [prune lg _ T] (List.Sublist.refl _)
  exact ⟨_, _, hc, he, h1, h1', h2⟩

example : ValidSet [0, 1, 2, 3, 4, 5, 6, 7, 8, 9, 10, 11, 12, 13, 14, 15, 40] 64 ∧
    (fastCtor 3 ⟨0, 0, 0, false, false⟩ [0, 1, 2, 3, 4, 5, 6, 7, 8, 9, 10, 11, 12, 13, 14, 15, 40] 64).map
      (fun t => (t.bTrie.length, t.lastLevel.length)) = .ok (10, 3) ∧
    (fastCtor 3 ⟨0, 0, 0, false, false⟩ [0, 1, 2, 3, 4, 5, 6, 7, 8, 9, 10, 11, 12, 13, 14, 15, 40] 64 >>= fun t =>
      (t.encodeRuns 3 0).map fun t => (t.bTrie.length, t.lastLevel.length)) = .ok (10, 1) := by decide +kernel

end CBT
