import Verif.Proof.DecodeCost
import Verif.Proof.FlatCollapse
import Verif.Props.Space

/-!
# C66: what `decode` reads
-/

namespace CBT

open Spec

/-- C66. The counters change nothing: same numbers, same undefined behaviour, for every trie in whatever state. -/
theorem C66_counters_change_nothing :
    (∀ (t : FlatTrie) (pad : Nat) (out : List Nat), (t.decodeC pad out).map Prod.fst = t.decode pad out) ∧
    (∀ (t : LevelTrie) (il : Bool) (pad : Nat) (out : List Nat), (t.decodeC il pad out).map Prod.fst = t.decode il pad out) ∧
    (∀ (lg : Nat) (t : FastTrie) (pad : Nat) (out : List Nat), (t.decodeC lg pad out).map Prod.fst = t.decode lg pad out) :=
  ⟨FlatTrie.decodeC_fst, LevelTrie.decodeC_fst, FastTrie.decodeC_fst⟩

theorem ctree_cost {d : Nat} {runs : Bool} {S : List Nat} {t : Tr d} (h : CTree 1 d (runs, S) t) :
    nodesOf d t + (leaves d [t]).length = storedAbove runs S (d + 1) 0 := by
  obtain ⟨h1, h2⟩ := h.size
  rw [length_flatBits_nodesOf] at h1
  simp only [List.map_cons, List.map_nil, List.sum_cons, List.sum_nil] at h1
  rw [storedAbove_zero]
  omega

/-- C66, flat tries: `decode` reads every node once, that is one node for every block of at least two numbers with an element, and
moves once for every distinct prefix of an element. After `encodeRuns` only for the blocks and prefixes that are not inside a larger full
block, whenever the encoded trie can be decoded (C04). -/
theorem C66_flat {S : List Nat} {u : Nat} (hS : ValidSet S u) (hlen : S.length < 2 ^ 32) (hu : 3 ≤ u) (hu' : u ≤ 2 ^ 62) (pad : Nat)
    (out : List Nat) :
    ∃ t t', flatCtor S u = .ok t ∧ t.encodeRuns pad = .ok t' ∧
      t.decodeC pad out = .ok (out ++ S, ⟨storedAbove false S t.height 0, allPrefixes S t.height, 0⟩) ∧
      ((∃ x ∈ S, ∃ y, y / 4 = x / 4 ∧ y ∉ S) ∨ t'.lastLevel.length ≤ pad →
        t'.decodeC pad out = .ok (out ++ S, ⟨storedAbove true S t.height 0, survivingPrefixes S t.height, 0⟩)) := by
  obtain ⟨h1, h2⟩ := log2_bounds hu hu'
  obtain ⟨T, hc, hne, hT⟩ := flat_built hS hlen hu hu'
  have hb : ∀ x ∈ S, x < 2 ^ (Nat.log2 (u - 1) + 1) := fun x hx => lt_height (hS.below x hx)
  obtain ⟨t', he, hh, hr, hem, hrep, -⟩ := flatOf_encode_cases (pad := pad) (hw := 0) (runs := false) hne
  have c1 := ctree_cost (ctree_plain hne hT hb)
  have c2 := ctree_cost (ctree_runs hne hT hb)
  have e1 := allPrefixes_root hne hT hS.increasing hb
  have e2 := edges_prune _ T 0 hne (dvd_zero _)
  rw [hT.enum hS.increasing hb] at e2
  refine ⟨_, t', hc, he, ?_, fun h => ?_⟩
  · rw [FlatTrie.decodeC]
    simp only [flatOf, Bool.false_eq_true, if_false]
    rw [← flatOf, recDecodeC_rep (by simp [FlatTrie.nav, flatOf]; omega) _ 0 _ 0 0 out (flatOf_rep hne.nz)
      (by simp [FlatTrie.nav, flatOf]) (dvd_zero _), hT.enum hS.increasing hb, decCost_pair, c1, e1]
  · have hrep := hrep (h.imp (leaves_of_part hT hS.below h1) id)
    rw [FlatTrie.decodeC, hr, hem, hh]
    simp only [if_true, Bool.false_eq_true, if_false]
    rw [runsRecDecodeC_rep (by rw [FlatTrie.nav, hh]; simp; omega) _ _ 0 _ 0 0 out hrep (by simp [FlatTrie.nav, hh]) (dvd_zero _)
      (Stops.refl _ _), (hT.prune hne).enum hS.increasing hb, decCost_pair, c2, e2]
    rfl

example : ValidSet [0, 1, 2, 3, 5, 12] 16 ∧ (5 ∈ [0, 1, 2, 3, 5, 12] ∧ 6 / 4 = 5 / 4 ∧ 6 ∉ [0, 1, 2, 3, 5, 12]) ∧
    (flatCtor [0, 1, 2, 3, 5, 12] 16 >>= fun t => t.decodeC 0 [7]) = .ok ([7, 0, 1, 2, 3, 5, 12], ⟨10, 15, 0⟩) ∧
    (flatCtor [0, 1, 2, 3, 5, 12] 16 >>= fun t => t.encodeRuns 0 >>= fun t => t.decodeC 0 [7]) =
      .ok ([7, 0, 1, 2, 3, 5, 12], ⟨8, 9, 0⟩) := by decide +kernel

/-- C66, level-wise tries. -/
theorem C66_level {S : List Nat} {u : Nat} (hS : ValidSet S u) (hlen : S.length < 2 ^ 64) (hu : 2 ≤ u) (hu' : u ≤ 2 ^ 63) (il : Bool)
    (pad : Nat) (out : List Nat) :
    ∃ t t', levelCtor S u = .ok t ∧ t.encodeRuns il pad = .ok t' ∧
      t.decodeC il pad out = .ok (out ++ S, ⟨storedAbove false S t.height 0, allPrefixes S t.height, 0⟩) ∧
      t'.decodeC il pad out = .ok (out ++ S, ⟨storedAbove true S t.height 0, survivingPrefixes S t.height, 0⟩) := by
  have h0 : u - 1 ≠ 0 := by omega
  have h2 : Nat.log2 (u - 1) < 63 := (Nat.log2_lt h0).2 (by omega)
  obtain ⟨T, hc, hne, hT⟩ := level_built hS hlen hu (by omega)
  have hb : ∀ x ∈ S, x < 2 ^ (Nat.log2 (u - 1) + 1) := fun x hx => lt_height (hS.below x hx)
  obtain ⟨k, -, hst, he⟩ := levelOf_encode (pad := pad) (il := il) (hw := 0) (runs := false) (by omega) hne
  have c1 := ctree_cost (ctree_plain hne hT hb)
  have c2 := ctree_cost (ctree_runs hne hT hb)
  have e1 := allPrefixes_root hne hT hS.increasing hb
  have e2 := edges_prune _ T 0 hne (dvd_zero _)
  rw [hT.enum hS.increasing hb] at e2
  refine ⟨_, _, hc, he, ?_, ?_⟩
  · rw [LevelTrie.decodeC, levelOf_height]
    simp only [levelOf, Bool.false_eq_true, if_false]
    rw [← levelOf, recDecodeC_rep (by simp only [LevelTrie.nav, levelOf_height]; omega) _ 0 _ 0 0 out (levelOf_rep (by omega) hne.nz)
      (by simp only [LevelTrie.nav, levelOf_height]; omega) (dvd_zero _), hT.enum hS.increasing hb, decCost_pair, c1, e1]
  · rw [levelOf_height, LevelTrie.decodeC]
    simp only [levelOf, Bool.false_eq_true, if_false, if_true]
    rw [← levelOf, runsRecDecodeC_rep (by simp only [LevelTrie.nav, levelOf_height]; omega) _ _ 0 _ 0 0 out
      (levelOf_rep (by omega) hne.prune_nz) (by simp only [LevelTrie.nav, levelOf_height]; omega) (dvd_zero _) hst,
      (hT.prune hne).enum hS.increasing hb, decCost_pair, c2, e2]

example : (levelCtor [0, 1, 2, 3, 5, 12] 16 >>= fun t => t.decodeC true 0 [7]) = .ok ([7, 0, 1, 2, 3, 5, 12], ⟨10, 15, 0⟩) ∧
    (levelCtor [0, 1, 2, 3, 5, 12] 16 >>= fun t => t.encodeRuns false 0 >>= fun t => t.decodeC false 0 [7]) =
      .ok ([7, 0, 1, 2, 3, 5, 12], ⟨8, 9, 0⟩) := by decide +kernel

/-- C66, fast tries: one node for every stored block larger than a word, one word for every stored word, and one move to each of them
but the root; nothing at all if the unwritten member `empty_trie` is true (C06). -/
theorem C66_fast {lg : Nat} (hlg : 3 ≤ lg ∧ lg ≤ 6) {S : List Nat} {u : Nat} (hS : ValidSet S u) (hlen : S.length < 2 ^ 32)
    (hu : 2 ^ (lg - 1) < u) (hu' : u ≤ 2 ^ 62) (junk : FastJunk) (pad : Nat) (out : List Nat) :
    ∃ t t', fastCtor lg junk S u = .ok t ∧ t.encodeRuns lg pad = .ok t' ∧
      (let N := storedAbove false S (t.height - 1 + lg) lg
       let W := storedAt false S (t.height - 1 + lg) lg
       t.decodeC lg pad out = .ok (out ++ S, ⟨N, N + W - 1, W⟩)) ∧
      (let N := storedAbove true S (t.height - 1 + lg) lg
       let W := storedAt true S (t.height - 1 + lg) lg
       t'.decodeC lg pad out = .ok (if junk.emptyTrie then (out, ⟨0, 0, 0⟩) else (out ++ S, ⟨N, N + W - 1, W⟩))) := by
  obtain ⟨h0, hh, h2⟩ := fast_depth hlg hu hu'
  obtain ⟨T, hc, hne, hT⟩ := fast_built hlg hS hlen hu hu' junk
  have hb : ∀ x ∈ S, x < 2 ^ (Nat.log2 (u - 1) + 1 - lg + lg) := fun x hx => hh ▸ lt_height (hS.below x hx)
  obtain ⟨k, he⟩ := fastOf_encode (pad := pad) (hw := junk.heightWithRuns) (runs := false) (empty := junk.emptyTrie) hne
  have key : ∀ {runs : Bool} {t : Tr (Nat.log2 (u - 1) + 1 - lg)}, CTree lg _ (runs, S) t → decCost wordLeaf _ t =
      ⟨storedAbove runs S (Nat.log2 (u - 1) + 1 - lg + lg) lg, storedAbove runs S (Nat.log2 (u - 1) + 1 - lg + lg) lg +
        storedAt runs S (Nat.log2 (u - 1) + 1 - lg + lg) lg - 1, storedAt runs S (Nat.log2 (u - 1) + 1 - lg + lg) lg⟩ := by
    intro runs t h
    obtain ⟨h1, h2⟩ := h.size
    obtain ⟨h3, h4, h5⟩ := decCost_word _ t
    rw [length_flatBits_nodesOf] at h1
    simp only [List.map_cons, List.map_nil, List.sum_cons, List.sum_nil] at h1
    refine Cost.ext' ?_ ?_ ?_ <;> simp only <;> omega
  have c1 := key (ctree_plain hne hT hb)
  have c2 := key (ctree_runs hne hT hb)
  refine ⟨_, _, hc, he, ?_, ?_⟩
  · simp only [FastTrie.decodeC, fastOf, Bool.false_eq_true, if_false, Nat.add_eq_zero_iff, one_ne_zero, and_false, Nat.add_sub_cancel]
    rw [← fastOf, fastRecDecodeC_rep hlg.2 (by omega) _ 0 _ 0 0 out (fastOf_rep hne.nz) (by omega) (dvd_zero _),
      hT.enum hS.increasing hb, c1]
  · simp only [FastTrie.decodeC, fastOf, if_true, Nat.add_eq_zero_iff, one_ne_zero, and_false, if_false, Nat.add_sub_cancel]
    cases junk.emptyTrie with
    | true => rfl
    | false =>
      simp only [Bool.false_eq_true, if_false]
      rw [← fastOf, fastRunsRecDecodeC_rep hlg.2 (by omega) _ 0 _ 0 0 out (fastOf_rep hne.prune_nz) (by omega) (dvd_zero _),
        (hT.prune hne).enum hS.increasing hb, c2]

example : (fastCtor 3 ⟨0, 0, 0, false, false⟩ (List.range' 1 61) 64 >>= fun t => t.decodeC 3 0 []) = .ok (List.range' 1 61, ⟨7, 14, 8⟩) ∧
    (fastCtor 3 ⟨0, 0, 0, false, false⟩ (List.range' 1 61) 64 >>= fun t => t.encodeRuns 3 0 >>= fun t => t.decodeC 3 0 []) =
      .ok (List.range' 1 61, ⟨7, 10, 4⟩) := by decide +kernel

/-- C66, how much that is: to decode a run-encoded trie of `r` runs, at most `k (h - log₂ k + 1)` nodes with `k = 4r + 2` are read,
however many elements are written out. -/
theorem C66_level_bound {S : List Nat} {u : Nat} (hS : ValidSet S u) (hlen : S.length < 2 ^ 64) (hu : 2 ≤ u) (hu' : u ≤ 2 ^ 63)
    (il : Bool) (pad : Nat) :
    ∃ t t' k k', levelCtor S u = .ok t ∧ t.encodeRuns il pad = .ok t' ∧ t.decodeC il pad [] = .ok (S, k) ∧
      t'.decodeC il pad [] = .ok (S, k') ∧ t.height = Nat.log2 (u - 1) + 1 ∧ k.nodes ≤ treePart S.length t.height ∧
      k'.nodes ≤ k.nodes ∧ k'.nodes ≤ treePart (2 * (2 * runCount S + 1)) t.height := by
  obtain ⟨t, t', h1, h2, h3, h4⟩ := C66_level hS hlen hu hu' il pad []
  obtain ⟨T, hc, -, -⟩ := level_built hS hlen hu (by omega)
  refine ⟨t, t', _, _, h1, h2, by simpa using h3, by simpa using h4, ?_, storedAbove_le hS.ne false _ 0, ?_, storedAbove_runs S _ 0⟩
  · rw [hc] at h1
    injection h1 with h1
    rw [← h1]
    exact levelOf_height
  · refine sum_le_sum fun i _ => ?_
    rw [storedAt, storedAt]
    refine List.Sublist.length_le (List.monotone_filter_right _ fun k hk => ?_)
    simp only [Bool.and_eq_true] at hk
    simp [hk.1]

example : (levelCtor (List.range' 1 61) 64 >>= fun t => t.encodeRuns false 0 >>= fun t' => t.decodeC false 0 [] >>= fun a =>
    t'.decodeC false 0 [] >>= fun b => .ok (a.2.nodes, b.2.nodes, decide (a.1 = b.1))) = .ok (62, 18, true) := by decide +kernel

end CBT
