import Verif.Proof.FlatCollapse

/-!
# C04, C05, C06, C27: run encoding keeps the set
-/

namespace CBT

open Spec

/-- C04 (partial). After `encodeRuns` a flat trie still decodes to the original set, with every access in bounds, provided
some aligned block of four numbers is only partly in the set. Missing: sets all of whose populated aligned blocks of four
are full; for those `C04_flat_runs_decode_iff` says exactly when decoding works. -/
theorem C04_flat_runs_decode_partial {S : List Nat} {u : Nat} (hS : ValidSet S u) (hlen : S.length < 2 ^ 32) (hu : 3 ≤ u)
    (hu' : u ≤ 2 ^ 62) (hpart : ∃ x ∈ S, ∃ y, y / 4 = x / 4 ∧ y ∉ S) (pad : Nat) (out : List Nat) :
    ∃ t t', flatCtor S u = .ok t ∧ t.encodeRuns pad = .ok t' ∧ t'.decode pad out = .ok (out ++ S) := by
  obtain ⟨h1, h2⟩ := log2_bounds hu hu'
  obtain ⟨T, hc, hne, hT⟩ := flat_built hS hlen hu hu'
  exact ⟨_, _, hc, flatOf_encode hne (leaves_of_part hT hS.below h1 hpart),
    flatOf_decode (by omega) hne.prune_nz (hT.prune hne) hS.increasing (fun x hx => lt_height (hS.below x hx)) out⟩

example : ValidSet [0, 1, 2, 3, 5, 8, 9, 10, 11, 12, 13, 14, 15] 16 ∧
    (5 ∈ [0, 1, 2, 3, 5, 8, 9, 10, 11, 12, 13, 14, 15] ∧ 6 / 4 = 5 / 4 ∧ 6 ∉ [0, 1, 2, 3, 5, 8, 9, 10, 11, 12, 13, 14, 15]) ∧
    (flatCtor [0, 1, 2, 3, 5, 8, 9, 10, 11, 12, 13, 14, 15] 16 >>= fun t => t.encodeRuns 0 >>= fun t => t.decode 0 [7]) =
      .ok [7, 0, 1, 2, 3, 5, 8, 9, 10, 11, 12, 13, 14, 15] := by decide +kernel

/-- C04, the exact condition, for every set: `encodeRuns` succeeds, and the encoded trie decodes to the original set iff some
populated aligned block of four is not full or the zeros `encodeRuns` moved to `lastLevel` are readable after `bTrie`.
Otherwise decoding reads out of bounds. -/
theorem C04_flat_runs_decode_iff {S : List Nat} {u : Nat} (hS : ValidSet S u) (hlen : S.length < 2 ^ 32) (hu : 3 ≤ u)
    (hu' : u ≤ 2 ^ 62) (pad : Nat) (out : List Nat) :
    ∃ t t', flatCtor S u = .ok t ∧ t.encodeRuns pad = .ok t' ∧
      (t'.decode pad out = .ok (out ++ S) ↔ (∃ x ∈ S, ∃ y, y / 4 = x / 4 ∧ y ∉ S) ∨ t'.lastLevel.length ≤ pad) ∧
      ((∃ out', t'.decode pad out = .ok out') ↔ t'.decode pad out = .ok (out ++ S)) := by
  obtain ⟨h1, h2⟩ := log2_bounds hu hu'
  obtain ⟨T, hc, hne, hT⟩ := flat_built hS hlen hu hu'
  obtain ⟨t', he, hh, hr, hem, hrep, hbad⟩ := flatOf_encode_cases (pad := pad) (hw := 0) (runs := false) hne
  have hb : ∀ x ∈ S, x < 2 ^ (Nat.log2 (u - 1) + 1) := fun x hx => lt_height (hS.below x hx)
  have good : (∃ x ∈ S, ∃ y, y / 4 = x / 4 ∧ y ∉ S) ∨ t'.lastLevel.length ≤ pad → t'.decode pad out = .ok (out ++ S) := by
    intro h
    have hrep := hrep (h.imp (leaves_of_part hT hS.below h1) id)
    rw [FlatTrie.decode, hr, hem, hh]
    simp only [if_true, Bool.false_eq_true, if_false]
    rw [runsRecDecode_rep (by rw [FlatTrie.nav, hh]; simp; omega) _ _ 0 _ 0 0 out hrep (by simp [FlatTrie.nav, hh]) (dvd_zero _)
      (Stops.refl _ _), (hT.prune hne).enum hS.increasing hb]
  have bad : ∀ out', t'.decode pad out = .ok out' → (∃ x ∈ S, ∃ y, y / 4 = x / 4 ∧ y ∉ S) ∨ t'.lastLevel.length ≤ pad := by
    intro out' h
    by_contra hc
    obtain ⟨hc1, hc2⟩ := not_or.1 hc
    refine hbad ?_ (by omega) out out' h
    refine leaves_nil_of_full _ T hne h1 fun x y hx hy hx' => ?_
    rw [hT x hx] at hx'
    have hy' := sameBlock_lt hy (by omega : 1 + 1 ≤ Nat.log2 (u - 1) + 1) hx
    rw [hT y hy', decide_eq_true_iff]
    by_contra hny
    exact hc1 ⟨x, by simpa using hx', y, hy, hny⟩
  exact ⟨_, t', hc, he, ⟨bad _, good⟩, ⟨fun ⟨o, h⟩ => good (bad o h), fun h => ⟨_, h⟩⟩⟩

example : ValidSet [0, 1, 2, 3, 12, 13, 14, 15] 16 ∧
    (flatCtor [0, 1, 2, 3, 12, 13, 14, 15] 16 >>= fun t => t.encodeRuns 0 >>= fun t => .ok t.lastLevel.length) = .ok 4 ∧
    (flatCtor [0, 1, 2, 3, 12, 13, 14, 15] 16 >>= fun t => t.encodeRuns 4 >>= fun t => t.decode 4 [7]) =
      .ok [7, 0, 1, 2, 3, 12, 13, 14, 15] ∧
    (flatCtor [0, 1, 2, 3, 12, 13, 14, 15] 16 >>= fun t => t.encodeRuns 3 >>= fun t => t.decode 3 [7]) = .error .oob := by
  decide +kernel

/-- C04 is false: a set whose last trie level collapses completely is read out of bounds after `encodeRuns`. -/
theorem C04_flat_runs_negation : ¬ ∀ (S : List Nat) (u : Nat), ValidSet S u → 3 ≤ u →
    ∃ t t', flatCtor S u = .ok t ∧ t.encodeRuns 0 = .ok t' ∧ t'.decode 0 [] = .ok S := by
  intro h
  obtain ⟨t, t', h1, h2, h3⟩ := h [0, 1, 2, 3] 8 (by decide +kernel) (by decide)
  have hc : flatCtor [0, 1, 2, 3] 8 = .ok ⟨3, 0, false, false, [true, false, true, true], [true, true, true, true]⟩ := by
    decide +kernel
  rw [hc] at h1
  cases h1
  have he : FlatTrie.encodeRuns ⟨3, 0, false, false, [true, false, true, true], [true, true, true, true]⟩ 0 =
      .ok ⟨3, 2, true, false, [true, false], [false, false]⟩ := by decide +kernel
  rw [he] at h2
  cases h2
  have hd : FlatTrie.decode ⟨3, 2, true, false, [true, false], [false, false]⟩ 0 [] = .error .oob := by decide +kernel
  rw [hd] at h3
  cases h3

/-- C05. After `encodeRuns` a level-wise trie still decodes to the original set, with every access in bounds. -/
theorem C05_level_runs_decode {S : List Nat} {u : Nat} (hS : ValidSet S u) (hlen : S.length < 2 ^ 64) (hu : 2 ≤ u)
    (hu' : u ≤ 2 ^ 63) (il : Bool) (pad : Nat) (out : List Nat) :
    ∃ t t', levelCtor S u = .ok t ∧ t.encodeRuns il pad = .ok t' ∧ t'.decode il pad out = .ok (out ++ S) := by
  have h0 : u - 1 ≠ 0 := by omega
  have h2 : Nat.log2 (u - 1) < 63 := (Nat.log2_lt h0).2 (by omega)
  obtain ⟨T, hc, hne, hT⟩ := level_built hS hlen hu (by omega)
  obtain ⟨k, _, hst, he⟩ := levelOf_encode (pad := pad) (il := il) (hw := 0) (runs := false) (by omega) hne
  exact ⟨_, _, hc, he, levelOf_decode (by omega) hne.prune_nz hst (hT.prune hne) hS.increasing
    (fun x hx => lt_height (hS.below x hx)) out⟩

example : ValidSet [0, 1, 2, 3] 8 ∧
    (levelCtor [0, 1, 2, 3] 8 >>= fun t => t.encodeRuns true 0 >>= fun t => t.decode true 0 [7]) = .ok [7, 0, 1, 2, 3] ∧
    (levelCtor [0, 1, 2, 3] 8 >>= fun t => t.encodeRuns false 0 >>= fun t => t.decode false 0 [7]) = .ok [7, 0, 1, 2, 3] := by
  decide +kernel

/-- C06 (partial). After `encodeRuns` a fast trie still decodes to the original set, provided the member `empty_trie`,
which no constructor writes, happens to be false. Missing: the other value, see `C06_fast_runs_negation`. -/
theorem C06_fast_runs_decode_partial {lg : Nat} (hlg : 3 ≤ lg ∧ lg ≤ 6) {S : List Nat} {u : Nat} (hS : ValidSet S u)
    (hlen : S.length < 2 ^ 32) (hu : 2 ^ (lg - 1) < u) (hu' : u ≤ 2 ^ 62) (junk : FastJunk) (hj : junk.emptyTrie = false)
    (pad : Nat) (out : List Nat) :
    ∃ t t', fastCtor lg junk S u = .ok t ∧ t.encodeRuns lg pad = .ok t' ∧ t'.decode lg pad out = .ok (out ++ S) := by
  obtain ⟨h0, h1, h2⟩ := fast_depth hlg hu hu'
  obtain ⟨T, hc, hne, hT⟩ := fast_built hlg hS hlen hu hu' junk
  obtain ⟨k, he⟩ := fastOf_encode (pad := pad) (hw := junk.heightWithRuns) (runs := false) (empty := junk.emptyTrie) hne
  refine ⟨_, _, hc, he, ?_⟩
  rw [hj]
  exact fastOf_decode hlg.2 (by omega) hne.prune_nz (hT.prune hne) hS.increasing
    (fun x hx => h1 ▸ lt_height (hS.below x hx)) out

example : ValidSet (List.range 32 ++ [40, 63]) 64 ∧ 2 ^ (3 - 1) < 64 ∧
    (fastCtor 3 ⟨9, 9, 9, true, false⟩ (List.range 32 ++ [40, 63]) 64 >>= fun t => t.encodeRuns 3 0 >>= fun t => t.decode 3 0 []) =
      .ok (List.range 32 ++ [40, 63]) := by decide +kernel

/-- C06, exactly: for every set, encoding succeeds, and decoding gives the set if the unwritten member `empty_trie` is false, nothing
if it is true. -/
theorem C06_fast_runs_decode_exact {lg : Nat} (hlg : 3 ≤ lg ∧ lg ≤ 6) {S : List Nat} {u : Nat} (hS : ValidSet S u)
    (hlen : S.length < 2 ^ 32) (hu : 2 ^ (lg - 1) < u) (hu' : u ≤ 2 ^ 62) (junk : FastJunk) (pad : Nat) (out : List Nat) :
    ∃ t t', fastCtor lg junk S u = .ok t ∧ t.encodeRuns lg pad = .ok t' ∧
      t'.decode lg pad out = .ok (if junk.emptyTrie then out else out ++ S) := by
  cases hj : junk.emptyTrie with
  | false => simpa using C06_fast_runs_decode_partial hlg hS hlen hu hu' junk hj pad out
  | true =>
    obtain ⟨h0, h1, h2⟩ := fast_depth hlg hu hu'
    obtain ⟨T, hc, hne, hT⟩ := fast_built hlg hS hlen hu hu' junk
    obtain ⟨k, he⟩ := fastOf_encode (pad := pad) (hw := junk.heightWithRuns) (runs := false) (empty := junk.emptyTrie) hne
    refine ⟨_, _, hc, he, ?_⟩
    rw [hj]
    simp [FastTrie.decode, fastOf]

example : (fastCtor 3 ⟨9, 9, 9, true, true⟩ (List.range 32 ++ [40, 63]) 64 >>= fun t => t.encodeRuns 3 0 >>= fun t => t.decode 3 0 [7]) =
    .ok [7] := by decide +kernel

/-- C06 is false: with the uninitialised `empty_trie` equal to true, every run-encoded fast trie decodes to nothing. -/
theorem C06_fast_runs_negation : ¬ ∀ (lg : Nat) (junk : FastJunk) (S : List Nat) (u : Nat), 3 ≤ lg ∧ lg ≤ 6 → ValidSet S u →
    2 ^ (lg - 1) < u → ∃ t t', fastCtor lg junk S u = .ok t ∧ t.encodeRuns lg 0 = .ok t' ∧ t'.decode lg 0 [] = .ok S := by
  intro h
  obtain ⟨t, t', h1, h2, h3⟩ := h 3 ⟨9, 9, 9, false, true⟩ [1] 8 (by decide) (by decide +kernel) (by decide)
  have hc : fastCtor 3 ⟨9, 9, 9, false, true⟩ [1] 8 = .ok ⟨1, 9, 3, false, true, [], [2]⟩ := by decide +kernel
  rw [hc] at h1
  cases h1
  have he : FastTrie.encodeRuns 3 ⟨1, 9, 3, false, true, [], [2]⟩ 0 = .ok ⟨1, 1, 3, true, true, [], [2]⟩ := by decide +kernel
  rw [he] at h2
  cases h2
  have hd : FastTrie.decode 3 ⟨1, 1, 3, true, true, [], [2]⟩ 0 [] = .ok [] := by decide +kernel
  rw [hd] at h3
  cases h3

/-! ## Encoding twice -/

/-- C27 (partial). If no aligned block of four numbers is full, a flat trie may be run-encoded twice. Missing: the sets
for which encoding does something, see `C27_runs_twice_negation`. -/
theorem C27_flat_runs_twice_partial {S : List Nat} {u : Nat} (hS : ValidSet S u) (hlen : S.length < 2 ^ 32) (hu : 3 ≤ u)
    (hu' : u ≤ 2 ^ 62) (hsp : ∀ x ∈ S, ∃ y, y / 4 = x / 4 ∧ y ∉ S) (pad : Nat) (out : List Nat) :
    ∃ t t' t'', flatCtor S u = .ok t ∧ t.encodeRuns pad = .ok t' ∧ t'.encodeRuns pad = .ok t'' ∧
      t''.decode pad out = .ok (out ++ S) := by
  obtain ⟨h1, h2⟩ := log2_bounds hu hu'
  obtain ⟨T, hc, hne, hT⟩ := flat_built hS hlen hu hu'
  have hpr := prune_sparse h1 hT hsp
  obtain ⟨x, hx⟩ := List.exists_mem_of_ne_nil _ hS.ne
  have hl := leaves_of_part hT hS.below h1 ⟨x, hx, hsp x hx⟩
  refine ⟨_, _, _, hc, flatOf_encode hne hl, by rw [hpr, flatOf_encode hne hl, hpr],
    flatOf_decode (by omega) hne.prune_nz (hT.prune hne) hS.increasing (fun x hx => lt_height (hS.below x hx)) out⟩

example : ValidSet [0, 1, 2, 5, 14] 16 ∧ (∀ x ∈ [0, 1, 2, 5, 14], ∃ y, y / 4 = x / 4 ∧ y ∉ [0, 1, 2, 5, 14]) ∧
    (flatCtor [0, 1, 2, 5, 14] 16 >>= fun t => t.encodeRuns 0 >>= fun t => t.encodeRuns 0 >>= fun t => t.decode 0 []) =
      .ok [0, 1, 2, 5, 14] :=
  ⟨by decide +kernel, fun x hx => by
    simp only [List.mem_cons, List.not_mem_nil, or_false] at hx
    rcases hx with rfl | rfl | rfl | rfl | rfl
    · exact ⟨3, by decide⟩
    · exact ⟨3, by decide⟩
    · exact ⟨3, by decide⟩
    · exact ⟨4, by decide⟩
    · exact ⟨12, by decide⟩, by decide +kernel⟩

/-- C27 (partial), level-wise tries. -/
theorem C27_level_runs_twice_partial {S : List Nat} {u : Nat} (hS : ValidSet S u) (hlen : S.length < 2 ^ 64) (hu : 3 ≤ u)
    (hu' : u ≤ 2 ^ 63) (hsp : ∀ x ∈ S, ∃ y, y / 4 = x / 4 ∧ y ∉ S) (il : Bool) (pad : Nat) (out : List Nat) :
    ∃ t t' t'', levelCtor S u = .ok t ∧ t.encodeRuns il pad = .ok t' ∧ t'.encodeRuns il pad = .ok t'' ∧
      t''.decode il pad out = .ok (out ++ S) := by
  obtain ⟨h1, h2⟩ := level_bounds hu hu'
  obtain ⟨T, hc, hne, hT⟩ := level_built hS hlen (by omega) (by omega)
  have hpr := prune_sparse h1 hT hsp
  obtain ⟨k, _, hst, he⟩ := levelOf_encode (pad := pad) (il := il) (hw := 0) (runs := false) (by omega) hne
  obtain ⟨k', _, hst', he'⟩ := levelOf_encode (pad := pad) (il := il) (hw := k + 1) (runs := true) (by omega) hne
  refine ⟨_, _, _, hc, he, by rw [hpr, he', hpr], levelOf_decode (by omega) hne.prune_nz hst' (hT.prune hne) hS.increasing
    (fun x hx => lt_height (hS.below x hx)) out⟩

example : ValidSet [1, 5] 8 ∧ (1 / 4 = 0 / 4 ∧ 0 ∉ [1, 5]) ∧ (4 / 4 = 5 / 4 ∧ 4 ∉ [1, 5]) ∧
    (levelCtor [1, 5] 8 >>= fun t => t.encodeRuns true 0 >>= fun t => t.encodeRuns true 0 >>= fun t => t.decode true 0 []) =
      .ok [1, 5] := by decide +kernel

/-- C27 (partial), fast tries: no aligned block of two words is full. -/
theorem C27_fast_runs_twice_partial {lg : Nat} (hlg : 3 ≤ lg ∧ lg ≤ 6) {S : List Nat} {u : Nat} (hS : ValidSet S u)
    (hlen : S.length < 2 ^ 32) (hu : 2 ^ lg < u) (hu' : u ≤ 2 ^ 62)
    (hsp : ∀ x ∈ S, ∃ y, y / 2 ^ (lg + 1) = x / 2 ^ (lg + 1) ∧ y ∉ S) (junk : FastJunk) (hj : junk.emptyTrie = false)
    (pad : Nat) (out : List Nat) :
    ∃ t t' t'', fastCtor lg junk S u = .ok t ∧ t.encodeRuns lg pad = .ok t' ∧ t'.encodeRuns lg pad = .ok t'' ∧
      t''.decode lg pad out = .ok (out ++ S) := by
  have hlt : 2 ^ (lg - 1) < u := (Nat.pow_le_pow_right (by omega) (by omega)).trans_lt hu
  obtain ⟨h0, h1, h2⟩ := fast_depth hlg hlt hu'
  have hlog : lg ≤ Nat.log2 (u - 1) := (Nat.le_log2 (by omega)).2 (by omega)
  obtain ⟨T, hc, hne, hT⟩ := fast_built hlg hS hlen hlt hu' junk
  have hpr := prune_sparse (by omega) hT hsp
  obtain ⟨k, he⟩ := fastOf_encode (pad := pad) (hw := junk.heightWithRuns) (runs := false) (empty := junk.emptyTrie) hne
  obtain ⟨k', he'⟩ := fastOf_encode (pad := pad) (hw := k) (runs := true) (empty := junk.emptyTrie) hne
  refine ⟨_, _, _, hc, he, by rw [hpr]; exact he', ?_⟩
  rw [hj]
  exact fastOf_decode hlg.2 (by omega) hne.prune_nz (hT.prune hne) hS.increasing
    (fun x hx => h1 ▸ lt_height (hS.below x hx)) out

example : ValidSet [1, 20] 32 ∧ (0 / 2 ^ (3 + 1) = 1 / 2 ^ (3 + 1) ∧ 0 ∉ [1, 20]) ∧ (21 / 2 ^ (3 + 1) = 20 / 2 ^ (3 + 1) ∧ 21 ∉ [1, 20]) ∧
    (fastCtor 3 ⟨9, 9, 9, true, false⟩ [1, 20] 32 >>= fun t => t.encodeRuns 3 0 >>= fun t => t.encodeRuns 3 0 >>=
      fun t => t.decode 3 0 []) = .ok [1, 20] := by decide +kernel

/-- C27 is false for the three families: a set with one full block of four and other elements is corrupted by the second
call, even when 64 zero bits are readable after the vectors. -/
theorem C27_runs_twice_negation :
    (flatCtor [0, 1, 2, 3, 5, 8, 14] 16 >>= fun t => t.encodeRuns 64 >>= fun t => t.encodeRuns 64 >>= fun t => t.decode 64 []) =
      .ok [0, 4, 10, 11, 12, 13, 14, 15] ∧
    (levelCtor [0, 1, 2, 3, 5, 8, 14] 16 >>= fun t => t.encodeRuns false 64 >>= fun t => t.encodeRuns false 64 >>=
      fun t => t.decode false 64 []) = .ok [1, 4, 10, 12, 13, 14, 15] ∧
    (fastCtor 3 ⟨9, 9, 9, false, false⟩ (List.range 16 ++ [18, 35, 60]) 64 >>= fun t => t.encodeRuns 3 64 >>=
      fun t => t.encodeRuns 3 64 >>= fun t => t.decode 3 64 []) = .error .oob := by decide +kernel

end CBT
