import Verif.Proof.RankBench
import Verif.Props.Tools

/-!
# C106: the program that times rank
-/

namespace CBT

open Spec

/-- C106, reading (partial). From a file with two numbers and then flat tries, in any state, the program gets the first vector of each of the
first `n`, if the compiler of the program that wrote the file evaluates the operands of `+` from left to right (C19). Missing: the files of
`build_tries`, which have a longer header; see `C106_built_negation`. -/
theorem C106_reads_partial (B : BvIO) (K : RankIO) (ts : List FlatTrie) (hb : ∀ t ∈ ts, t.bTrie.length < 2 ^ 64)
    (hl : ∀ t ∈ ts, t.lastLevel.length < 2 ^ 64) {a b n : Nat} (ha : a < 2 ^ 32) (hb' : b < 2 ^ 32) (hn : n ≤ ts.length) (rest : Bytes) :
    readBench B K n (leBytes 4 a ++ leBytes 4 b ++ ts.flatMap (fun t => (t.serialize B B K true).1) ++ rest) =
      .ok ((ts.take n).map (·.bTrie)) := by
  have h := readBench_serialize B K (ts.take n) (fun t ht => hb t (List.mem_of_mem_take ht)) (fun t ht => hl t (List.mem_of_mem_take ht))
    ha hb' ((ts.drop n).flatMap (fun t => (t.serialize B B K true).1) ++ rest)
  rw [List.length_take, Nat.min_eq_left hn] at h
  rw [← h]
  congr 1
  conv => lhs; rw [← List.take_append_drop n ts, List.flatMap_append]
  simp only [List.append_assoc]

example : readBench Ex.bvIO Ex.rankIO 2 (leBytes 4 1 ++ leBytes 4 64 ++
      [Ex.flat, Ex.flatR, Ex.flat].flatMap (fun t => (t.serialize Ex.bvIO Ex.bvIO Ex.rankIO true).1) ++ [7]) =
    .ok [Ex.flat.bTrie, Ex.flatR.bTrie] ∧ Ex.flat.bTrie ≠ [] := by decide +kernel

/-- C106, positions. Whatever `std::rand` gives, there are as many positions for a vector as a fiftieth of its size, rounded down, and all
lie inside it. In particular there is none for an empty vector, so no remainder modulo 0 is computed here. -/
theorem C106_positions (rand : Nat → Nat → Nat) (vs : List BV) :
    (benchRandom rand 0 vs).length = vs.length ∧
    ∀ i (h : i < vs.length) (h' : i < (benchRandom rand 0 vs).length),
      (benchRandom rand 0 vs)[i].length = vs[i].length / 50 ∧ ∀ p ∈ (benchRandom rand 0 vs)[i], p < vs[i].length := by
  refine ⟨length_benchRandom rand vs 0, fun i h h' => ?_⟩
  rw [getElem_benchRandom rand vs 0 i h h']
  exact ⟨length_benchPositions _ _, fun p hp => benchPositions_lt hp⟩

example : benchRandom (fun i j => 1000 * i + 77 * j) 0 [List.replicate 120 true, [], List.replicate 51 false] =
    [[0, 77], [], [2000 % 51]] := by decide +kernel

/-- C106, the sums (partial). For vectors of less than `2^31` bits all measurements print the same sum: that of the numbers of ones before the
positions, modulo `2^64`. Those of `rank_support_il` (`il`) do so only if no vector is empty, see `C106_empty_negation`. Missing: longer
vectors, see `C106_large_negation`. -/
theorem C106_sums_partial (il : Bool) (rand : Nat → Nat → Nat) {vs : List BV} (hv : ∀ v ∈ vs, v.length < 2 ^ 31) (h0 : il = true → [] ∉ vs) :
    benchRank il 0 vs (benchRandom rand 0 vs) =
      .ok (some (((vs.zip (benchRandom rand 0 vs)).map fun x => (x.2.map fun p => (x.1.take p).count true).sum).sum % 2 ^ 64)) := by
  rw [benchRank_random il rand vs 0 0 (by decide) (fun v h => by have := hv v h; omega), if_neg (fun h => h0 h.1 h.2), Nat.zero_add]
  have : ((vs.zip (benchRandom rand 0 vs)).map fun x => (x.2.map fun p => signed ((x.1.take p).count true)).sum) =
      (vs.zip (benchRandom rand 0 vs)).map fun x => (x.2.map fun p => (x.1.take p).count true).sum := by
    refine List.map_congr_left fun x hx => ?_
    congr 1
    refine List.map_congr_left fun p _ => signed_small ?_
    have h1 : ((x.1.take p).count true) ≤ x.1.length := Nat.le_trans List.count_le_length (List.length_take_le' ..)
    have h2 := hv x.1 (List.of_mem_zip hx).1
    omega
  rw [this]

example : benchRank true 0 [List.replicate 120 true, List.replicate 60 false] [[0, 77], [3]] = .ok (some 77) ∧
    benchRandom (fun i j => 3 * i + 77 * j) 0 [List.replicate 120 true, List.replicate 60 false] = [[0, 77], [3]] := by decide +kernel

/-- C106, the sums exactly, also of longer vectors: each rank counts as the number between `-2^31` and `2^31` that is equal to it modulo
`2^32`. -/
theorem C106_sums_exact (il : Bool) (rand : Nat → Nat → Nat) {vs : List BV} (hv : ∀ v ∈ vs, v.length < 50 * 2 ^ 32) (h0 : il = true → [] ∉ vs) :
    ∃ total : Nat, benchRank il 0 vs (benchRandom rand 0 vs) = .ok (some total) ∧ total < 2 ^ 64 ∧
      (total : Int) = ((vs.zip (benchRandom rand 0 vs)).map fun x =>
        (x.2.map fun p => Int.bmod ((x.1.take p).count true : Nat) (2 ^ 32)).sum).sum % 2 ^ 64 := by
  rw [benchRank_random il rand vs 0 0 (by decide) hv, if_neg (fun h => h0 h.1 h.2), Nat.zero_add]
  refine ⟨_, rfl, Nat.mod_lt _ (by decide), ?_⟩
  have h := sum_congr_mod₂ signed_bmod (fun x : BV × List Nat => x.2.map fun p => (x.1.take p).count true) (vs.zip (benchRandom rand 0 vs))
  simp only [List.map_map, Function.comp_def] at h
  rw [← h, Int.natCast_mod]
  rfl

example : Int.bmod (2 ^ 31 : Nat) (2 ^ 32) = -2 ^ 31 ∧ Int.bmod (2 ^ 31 - 1 : Nat) (2 ^ 32) = 2 ^ 31 - 1 ∧
    benchRank false 0 [List.replicate 120 true] (benchRandom (fun i j => i + 60 + j) 0 [List.replicate 120 true]) = .ok (some 121) := by
  decide +kernel

/-- C106, exactly when a measurement divides by zero, for vectors that `uint32_t` counters can handle: with `rank_support_il`, if some
vector is empty. -/
theorem C106_division_exact (il : Bool) (rand : Nat → Nat → Nat) {vs : List BV} (hv : ∀ v ∈ vs, v.length < 50 * 2 ^ 32) :
    benchRank il 0 vs (benchRandom rand 0 vs) = .ok none ↔ il = true ∧ [] ∈ vs := by
  rw [benchRank_random il rand vs 0 0 (by decide) hv]
  by_cases h : il = true ∧ [] ∈ vs
  · rw [if_pos h]
    exact ⟨fun _ => h, fun _ => rfl⟩
  · rw [if_neg h]
    exact ⟨fun hc => (by cases hc), fun hc => absurd hc h⟩

example : benchRank true 0 [[true, false], []] (benchRandom (fun _ _ => 5) 0 [[true, false], []]) = .ok none ∧
    benchRank false 0 [[true, false], []] (benchRandom (fun _ _ => 5) 0 [[true, false], []]) = .ok (some 0) := by decide +kernel

/-- C106 for files of plain tries. If a file has two numbers and then the tries that the constructor makes of lists of less than `2^24`
elements, all measurements end and print the same sum, that of the numbers of ones before the positions in the vectors of the tries. -/
theorem C106_plain (B : BvIO) (K : RankIO) (rand : Nat → Nat → Nat) {lists : List (List Nat)} {a u : Nat} (ha : a < 2 ^ 32) (hu : 3 ≤ u)
    (hu' : u < 2 ^ 32) (hl : ∀ S ∈ lists, ValidSet S u ∧ S.length < 2 ^ 24) :
    ∃ ts : List FlatTrie, List.Forall₂ (fun S t => flatCtor S u = .ok t) lists ts ∧
      ∀ il, rankBench B K il lists.length rand (leBytes 4 a ++ leBytes 4 u ++ ts.flatMap (fun t => (t.serialize B B K true).1)) =
        .ok (some ((((ts.map (·.bTrie)).zip (benchRandom rand 0 (ts.map (·.bTrie)))).map fun x =>
          (x.2.map fun p => (x.1.take p).count true).sum).sum % 2 ^ 64)) := by
  obtain ⟨ts, h0⟩ := forall₂_of_exists lists fun S hS => flat_first_vector (hl S hS).1 (hl S hS).2 hu (by omega)
  have h2 : ∀ t ∈ ts, t.bTrie ≠ [] ∧ t.bTrie.length < 2 ^ 31 ∧ t.lastLevel.length < 2 ^ 64 := fun t ht => by
    obtain ⟨_, -, h⟩ := forall₂_mem_right h0 t ht
    exact h.2
  refine ⟨ts, h0.imp fun _ _ h => h.1, fun il => ?_⟩
  have hr := C106_reads_partial B K ts (fun t ht => by have := (h2 t ht).2.1; omega) (fun t ht => (h2 t ht).2.2) ha hu'
    (Nat.le_of_eq h0.length_eq) []
  rw [List.append_nil, h0.length_eq, List.take_length] at hr
  rw [rankBench, h0.length_eq, hr, R_bind_ok]
  refine C106_sums_partial il rand ?_ ?_
  · intro v hv
    obtain ⟨t, ht, rfl⟩ := List.mem_map.mp hv
    exact (h2 t ht).2.1
  · intro _ hv
    obtain ⟨t, ht, h3⟩ := List.mem_map.mp hv
    exact (h2 t ht).1 h3

example : (∀ S ∈ [[3, 4, 17, 31], [0, 3, 17, 31, 60]], ValidSet S 64 ∧ S.length < 2 ^ 24) ∧
    (do
      let t ← flatCtor [3, 4, 17, 31] 64
      let t' ← flatCtor [0, 3, 17, 31, 60] 64
      let f := leBytes 4 1 ++ leBytes 4 64 ++ [t, t'].flatMap (fun t => (t.serialize Ex.bvIO Ex.bvIO Ex.rankIO true).1)
      let a ← rankBench Ex.bvIO Ex.rankIO true 2 (fun i j => 7 + i + j) f
      let b ← rankBench Ex.bvIO Ex.rankIO false 2 (fun i j => 7 + i + j) f
      .ok (a == b && a.isSome)) = (.ok true : R Bool) := by decide +kernel

open Classical in
/-- C106 for files of run-encoded tries, exactly. The measurements of `rank_support_v` and `rank_support_v5` end and print the right sum. Those
of `rank_support_il` do if no list has every number below the power of two of the height; otherwise they divide by zero. -/
theorem C106_runs_exact (B : BvIO) (K : RankIO) (rand : Nat → Nat → Nat) {lists : List (List Nat)} {a u : Nat} (ha : a < 2 ^ 32) (hu : 3 ≤ u)
    (hu' : u < 2 ^ 32) (hl : ∀ S ∈ lists, ValidSet S u ∧ S.length < 2 ^ 24) (pad : Nat) :
    ∃ ts : List FlatTrie, List.Forall₂ (fun S t' => ∃ t, flatCtor S u = .ok t ∧ t.encodeRuns pad = .ok t') lists ts ∧
      ∀ il, rankBench B K il lists.length rand (leBytes 4 a ++ leBytes 4 u ++ ts.flatMap (fun t => (t.serialize B B K true).1)) =
        .ok (if il = true ∧ ∃ S ∈ lists, ∃ t, flatCtor S u = .ok t ∧ ∀ y < 2 ^ t.height, y ∈ S then none
          else some ((((ts.map (·.bTrie)).zip (benchRandom rand 0 (ts.map (·.bTrie)))).map fun x =>
            (x.2.map fun p => (x.1.take p).count true).sum).sum % 2 ^ 64)) := by
  obtain ⟨ts, h0⟩ := forall₂_of_exists (P := fun S t' => ∃ t, flatCtor S u = .ok t ∧ t.encodeRuns pad = .ok t' ∧
    (t'.bTrie = [] ↔ ∀ y < 2 ^ t.height, y ∈ S) ∧ t'.bTrie.length < 2 ^ 31 ∧ t'.lastLevel.length < 2 ^ 64) lists fun S hS => by
      obtain ⟨t, t', h⟩ := flat_runs_vector (hl S hS).1 (hl S hS).2 hu (by omega) pad
      exact ⟨t', t, h⟩
  have h2 : ∀ t ∈ ts, t.bTrie.length < 2 ^ 31 ∧ t.lastLevel.length < 2 ^ 64 := fun t ht => by
    obtain ⟨_, -, _, h⟩ := forall₂_mem_right h0 t ht
    exact h.2.2.2
  refine ⟨ts, h0.imp fun _ _ ⟨t, h⟩ => ⟨t, h.1, h.2.1⟩, fun il => ?_⟩
  have hr := C106_reads_partial B K ts (fun t ht => by have := (h2 t ht).1; omega) (fun t ht => (h2 t ht).2) ha hu'
    (Nat.le_of_eq h0.length_eq) []
  rw [List.append_nil, h0.length_eq, List.take_length] at hr
  rw [rankBench, h0.length_eq, hr, R_bind_ok]
  have hv : ∀ v ∈ ts.map (·.bTrie), v.length < 2 ^ 31 := fun v hv => by
    obtain ⟨t, ht, rfl⟩ := List.mem_map.mp hv
    exact (h2 t ht).1
  have hiff : [] ∈ ts.map (·.bTrie) ↔ ∃ S ∈ lists, ∃ t, flatCtor S u = .ok t ∧ ∀ y < 2 ^ t.height, y ∈ S := by
    constructor
    · intro h
      obtain ⟨t', ht, h3⟩ := List.mem_map.mp h
      obtain ⟨S, hS, t, h4, -, h5, -⟩ := forall₂_mem_right h0 t' ht
      exact ⟨S, hS, t, h4, h5.mp h3⟩
    · rintro ⟨S, hS, t, h3, h4⟩
      obtain ⟨t', ht, t'', h5, -, h6, -⟩ := forall₂_mem_left h0 S hS
      rw [h3] at h5
      injection h5 with h5
      exact List.mem_map.mpr ⟨t', ht, h6.mpr (h5 ▸ h4)⟩
  by_cases hc : il = true ∧ ∃ S ∈ lists, ∃ t, flatCtor S u = .ok t ∧ ∀ y < 2 ^ t.height, y ∈ S
  · rw [if_pos hc]
    exact (C106_division_exact il rand fun v h => by have := hv v h; omega).mpr ⟨hc.1, hiff.mpr hc.2⟩
  · rw [if_neg hc]
    exact C106_sums_partial il rand hv fun h1 h => hc ⟨h1, hiff.mp h⟩

example : (∀ S ∈ [[0, 1, 2, 3, 4, 5, 6, 7], [0, 1, 5]], ValidSet S 8 ∧ S.length < 2 ^ 24) ∧
    (flatCtor [0, 1, 2, 3, 4, 5, 6, 7] 8).map (fun t => decide (∀ y < 2 ^ t.height, y ∈ [0, 1, 2, 3, 4, 5, 6, 7])) = .ok true ∧
    (flatCtor [0, 1, 5] 8).map (fun t => decide (∀ y < 2 ^ t.height, y ∈ [0, 1, 5])) = .ok false := by decide +kernel

/-- C106 is false of files of run-encoded tries, the kind the program reads: the list of all numbers of a universe has an empty vector, and the
third measurement divides by zero. -/
theorem C106_empty_negation : ∃ t t' : FlatTrie, flatCtor [0, 1, 2, 3] 4 = .ok t ∧ t.encodeRuns 0 = .ok t' ∧
    ∀ (B : BvIO) (K : RankIO) (rand : Nat → Nat → Nat),
      rankBench B K true 1 rand (leBytes 4 1 ++ leBytes 4 4 ++ (t'.serialize B B K true).1) = .ok none ∧
      rankBench B K false 1 rand (leBytes 4 1 ++ leBytes 4 4 ++ (t'.serialize B B K true).1) = .ok (some 0) := by
  have h : ∃ t t' : FlatTrie, flatCtor [0, 1, 2, 3] 4 = .ok t ∧ t.encodeRuns 0 = .ok t' ∧ t'.bTrie = [] ∧ t'.lastLevel.length < 2 ^ 64 :=
    ⟨⟨2, 0, false, false, [true, true], [true, true, true, true]⟩, ⟨2, 1, true, false, [], [false, false]⟩, by decide +kernel,
      by decide +kernel, by decide +kernel, by decide +kernel⟩
  obtain ⟨t, t', h1, h2, h3, h4⟩ := h
  refine ⟨t, t', h1, h2, fun B K rand => ?_⟩
  have hr := C106_reads_partial B K [t'] (by simp [h3]) (by simpa using h4) (a := 1) (b := 4) (n := 1) (by decide) (by decide) (by simp) []
  simp only [List.flatMap_cons, List.flatMap_nil, List.append_nil, List.take_succ_cons, List.take_nil, List.map_cons, List.map_nil, h3] at hr
  constructor <;> rw [rankBench, hr, R_bind_ok] <;> rfl

/-- C106 is false of vectors of `2^31` bits or more: the ranks go through `int`, and those of `2^31` are added as negative numbers. -/
theorem C106_large_negation : ¬ ∀ (il : Bool) (rand : Nat → Nat → Nat) (vs : List BV), (∀ v ∈ vs, v.length < 50 * 2 ^ 32) →
    (il = true → [] ∉ vs) → benchRank il 0 vs (benchRandom rand 0 vs) =
      .ok (some (((vs.zip (benchRandom rand 0 vs)).map fun x => (x.2.map fun p => (x.1.take p).count true).sum).sum % 2 ^ 64)) := by
  intro h
  obtain ⟨N, hN⟩ : ∃ N, N = 2 ^ 31 := ⟨_, rfl⟩
  have hlen : ∀ v ∈ [List.replicate (N + 50) true], v.length < 50 * 2 ^ 32 := by
    intro v hv
    rw [List.mem_singleton.mp hv, List.length_replicate]
    omega
  have h1 := h false (fun _ _ => N) [List.replicate (N + 50) true] hlen (by simp)
  rw [benchRank_random false _ _ 0 0 (by decide) hlen] at h1
  have hp : benchPositions (fun _ => N) (List.replicate (N + 50) true) = List.replicate ((N + 50) / 50) N := by
    rw [benchPositions, List.length_replicate, Nat.mod_eq_of_lt (by omega), List.map_const', List.length_range]
  simp only [Bool.false_eq_true, false_and, if_false, benchRandom, List.zip_cons_cons, List.zip_nil_left, List.map_cons, List.map_nil,
    List.sum_cons, List.sum_nil, hp, List.map_replicate, List.take_replicate, List.count_replicate_self, List.sum_replicate_nat,
    Nat.min_eq_left (show N ≤ N + 50 by omega), signed, Except.ok.injEq, Option.some.injEq] at h1
  clear hp hlen h
  subst hN
  exact absurd h1 (by decide +kernel)

/-- C106 is false of the files of `build_tries`: the program does not get the vectors of the tries, even of a single one with
`rank_support_v`. -/
theorem C106_built_negation : ¬ ∀ (F : Formats) (l : List Nat) (f : Bytes) (t : FlatTrie), flatCtor l 64 = .ok t →
    buildTries F 0 true 0 100 0 512 false false (collectionBytes 1 64 [l]) = .ok f → readBench F.bv F.v 1 f = .ok [t.bTrie] := by
  intro h
  have hw : (do
      let t ← flatCtor [3, 4, 17, 31] 64
      let f ← buildTries Ex.formats 0 true 0 100 0 512 false false (collectionBytes 1 64 [[3, 4, 17, 31]])
      .ok (decide (readBench Ex.formats.bv Ex.formats.v 1 f = .ok [t.bTrie]))) = (.ok false : R Bool) := by decide +kernel
  cases h1 : flatCtor [3, 4, 17, 31] 64 with
  | error e => rw [h1] at hw; exact absurd hw (by intro hc; cases hc)
  | ok t =>
    rw [h1, R_bind_ok] at hw
    cases h2 : buildTries Ex.formats 0 true 0 100 0 512 false false (collectionBytes 1 64 [[3, 4, 17, 31]]) with
    | error e => rw [h2] at hw; exact absurd hw (by intro hc; cases hc)
    | ok f =>
      rw [h2, R_bind_ok, h _ _ _ _ h1 h2] at hw
      simp at hw

end CBT
