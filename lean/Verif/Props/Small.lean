import Verif.Props.Decode
import Verif.Props.Parallel
import Verif.Proof.SmallFast
import Verif.Props.Intersect

/-!
# C32: the smallest universes
-/

namespace CBT

open Spec

/-- The valid sets over the universe `{0, 1}`. -/
theorem valid_two {S : List Nat} (h : ValidSet S 2) : S = [0] ∨ S = [1] ∨ S = [0, 1] := by
  obtain ⟨h1, h2, h3⟩ := h
  match S, h1, h2, h3 with
  | [a], _, _, h3 =>
    have := h3 a (by simp)
    have : a = 0 ∨ a = 1 := by omega
    rcases this with rfl | rfl <;> simp
  | [a, b], _, h2, h3 =>
    have := h3 b (by simp)
    have : a < b := by simpa using h2
    obtain ⟨rfl, rfl⟩ : a = 0 ∧ b = 1 := by omega
    simp
  | a :: b :: c :: l, _, h2, h3 =>
    have := h3 c (by simp)
    have : a < b ∧ b < c := by
      simp only [List.pairwise_cons, List.mem_cons] at h2
      exact ⟨h2.1 b (.inl rfl), h2.2.1 c (.inl rfl)⟩
    omega

/-- C32 is false for flat tries over `u = 2`: for every set the constructor returns a trie that cannot be decoded, intersected
or run-encoded without reading out of bounds, whatever follows the bit vectors in memory. -/
theorem C32_flat_negation {S : List Nat} (hS : ValidSet S 2) (pad : Nat) :
    ∃ t, flatCtor S 2 = .ok t ∧ t.height = 1 ∧ (∀ out, t.decode pad out = .error .oob) ∧ t.encodeRuns pad = .error .oob ∧
      ∀ env, env.hw ≠ 0 → intersect [t.nav pad] false false env = .error .oob := by
  refine ⟨⟨1, 0, false, false, [false, false], []⟩, ?_, rfl, fun out => rfl, rfl, ?_⟩
  · rcases valid_two hS with rfl | rfl | rfl <;> decide +kernel
  · intro env hw
    simp only [intersect, intersectBody, hw, if_false, List.any_cons, List.any_nil]
    rfl

example : ValidSet [0, 1] 2 ∧ ValidSet [1] 2 ∧ ValidSet [0] 2 := by decide +kernel

/-- C32 (partial), level-wise tries over `u = 2`: building, decoding and sequential intersection work. Missing: parallel
intersection, see `C32_level_parallel_negation`. -/
theorem C32_level_partial {pad : Nat} {sets : List (List Nat)} {ts : List LevelTrie} (il : Bool)
    (h : List.Forall₂ (fun S t => ValidSet S 2 ∧ levelCtor S 2 = .ok t) sets ts) (hne : ts ≠ []) (hlen : ts.length ≤ 16)
    (env : Env) (hw : env.hw ≠ 0) :
    List.Forall₂ (fun S t => t.height = 1 ∧ ∀ out, t.decode il pad out = .ok (out ++ S)) sets ts ∧
    ∃ R, intersect (ts.map (LevelTrie.nav · il pad)) false false env = .ok R ∧ IsIntersection sets R := by
  have hl : ∀ S, ValidSet S 2 → S.length < 2 ^ 64 := by
    intro S hS
    rcases valid_two hS with rfl | rfl | rfl <;> decide
  have hh : ∀ S t, ValidSet S 2 → levelCtor S 2 = .ok t → t.height = 1 := by
    intro S t hS hc
    obtain ⟨T, hc', -, -⟩ := level_built hS (hl S hS) (by decide) (by decide)
    rw [hc'] at hc
    cases hc
    exact levelOf_height
  constructor
  · refine h.imp fun S t ⟨hS, hc⟩ => ⟨hh S t hS hc, fun out => ?_⟩
    obtain ⟨t', hc', hd⟩ := C02_level_build_decode hS (hl S hS) (by decide) (by decide) il pad out
    rw [hc'] at hc
    cases hc
    exact hd
  · refine C07_seq_intersect_plain (pad := pad) (h := 1) ?_ (by simpa using hne) (by simpa using hlen) env hw
    rw [List.forall₂_map_right_iff]
    exact h.imp fun S t ⟨hS, hc⟩ => .level (u := 2) il hS (hl S hS) (by decide) (by decide) hc (hh S t hS hc)

example : ValidSet [0, 1] 2 ∧ ValidSet [1] 2 ∧ levelCtor [0, 1] 2 = .ok ⟨0, false, false, [[true, true]]⟩ ∧
    levelCtor [1] 2 = .ok ⟨0, false, false, [[false, true]]⟩ ∧
    intersect [LevelTrie.nav ⟨0, false, false, [[true, true]]⟩ true 0, LevelTrie.nav ⟨0, false, false, [[false, true]]⟩ true 0]
      false false ⟨1, [], []⟩ = .ok [1] := by decide +kernel

/-- C32 is false for parallel intersection of level-wise tries over `u = 2`: with four or more hardware threads the call on
a trie of any set reads a level that does not exist. -/
theorem C32_level_parallel_negation {S : List Nat} (hS : ValidSet S 2) (pad : Nat) (il : Bool) (env : Env) (hw : 4 ≤ env.hw)
    (hw' : env.hw < 2 ^ 32) :
    ∃ t, levelCtor S 2 = .ok t ∧ intersect [t.nav il pad] false true env = .error .oob := by
  obtain ⟨c, hc⟩ : ∃ c, Nat.log2 env.hw = c + 2 := ⟨Nat.log2 env.hw - 2, by
    have : 2 ≤ Nat.log2 env.hw := (Nat.le_log2 (by omega)).2 (by omega)
    omega⟩
  have h2 : Nat.log2 env.hw < 32 := (Nat.log2_lt (by omega)).2 hw'
  have h0 : env.hw ≠ 0 := by omega
  have key : ∀ v, v ∈ [[true, false], [false, true], [true, true]] →
      intersect [LevelTrie.nav ⟨0, false, false, [v]⟩ il pad] false true env = .error .oob := by
    intro v hv
    simp only [intersect, intersectBody, h0, if_false, List.any_cons, List.any_nil, hc]
    have e : ((LevelTrie.nav ⟨0, false, false, [v]⟩ il pad).height + 2 ^ 64 - 2) % 2 ^ 64 = 2 ^ 64 - 1 := by
      simp [LevelTrie.nav, LevelTrie.height]
    simp only [e]
    rw [if_pos (show True ∧ c + 2 ≤ 2 ^ 64 - 1 from ⟨trivial, by omega⟩)]
    simp only [List.mem_cons, List.not_mem_nil, or_false] at hv
    rcases hv with rfl | rfl | rfl <;> cases il <;> rfl
  rcases valid_two hS with rfl | rfl | rfl
  · exact ⟨_, by decide +kernel, key [true, false] (by simp)⟩
  · exact ⟨_, by decide +kernel, key [false, true] (by simp)⟩
  · exact ⟨_, by decide +kernel, key [true, true] (by simp)⟩

example : ValidSet [0, 1] 2 ∧ 4 ≤ (⟨4, [], []⟩ : Env).hw := by decide +kernel

/-- C32 (partial), fast tries over a universe of at most one word (`2^(lg-1) < u <= 2^lg`): building, decoding and sequential
intersection work. Missing: smaller universes, for which the constructor fails (`C32_fast_ctor_negation`), and parallel
intersection (`C13_fast_parallel_height1_negation`). -/
theorem C32_fast_partial {lg u pad : Nat} (hlg : 3 ≤ lg ∧ lg ≤ 6) (hu : 2 ^ (lg - 1) < u) (hu' : u ≤ 2 ^ lg) (junk : FastJunk)
    {sets : List (List Nat)} {ts : List FastTrie}
    (h : List.Forall₂ (fun S t => ValidSet S u ∧ S.length < 2 ^ 32 ∧ fastCtor lg junk S u = .ok t) sets ts) (hne : ts ≠ [])
    (hlen : ts.length ≤ 16) (env : Env) (hw : env.hw ≠ 0) :
    List.Forall₂ (fun S t => t.height = 1 ∧ ∀ out, t.decode lg pad out = .ok (out ++ S)) sets ts ∧
    ∃ R, fastIntersect lg (ts.map (FastTrie.nav · pad)) false false env = .ok R ∧ IsIntersection sets R := by
  have hu'' : u ≤ 2 ^ 62 := hu'.trans (Nat.pow_le_pow_right (by omega) (by omega))
  have hpl : 2 ^ 2 ≤ 2 ^ (lg - 1) := Nat.pow_le_pow_right (by omega) (by omega)
  have hlog : Nat.log2 (u - 1) < lg := (Nat.log2_lt (by omega)).2 (by omega)
  have hh : ∀ S t, ValidSet S u → S.length < 2 ^ 32 → fastCtor lg junk S u = .ok t → t.height = 1 := by
    intro S t hS hl hc
    obtain ⟨T, hc', -, -⟩ := fast_built hlg hS hl hu hu'' junk
    rw [hc'] at hc
    cases hc
    simp only [fastOf]
    omega
  constructor
  · refine h.imp fun S t ⟨hS, hl, hc⟩ => ⟨hh S t hS hl hc, fun out => ?_⟩
    obtain ⟨t', hc', hd⟩ := C03_fast_build_decode hlg hS hl hu hu'' junk pad out
    rw [hc'] at hc
    cases hc
    exact hd
  · refine C09_fast_seq_intersect_plain (pad := pad) (h := 1) hlg ?_ (by simpa using hne) (by simpa using hlen) env hw
    rw [List.forall₂_map_right_iff]
    exact h.imp fun S t ⟨hS, hl, hc⟩ => .mk hS hl hu hu'' hc (hh S t hS hl hc)

example : 2 ^ (3 - 1) < 8 ∧ 8 ≤ 2 ^ 3 ∧ ValidSet [1, 3] 8 ∧ fastCtor 3 Ex.junk [1, 3] 8 = .ok Ex.fast1 := by decide +kernel

/-- C32 is false for fast tries over universes of at most half a word: the constructor has undefined behaviour, whatever the
set. -/
theorem C32_fast_ctor_negation {lg u : Nat} (hu : u ≤ 2 ^ (lg - 1)) (S : List Nat) (junk : FastJunk) :
    ∀ t, fastCtor lg junk S u ≠ .ok t := fastCtor_small hu S junk

example : 4 ≤ 2 ^ (3 - 1) ∧ fastCtor 3 Ex.junk [1, 3] 4 = .error .shift ∧ fastCtor 3 Ex.junk [1] 2 = .error .conv := by decide +kernel

end CBT
