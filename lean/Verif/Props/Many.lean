import Verif.Spec
import Verif.Proof.BuildMany
import Verif.Props.Decode

/-!
# C68: sets of more than 2^32 elements

`n = set.size()` is a `uint32_t` in the constructors of flat tries (include/flatBinTrie.hpp:30) and fast tries
(include/fastBinaryTrie.hpp:36), and a `uint64_t` in those of level-wise tries (include/binTrie.hpp:30), for which
`C02_level_build_decode` states the claim for all lengths.
-/

namespace CBT

open Spec

/-- C68. What is left of a set of any size: the trie holds the first `k` elements, `k` from 1 to 2^32 and congruent to
the number of elements modulo 2^32. Nothing is reported. -/
theorem C68_flat_partial {S : List Nat} {u : Nat} (hS : ValidSet S u) (hlen : S.length < 2 ^ 64) (hu : 3 ≤ u)
    (hu' : u ≤ 2 ^ 62) : ∃ k, 1 ≤ k ∧ k ≤ 2 ^ 32 ∧ k ≤ S.length ∧ k % 2 ^ 32 = S.length % 2 ^ 32 ∧
      ∃ t, flatCtor S u = .ok t ∧ ∀ pad out, t.decode pad out = .ok (out ++ S.take k) := by
  have hpos : 0 < S.length := List.length_pos_iff.2 hS.ne
  have h0 : u - 1 ≠ 0 := by omega
  have h1 : 1 ≤ Nat.log2 (u - 1) := (Nat.le_log2 h0).2 (by omega)
  have h2 : Nat.log2 (u - 1) < 62 := (Nat.log2_lt h0).2 (by omega)
  refine ⟨(S.length - 1) % 2 ^ 32 + 1, by omega, by omega, by omega, by omega, _,
    flatCtor_kept hS.ne hlen (by omega) rfl h1 (by omega), fun pad out => ?_⟩
  have hne := (kept_at hS.ne).1
  have hs := hS.increasing.sublist (List.take_sublist ((S.length - 1) % 2 ^ 32 + 1) S)
  have hb : ∀ x ∈ S.take ((S.length - 1) % 2 ^ 32 + 1), x < 2 ^ (Nat.log2 (u - 1) + 1) :=
    fun x hx => lt_height (hS.below x ((List.take_sublist _ _).subset hx))
  simp only at hne
  generalize S.take ((S.length - 1) % 2 ^ 32 + 1) = K at hne hs hb ⊢
  rw [FlatTrie.decode]
  simp only [Bool.false_eq_true, if_false]
  rw [recDecode_rep (by simp [FlatTrie.nav]; omega) _ 0 _ 0 0 out
    (flat_plain_rep rfl rfl rfl (flatTree_NE hne hs hb).nz) (by simp [FlatTrie.nav]) (dvd_zero _),
    flatTree_enum hs hb]

/-- C68. The same for fast tries. -/
theorem C68_fast_partial {lg : Nat} (hlg : 3 ≤ lg ∧ lg ≤ 6) {S : List Nat} {u : Nat} (hS : ValidSet S u)
    (hlen : S.length < 2 ^ 64) (hu : 2 ^ (lg - 1) < u) (hu' : u ≤ 2 ^ 62) (junk : FastJunk) :
    ∃ k, 1 ≤ k ∧ k ≤ 2 ^ 32 ∧ k ≤ S.length ∧ k % 2 ^ 32 = S.length % 2 ^ 32 ∧
      ∃ t, fastCtor lg junk S u = .ok t ∧ ∀ pad out, t.decode lg pad out = .ok (out ++ S.take k) := by
  have hpos : 0 < S.length := List.length_pos_iff.2 hS.ne
  have hpl : 2 ^ 2 ≤ 2 ^ (lg - 1) := Nat.pow_le_pow_right (by omega) (by omega)
  have h0 : u - 1 ≠ 0 := by omega
  have h1 : lg - 1 ≤ Nat.log2 (u - 1) := (Nat.le_log2 h0).2 (by omega)
  have h2 : Nat.log2 (u - 1) < 62 := (Nat.log2_lt h0).2 (by omega)
  obtain ⟨d, hd⟩ : ∃ d, Nat.log2 (u - 1) + 1 = d + lg := ⟨Nat.log2 (u - 1) + 1 - lg, by omega⟩
  refine ⟨(S.length - 1) % 2 ^ 32 + 1, by omega, by omega, by omega, by omega, _,
    fastCtor_kept hS.ne hlen (by omega) hd (by omega) (by omega), fun pad out => ?_⟩
  have hne := (kept_at hS.ne).1
  have hs := hS.increasing.sublist (List.take_sublist ((S.length - 1) % 2 ^ 32 + 1) S)
  have hb : ∀ x ∈ S.take ((S.length - 1) % 2 ^ 32 + 1), x < 2 ^ (d + lg) :=
    fun x hx => hd ▸ lt_height (hS.below x ((List.take_sublist _ _).subset hx))
  simp only at hne
  generalize S.take ((S.length - 1) % 2 ^ 32 + 1) = K at hne hs hb ⊢
  rw [FastTrie.decode]
  simp only [Bool.false_eq_true, if_false, Nat.add_eq_zero_iff, one_ne_zero, and_false, Nat.add_sub_cancel]
  rw [fastRecDecode_rep hlg.2 (by omega) _ 0 _ 0 0 out
    (fast_rep rfl rfl rfl (fastTree_NE hne hs hb).nz) (by omega) (dvd_zero _), fastTree_enum hs hb]

theorem take_eq_self_iff {S : List Nat} {k : Nat} (hS : 0 < S.length) (h1 : 1 ≤ k) (h2 : k ≤ 2 ^ 32) (h3 : k ≤ S.length)
    (h4 : k % 2 ^ 32 = S.length % 2 ^ 32) : S.take k = S ↔ S.length ≤ 2 ^ 32 := by
  constructor
  · intro h
    have := congrArg List.length h
    rw [List.length_take] at this
    omega
  · intro h
    exact List.take_of_length_le (by omega)

/-- C68. A flat trie holds the set exactly if the set has at most 2^32 elements. -/
theorem C68_flat_iff {S : List Nat} {u : Nat} (hS : ValidSet S u) (hlen : S.length < 2 ^ 64) (hu : 3 ≤ u)
    (hu' : u ≤ 2 ^ 62) (pad : Nat) (out : List Nat) :
    (flatCtor S u >>= fun t => t.decode pad out) = .ok (out ++ S) ↔ S.length ≤ 2 ^ 32 := by
  obtain ⟨k, h1, h2, h3, h4, t, ht, hd⟩ := C68_flat_partial hS hlen hu hu'
  rw [ht, R_bind_ok, hd, Except.ok.injEq, List.append_right_inj]
  exact take_eq_self_iff (by omega) h1 h2 h3 h4

/-- C68. So does a fast trie. -/
theorem C68_fast_iff {lg : Nat} (hlg : 3 ≤ lg ∧ lg ≤ 6) {S : List Nat} {u : Nat} (hS : ValidSet S u)
    (hlen : S.length < 2 ^ 64) (hu : 2 ^ (lg - 1) < u) (hu' : u ≤ 2 ^ 62) (junk : FastJunk) (pad : Nat) (out : List Nat) :
    (fastCtor lg junk S u >>= fun t => t.decode lg pad out) = .ok (out ++ S) ↔ S.length ≤ 2 ^ 32 := by
  obtain ⟨k, h1, h2, h3, h4, t, ht, hd⟩ := C68_fast_partial hlg hS hlen hu hu' junk
  rw [ht, R_bind_ok, hd, Except.ok.injEq, List.append_right_inj]
  exact take_eq_self_iff (by omega) h1 h2 h3 h4

theorem validSet_range {n u : Nat} (h0 : 0 < n) (h : n ≤ u) : ValidSet (List.range n) u :=
  ⟨by intro e; have := congrArg List.length e; simp at this; omega, List.pairwise_lt_range,
    fun x hx => by rw [List.mem_range] at hx; omega⟩

/-- C68 is false of flat tries: of the 2^32 + 1 numbers from 0 to 2^32 only 0 is left. -/
theorem C68_flat_negation : ∃ S u, ValidSet S u ∧ S.length < 2 ^ 64 ∧ 3 ≤ u ∧ u ≤ 2 ^ 62 ∧ S = List.range (2 ^ 32 + 1) ∧
    ∃ t, flatCtor S u = .ok t ∧ ∀ pad out, t.decode pad out = .ok (out ++ [0]) := by
  have hS : ValidSet (List.range (2 ^ 32 + 1)) (2 ^ 33) := validSet_range (by omega) (by omega)
  have hl : (List.range (2 ^ 32 + 1)).length = 2 ^ 32 + 1 := List.length_range
  refine ⟨List.range (2 ^ 32 + 1), 2 ^ 33, hS, by omega, by omega, by omega, rfl, ?_⟩
  obtain ⟨k, h1, h2, h3, h4, t, ht, hd⟩ := C68_flat_partial hS (by omega) (by omega) (by omega)
  have hk : k = 1 := by omega
  have e : (List.range (2 ^ 32 + 1)).take k = [0] := by
    rw [hk, List.range_succ_eq_map]; rfl
  exact ⟨t, ht, fun pad out => by rw [hd, e]⟩

/-- C68 is false of fast tries in the same way. -/
theorem C68_fast_negation {lg : Nat} (hlg : 3 ≤ lg ∧ lg ≤ 6) (junk : FastJunk) :
    ∃ S u, ValidSet S u ∧ S.length < 2 ^ 64 ∧ 2 ^ (lg - 1) < u ∧ u ≤ 2 ^ 62 ∧ S = List.range (2 ^ 32 + 1) ∧
    ∃ t, fastCtor lg junk S u = .ok t ∧ ∀ pad out, t.decode lg pad out = .ok (out ++ [0]) := by
  have hS : ValidSet (List.range (2 ^ 32 + 1)) (2 ^ 33) := validSet_range (by omega) (by omega)
  have hl : (List.range (2 ^ 32 + 1)).length = 2 ^ 32 + 1 := List.length_range
  have hp : 2 ^ (lg - 1) < 2 ^ 33 := Nat.pow_lt_pow_right (by omega) (by omega)
  refine ⟨List.range (2 ^ 32 + 1), 2 ^ 33, hS, by omega, hp, by omega, rfl, ?_⟩
  obtain ⟨k, h1, h2, h3, h4, t, ht, hd⟩ := C68_fast_partial hlg hS (by omega) hp (by omega) junk
  have hk : k = 1 := by omega
  have e : (List.range (2 ^ 32 + 1)).take k = [0] := by
    rw [hk, List.range_succ_eq_map]; rfl
  exact ⟨t, ht, fun pad out => by rw [hd, e]⟩

/-- C68. Level-wise tries hold sets of any size; this is C02 for the set above. -/
example (il : Bool) (pad : Nat) : ∃ t, levelCtor (List.range (2 ^ 32 + 1)) (2 ^ 33) = .ok t ∧
    t.decode il pad [] = .ok (List.range (2 ^ 32 + 1)) := by
  have hl : (List.range (2 ^ 32 + 1)).length = 2 ^ 32 + 1 := List.length_range
  have h := C02_level_build_decode (validSet_range (n := 2 ^ 32 + 1) (u := 2 ^ 33) (by omega) (by omega)) (by omega) (by omega)
    (by omega) il pad []
  rwa [List.nil_append] at h

end CBT
