import Verif.Spec
import Verif.Proof.FastRep

/-!
# C01, C02, C03: building a trie and decoding it
-/

namespace CBT

open Spec

/-- C01. A flat trie built from a valid set decodes to exactly that set, appended to the output vector; no access is
out of bounds (the result is not an error), even when nothing is readable after the bit vectors (`pad = 0`).
`flatBinTrie` and `flatBinTrie_il` have the same code. -/
theorem C01_flat_build_decode {S : List Nat} {u : Nat} (hS : ValidSet S u) (hlen : S.length < 2 ^ 32) (hu : 3 ≤ u)
    (hu' : u ≤ 2 ^ 62) (pad : Nat) (out : List Nat) :
    ∃ t, flatCtor S u = .ok t ∧ t.decode pad out = .ok (out ++ S) := by
  have h0 : u - 1 ≠ 0 := by omega
  have h1 : 1 ≤ Nat.log2 (u - 1) := (Nat.le_log2 h0).2 (by omega)
  have h2 : Nat.log2 (u - 1) < 62 := (Nat.log2_lt h0).2 (by omega)
  have hb : ∀ x ∈ S, x < 2 ^ (Nat.log2 (u - 1) + 1) := fun x hx => lt_height (hS.below x hx)
  refine ⟨_, flatCtor_ok hS.ne hlen (by omega) rfl h1 (by omega), ?_⟩
  rw [FlatTrie.decode]
  simp only [Bool.false_eq_true, if_false]
  rw [recDecode_rep (by simp [FlatTrie.nav]; omega) _ 0 _ 0 0 out
    (flat_plain_rep rfl rfl rfl (flatTree_NE hS.ne hS.increasing hb).nz) (by simp [FlatTrie.nav]) (dvd_zero _),
    flatTree_enum hS.increasing hb]

example : ValidSet [0, 1, 2, 3, 5, 14] 16 ∧ [0, 1, 2, 3, 5, 14].length < 2 ^ 32 ∧ 3 ≤ 16 ∧ 16 ≤ 2 ^ 62 ∧
    (flatCtor [0, 1, 2, 3, 5, 14] 16 >>= fun t => t.decode 0 [7]) = .ok [7, 0, 1, 2, 3, 5, 14] := by decide +kernel

/-- C02. The same for the level-wise tries; `il` selects `binTrie_il`. -/
theorem C02_level_build_decode {S : List Nat} {u : Nat} (hS : ValidSet S u) (hlen : S.length < 2 ^ 64) (hu : 2 ≤ u)
    (hu' : u ≤ 2 ^ 63) (il : Bool) (pad : Nat) (out : List Nat) :
    ∃ t, levelCtor S u = .ok t ∧ t.decode il pad out = .ok (out ++ S) := by
  have h0 : u - 1 ≠ 0 := by omega
  have h2 : Nat.log2 (u - 1) < 63 := (Nat.log2_lt h0).2 (by omega)
  have hb : ∀ x ∈ S, x < 2 ^ (Nat.log2 (u - 1) + 1) := fun x hx => lt_height (hS.below x hx)
  refine ⟨_, levelCtor_ok hS.ne hlen hu rfl (by omega), ?_⟩
  have hh : (nodeLevels (Nat.log2 (u - 1)) [flatTree (Nat.log2 (u - 1)) S] ++
      [(leaves (Nat.log2 (u - 1)) [flatTree (Nat.log2 (u - 1)) S]).flatMap leafBits]).length = Nat.log2 (u - 1) + 1 := by
    simp [length_nodeLevels]
  rw [LevelTrie.decode]
  simp only [Bool.false_eq_true, if_false, LevelTrie.height, hh]
  rw [recDecode_rep (by simp only [LevelTrie.nav, LevelTrie.height, hh]; omega) _ 0 _ 0 0 out
    (level_rep rfl (by omega) (flatTree_NE hS.ne hS.increasing hb).nz) (by simp only [LevelTrie.nav, LevelTrie.height, hh]; omega)
    (dvd_zero _), flatTree_enum hS.increasing hb]

example : ValidSet [0, 1, 2, 3, 5, 14] 16 ∧
    (levelCtor [0, 1, 2, 3, 5, 14] 16 >>= fun t => t.decode true 0 [7]) = .ok [7, 0, 1, 2, 3, 5, 14] ∧
    (levelCtor [0, 1, 2, 3, 5, 14] 16 >>= fun t => t.decode false 0 [7]) = .ok [7, 0, 1, 2, 3, 5, 14] ∧
    (levelCtor [1] 2 >>= fun t => t.decode false 0 []) = .ok [1] := by decide +kernel

/-- C03. The same for the fast trie with words of `2^lg` bits, `lg` one of 3, 4, 5, 6, whatever the values of the
members the constructor leaves uninitialised. The universe has to span at least one word: `2^(lg-1) < u`. -/
theorem C03_fast_build_decode {lg : Nat} (hlg : 3 ≤ lg ∧ lg ≤ 6) {S : List Nat} {u : Nat} (hS : ValidSet S u)
    (hlen : S.length < 2 ^ 32) (hu : 2 ^ (lg - 1) < u) (hu' : u ≤ 2 ^ 62) (junk : FastJunk) (pad : Nat) (out : List Nat) :
    ∃ t, fastCtor lg junk S u = .ok t ∧ t.decode lg pad out = .ok (out ++ S) := by
  have hpl : 2 ^ 2 ≤ 2 ^ (lg - 1) := Nat.pow_le_pow_right (by omega) (by omega)
  have h0 : u - 1 ≠ 0 := by omega
  have h1 : lg - 1 ≤ Nat.log2 (u - 1) := (Nat.le_log2 h0).2 (by omega)
  have h2 : Nat.log2 (u - 1) < 62 := (Nat.log2_lt h0).2 (by omega)
  obtain ⟨d, hd⟩ : ∃ d, Nat.log2 (u - 1) + 1 = d + lg := ⟨Nat.log2 (u - 1) + 1 - lg, by omega⟩
  have hb : ∀ x ∈ S, x < 2 ^ (d + lg) := fun x hx => hd ▸ lt_height (hS.below x hx)
  refine ⟨_, fastCtor_ok hS.ne hlen (by omega) hd (by omega) (by omega), ?_⟩
  rw [FastTrie.decode]
  simp only [Bool.false_eq_true, if_false, Nat.add_eq_zero_iff, one_ne_zero, and_false, Nat.add_sub_cancel]
  rw [fastRecDecode_rep hlg.2 (by omega) _ 0 _ 0 0 out
    (fast_rep rfl rfl rfl (fastTree_NE hS.ne hS.increasing hb).nz) (by omega) (dvd_zero _),
    fastTree_enum hS.increasing hb]

example : ValidSet [0, 1, 2, 3, 5, 14, 77] 100 ∧ 2 ^ (3 - 1) < 100 ∧
    (fastCtor 3 ⟨9, 9, 9, true, true⟩ [0, 1, 2, 3, 5, 14, 77] 100 >>= fun t => t.decode 3 0 [7]) =
      .ok [7, 0, 1, 2, 3, 5, 14, 77] ∧
    (fastCtor 6 ⟨9, 9, 9, true, true⟩ [0, 1, 2, 3, 5, 14, 77] 100 >>= fun t => t.decode 6 0 [7]) =
      .ok [7, 0, 1, 2, 3, 5, 14, 77] := by decide +kernel

end CBT
