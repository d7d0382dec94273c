import Verif.Proof.Copies
import Verif.Proof.Arrays
import Verif.Proof.FlatCollapse
import Verif.Props.Serialize

/-!
# C47: copies of tries
-/

namespace CBT

open Spec

/-- C47, flat (partial). While the original lives and is not modified, its copy navigates and decodes like it. Missing: the rest of the
life of the copy, for which the claim is false (`C47_flat_orphan_negation`, `C47_flat_changed_negation`). -/
theorem C47_flat_partial (K : RankIO) (t : FlatTrie) (pad : Nat) (out : List Nat) :
    (t.copy K).nav pad = t.nav pad ∧ (t.copy K).decode pad out = t.decode pad out := by
  refine ⟨t.copy_nav pad, ?_⟩
  rw [FlatCopy.decode, t.copy_nav]; rfl

example : (Ex.flat.copy Ex.rankIO).decode 0 [] = .ok [0, 1, 2, 3, 5, 8, 14] := by decide +kernel

/-- C47, level-wise (partial). As `C47_flat_partial`. -/
theorem C47_level_partial (K : RankIO) (t : LevelTrie) (il : Bool) (pad : Nat) (out : List Nat) :
    (t.copy K).nav il pad = t.nav il pad ∧ (t.copy K).decode il pad out = t.decode il pad out := by
  refine ⟨t.copy_nav il pad, ?_⟩
  rw [LevelCopy.decode, t.copy_nav]; rfl

example : (Ex.level.copy Ex.rankIO).decode true 0 [] = .ok [1, 2, 3, 5, 6, 14] := by decide +kernel

/-- C47, fast (partial). As `C47_flat_partial`. -/
theorem C47_fast_partial (K : RankIO) (t : FastTrie) (lg pad : Nat) (out : List Nat) :
    (t.copy K).nav pad = t.nav pad ∧ (t.copy K).decode lg pad out = t.decode lg pad out := by
  refine ⟨t.copy_nav pad, ?_⟩
  rw [FastCopy.decode, t.copy_nav]; rfl

example : (do let t ← fastCtor 3 Ex.junk [1, 9, 30] 32; (t.copy Ex.rankIO).decode 3 0 []) = .ok [1, 9, 30] := by decide +kernel

/-- C47 fails, flat: for every valid set, decoding the copy after the original was destroyed follows a dangling pointer. -/
theorem C47_flat_orphan_negation (K : RankIO) {S : List Nat} {u : Nat} (hS : ValidSet S u) (hlen : S.length < 2 ^ 32) (hu : 3 ≤ u)
    (hu' : u ≤ 2 ^ 62) (pad : Nat) (out : List Nat) :
    ∃ t, flatCtor S u = .ok t ∧ t.decode pad out = .ok (out ++ S) ∧ (t.copy K).orphan.decode pad out = .error .null := by
  obtain ⟨h1, h2⟩ := log2_bounds hu hu'
  obtain ⟨T, hc, hne, hT⟩ := flat_built hS hlen hu hu'
  have hb : ∀ x ∈ S, x < 2 ^ (Nat.log2 (u - 1) + 1) := fun x hx => lt_height (hS.below x hx)
  refine ⟨_, hc, flatOf_plain_decode (by omega) hne.nz hT hS.increasing hb out, ?_⟩
  generalize Nat.log2 (u - 1) = d at *
  obtain ⟨d, rfl⟩ : ∃ k, d = k + 1 := ⟨d - 1, by omega⟩
  exact flat_orphan (by omega) hne out

example : ValidSet [0, 1, 6] 8 ∧ ∃ t, flatCtor [0, 1, 6] 8 = .ok t ∧ (t.copy Ex.rankIO).orphan.decode 0 [] = .error .null :=
  ⟨by decide +kernel, _, rfl, by decide +kernel⟩

/-- C47 fails, level-wise: as `C47_flat_orphan_negation`. -/
theorem C47_level_orphan_negation (K : RankIO) {S : List Nat} {u : Nat} (hS : ValidSet S u) (hlen : S.length < 2 ^ 64) (hu : 3 ≤ u)
    (hu' : u ≤ 2 ^ 63) (il : Bool) (pad : Nat) (out : List Nat) :
    ∃ t, levelCtor S u = .ok t ∧ (t.copy K).orphan.decode il pad out = .error .null := by
  obtain ⟨h1, h2⟩ := level_bounds hu hu'
  obtain ⟨T, hc, hne, -⟩ := level_built hS hlen (by omega) (by omega)
  refine ⟨_, hc, ?_⟩
  generalize Nat.log2 (u - 1) = d at *
  obtain ⟨d, rfl⟩ : ∃ k, d = k + 1 := ⟨d - 1, by omega⟩
  exact level_orphan (by omega) hne out

example : ∃ t, levelCtor [0, 1, 6] 8 = .ok t ∧ t.decode true 0 [] = .ok [0, 1, 6] ∧
    (t.copy Ex.rankIO).orphan.decode true 0 [] = .error .null :=
  ⟨_, rfl, by decide +kernel, by decide +kernel⟩

/-- C47 fails, fast: as `C47_flat_orphan_negation`, for universes of more than one word. -/
theorem C47_fast_orphan_negation (K : RankIO) {lg : Nat} (hlg : 3 ≤ lg ∧ lg ≤ 6) {S : List Nat} {u : Nat} (hS : ValidSet S u)
    (hlen : S.length < 2 ^ 32) (hu : 2 ^ lg < u) (hu' : u ≤ 2 ^ 62) (junk : FastJunk) (pad : Nat) (out : List Nat) :
    ∃ t, fastCtor lg junk S u = .ok t ∧ (t.copy K).orphan.decode lg pad out = .error .null := by
  have hu0 : 2 ^ (lg - 1) < u := Nat.lt_of_le_of_lt (Nat.pow_le_pow_right (by omega) (by omega)) hu
  obtain ⟨h0, h1, h2⟩ := fast_depth hlg hu0 hu'
  have h3 : lg ≤ Nat.log2 (u - 1) := (Nat.le_log2 (by omega)).2 (by omega)
  obtain ⟨T, hc, hne, -⟩ := fast_built hlg hS hlen hu0 hu' junk
  refine ⟨_, hc, ?_⟩
  clear hc
  have h4 : Nat.log2 (u - 1) + 1 - lg ≠ 0 := by omega
  generalize Nat.log2 (u - 1) + 1 - lg = d at *
  obtain ⟨d, rfl⟩ : ∃ k, d = k + 1 := ⟨d - 1, by omega⟩
  exact fast_orphan h2 hne out

example : ∃ t, fastCtor 3 Ex.junk [1, 9, 30] 32 = .ok t ∧ t.decode 3 0 [] = .ok [1, 9, 30] ∧
    (t.copy Ex.rankIO).orphan.decode 3 0 [] = .error .null :=
  ⟨_, rfl, by decide +kernel, by decide +kernel⟩

/-- C47 fails: `encodeRuns` on the original changes what its level-wise copy decodes to. The copy of {0, 1, 2, 3, 6} gains 7. -/
theorem C47_level_changed_negation : ∃ (K : RankIO) (S : List Nat) (u : Nat) (t t' : LevelTrie), ValidSet S u ∧
    levelCtor S u = .ok t ∧ t.encodeRuns false 0 = .ok t' ∧ t'.decode false 0 [] = .ok S ∧
    (t.copy K).decode false 0 [] = .ok S ∧ ((t.copy K).after t').decode false 0 [] = .ok (S ++ [7]) ∧ 7 ∉ S :=
  ⟨Ex.rankIO, [0, 1, 2, 3, 6], 8, _, _, by decide +kernel, rfl, rfl, by decide +kernel, by decide +kernel, by decide +kernel, by decide⟩

/-- C47 fails: `encodeRuns` on the original makes its flat copy read outside the bit vector. -/
theorem C47_flat_changed_negation : ∃ (K : RankIO) (S : List Nat) (u : Nat) (t t' : FlatTrie), ValidSet S u ∧
    flatCtor S u = .ok t ∧ t.encodeRuns 0 = .ok t' ∧ t'.decode 0 [] = .ok S ∧
    (t.copy K).decode 0 [] = .ok S ∧ ((t.copy K).after t').decode 0 [] = .error .oob :=
  ⟨Ex.rankIO, [0, 1, 2, 3, 6], 8, _, _, by decide +kernel, rfl, rfl, by decide +kernel, by decide +kernel, by decide +kernel⟩

/-- C47 fails: `encodeRuns` on the original makes its fast copy lose elements and report numbers that were never in the set, without any
sign that something went wrong. -/
theorem C47_fast_changed_negation : ∃ (K : RankIO) (junk : FastJunk) (S : List Nat) (u : Nat) (t t' : FastTrie), ValidSet S u ∧
    fastCtor 3 junk S u = .ok t ∧ t.encodeRuns 3 0 = .ok t' ∧ t'.decode 3 0 [] = .ok S ∧ (t.copy K).decode 3 0 [] = .ok S ∧
    ∃ out, ((t.copy K).after t').decode 3 0 [] = .ok out ∧ (∃ x ∈ S, x ∉ out) ∧ ∃ x ∈ out, x ∉ S := by
  have h : (do
      let t ← fastCtor 3 { Ex.junk with emptyTrie := false }
        [3, 16, 17, 18, 19, 20, 21, 22, 23, 24, 25, 26, 27, 28, 29, 30, 31, 40] 64
      let t' ← t.encodeRuns 3 0
      .ok (t'.decode 3 0 [], (t.copy Ex.rankIO).decode 3 0 [], ((t.copy Ex.rankIO).after t').decode 3 0 [])) =
      (.ok (.ok [3, 16, 17, 18, 19, 20, 21, 22, 23, 24, 25, 26, 27, 28, 29, 30, 31, 40],
        .ok [3, 16, 17, 18, 19, 20, 21, 22, 23, 24, 25, 26, 27, 28, 29, 30, 31, 40],
        .ok [3, 19, 27, 40, 41, 42, 43, 44, 45, 46, 47]) : R (R (List Nat) × R (List Nat) × R (List Nat))) := by decide +kernel
  obtain ⟨t, ht, h⟩ := bind_ok h
  obtain ⟨t', ht', h⟩ := bind_ok h
  injection h with h
  injection h with h1 h
  injection h with h2 h3
  exact ⟨Ex.rankIO, _, _, 64, t, t', by decide +kernel, ht, ht', h1, h2, _, h3, by decide, by decide⟩

end CBT
