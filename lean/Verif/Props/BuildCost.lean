import Verif.Proof.BuildCost
import Verif.Proof.Built

/-!
# C65, C67: what a constructor looks at and allocates, and what it makes of the universe
-/

namespace CBT

open Spec

/-- C65. The counters change nothing: same tries, same undefined behaviour, for all arguments. -/
theorem C65_counters_change_nothing :
    (∀ S u, (flatCtorC S u).map Prod.fst = flatCtor S u) ∧ (∀ S u, (levelCtorC S u).map Prod.fst = levelCtor S u) ∧
    (∀ lg junk S u, (fastCtorC lg junk S u).map Prod.fst = fastCtor lg junk S u) :=
  ⟨flatCtorC_fst, levelCtorC_fst, fastCtorC_fst⟩

theorem of_map_fst {A B : Type} {x : R (A × B)} {a : A} (h : x.map Prod.fst = .ok a) : ∃ b, x = .ok (a, b) := by
  cases x with
  | error e => cases h
  | ok p =>
    injection h with h
    subst h
    exact ⟨p.2, rfl⟩

/-- C65, flat tries (partial): the constructor reads an element of the set at most once for each level. The bit vectors it creates have
`3·2^h - 2` bits together, whatever the set. Missing: a bound of the memory by the number of elements, which does not hold, see
`C65_flat_negation`. -/
theorem C65_flat_partial {S : List Nat} {u : Nat} (hS : ValidSet S u) (hlen : S.length < 2 ^ 32) (hu : 3 ≤ u) (hu' : u ≤ 2 ^ 62) :
    ∃ t k, flatCtor S u = .ok t ∧ flatCtorC S u = .ok (t, k) ∧ t.height = Nat.log2 (u - 1) + 1 ∧ k.looks ≤ S.length * t.height ∧
      k.bits = 3 * 2 ^ t.height - 2 := by
  obtain ⟨T, hc, -, -⟩ := flat_built hS hlen hu hu'
  obtain ⟨k, hk⟩ := of_map_fst ((flatCtorC_fst S u).trans hc)
  obtain ⟨h1, h2⟩ := flatCtorC_looks hS.ne _ hk
  exact ⟨_, k, hc, hk, rfl, h1, by simp only at h2; omega⟩

example : ValidSet [0, 1, 2, 3, 5, 12] 16 ∧ (flatCtorC [0, 1, 2, 3, 5, 12] 16).map Prod.snd = .ok ⟨23, 46⟩ := by decide +kernel

/-- C65, level-wise tries (partial): the same, with `2·2^h - 2` bits. -/
theorem C65_level_partial {S : List Nat} {u : Nat} (hS : ValidSet S u) (hlen : S.length < 2 ^ 64) (hu : 2 ≤ u) (hu' : u ≤ 2 ^ 63) :
    ∃ t k, levelCtor S u = .ok t ∧ levelCtorC S u = .ok (t, k) ∧ t.height = Nat.log2 (u - 1) + 1 ∧ k.looks ≤ S.length * t.height ∧
      k.bits = 2 * 2 ^ t.height - 2 := by
  obtain ⟨T, hc, -, -⟩ := level_built hS hlen hu hu'
  obtain ⟨k, hk⟩ := of_map_fst ((levelCtorC_fst S u).trans hc)
  obtain ⟨h1, h2⟩ := levelCtorC_looks hS.ne hlen _ hk
  exact ⟨_, k, hc, hk, levelOf_height, h1, by simp only at h2; omega⟩

example : (levelCtorC [0, 1, 2, 3, 5, 12] 16).map Prod.snd = .ok ⟨23, 30⟩ := by decide +kernel

/-- C65, fast tries (partial): the same, with `2·2^h - 2` bits for numbers of `h` bits. -/
theorem C65_fast_partial {lg : Nat} (hlg : 3 ≤ lg ∧ lg ≤ 6) {S : List Nat} {u : Nat} (hS : ValidSet S u) (hlen : S.length < 2 ^ 32)
    (hu : 2 ^ (lg - 1) < u) (hu' : u ≤ 2 ^ 62) (junk : FastJunk) :
    ∃ t k, fastCtor lg junk S u = .ok t ∧ fastCtorC lg junk S u = .ok (t, k) ∧ t.heightU = Nat.log2 (u - 1) + 1 ∧
      t.height + lg = t.heightU + 1 ∧ k.looks ≤ S.length * t.height ∧ k.bits = 2 * 2 ^ t.heightU - 2 := by
  obtain ⟨T, hc, -, -⟩ := fast_built hlg hS hlen hu hu' junk
  obtain ⟨k, hk⟩ := of_map_fst ((fastCtorC_fst lg junk S u).trans hc)
  obtain ⟨h1, h2⟩ := fastCtorC_looks hS.ne _ hk
  refine ⟨_, k, hc, hk, (fast_depth hlg hu hu').2.1.symm, by simp only [fastOf]; omega, h1 (by simp [fastOf]), by simp only at h2; omega⟩

example : (fastCtorC 3 ⟨0, 0, 0, false, false⟩ (List.range' 1 61) 64).map Prod.snd = .ok ⟨161, 126⟩ := by decide +kernel

/-- C65 is false of the memory: to build the trie of one number below `2^62` more than `2^55` bits are created for each bit of the
number; no smaller constant makes the memory proportional to the input. -/
theorem C65_flat_negation : ¬ ∀ (S : List Nat) (u : Nat), ValidSet S u → S.length < 2 ^ 32 → 3 ≤ u → u ≤ 2 ^ 62 →
    ∃ t k, flatCtorC S u = .ok (t, k) ∧ k.bits ≤ 2 ^ 55 * (S.length * t.height) := by
  intro h
  obtain ⟨t, k, h1, h2⟩ := h [0] (2 ^ 62) (by decide +kernel) (by decide) (by decide) (by decide)
  obtain ⟨t', k', -, h3, h4, -, h5⟩ := C65_flat_partial (S := [0]) (u := 2 ^ 62) (by decide +kernel) (by decide) (by decide) (by decide)
  rw [h1] at h3
  injection h3 with h3
  injection h3 with h6 h7
  subst h6 h7
  rw [show t.height = 62 by rw [h4]; decide +kernel] at h2 h5
  rw [h5] at h2
  revert h2
  decide

/-- The same for the level-wise tries. -/
theorem C65_level_negation : ¬ ∀ (S : List Nat) (u : Nat), ValidSet S u → S.length < 2 ^ 64 → 2 ≤ u → u ≤ 2 ^ 63 →
    ∃ t k, levelCtorC S u = .ok (t, k) ∧ k.bits ≤ 2 ^ 55 * (S.length * t.height) := by
  intro h
  obtain ⟨t, k, h1, h2⟩ := h [0] (2 ^ 63) (by decide +kernel) (by decide) (by decide) (by decide)
  obtain ⟨t', k', -, h3, h4, -, h5⟩ := C65_level_partial (S := [0]) (u := 2 ^ 63) (by decide +kernel) (by decide) (by decide) (by decide)
  rw [h1] at h3
  injection h3 with h3
  injection h3 with h6 h7
  subst h6 h7
  rw [show t.height = 63 by rw [h4]; decide +kernel] at h2 h5
  rw [h5] at h2
  revert h2
  decide

/-- The same for the fast tries. -/
theorem C65_fast_negation : ¬ ∀ (lg : Nat) (S : List Nat) (u : Nat) (junk : FastJunk), 3 ≤ lg ∧ lg ≤ 6 → ValidSet S u →
    S.length < 2 ^ 32 → 2 ^ (lg - 1) < u → u ≤ 2 ^ 62 →
    ∃ t k, fastCtorC lg junk S u = .ok (t, k) ∧ k.bits ≤ 2 ^ 55 * (S.length * t.heightU) := by
  intro h
  obtain ⟨t, k, h1, h2⟩ := h 6 [0] (2 ^ 62) ⟨0, 0, 0, false, false⟩ (by decide) (by decide +kernel) (by decide) (by decide) (by decide)
  obtain ⟨t', k', -, h3, h4, -, -, h5⟩ := C65_fast_partial (lg := 6) (S := [0]) (u := 2 ^ 62) (by decide) (by decide +kernel) (by decide)
    (by decide) (by decide) ⟨0, 0, 0, false, false⟩
  rw [h1] at h3
  injection h3 with h3
  injection h3 with h6 h7
  subst h6 h7
  rw [show t.heightU = 62 by rw [h4]; decide +kernel] at h2 h5
  rw [h5] at h2
  revert h2
  decide

/-! ## C67 -/

/-- C67. The universe matters by its number of bits only: whatever the vector, universes with the same number of bits give the same
trie or the same undefined behaviour; in particular rounding `u` up to a power of two changes nothing. -/
theorem C67_universe {u u' : Nat} (h : 2 ≤ u) (h' : 2 ≤ u') (hb : Nat.log2 (u - 1) = Nat.log2 (u' - 1)) :
    (∀ S, flatCtor S u = flatCtor S u') ∧ (∀ S, levelCtor S u = levelCtor S u') ∧
    ∀ lg junk S, fastCtor lg junk S u = fastCtor lg junk S u' := by
  have hh : heightOf u = heightOf u' := by rw [heightOf, heightOf, if_neg (by omega), if_neg (by omega), hb]
  exact ⟨fun S => by rw [flatCtor, flatCtor, hh], fun S => by rw [levelCtor, levelCtor, hh],
    fun lg junk S => by rw [fastCtor, fastCtor, hh]⟩

example : Nat.log2 (9 - 1) = Nat.log2 (16 - 1) ∧ flatCtor [0, 3, 8] 9 = flatCtor [0, 3, 8] 16 ∧
    (flatCtor [0, 3, 8] 9).map FlatTrie.height = .ok 4 := by decide +kernel

/-- C67, the power of two. -/
theorem C67_round_up {u : Nat} (h : 2 ≤ u) :
    (∀ S, flatCtor S u = flatCtor S (2 ^ (Nat.log2 (u - 1) + 1))) ∧ (∀ S, levelCtor S u = levelCtor S (2 ^ (Nat.log2 (u - 1) + 1))) ∧
    ∀ lg junk S, fastCtor lg junk S u = fastCtor lg junk S (2 ^ (Nat.log2 (u - 1) + 1)) := by
  have hp := Nat.two_pow_pos (Nat.log2 (u - 1))
  refine C67_universe h (by rw [Nat.pow_succ]; omega) ?_
  have h0 : 2 ^ (Nat.log2 (u - 1) + 1) - 1 ≠ 0 := by rw [Nat.pow_succ]; omega
  refine Nat.le_antisymm ((Nat.le_log2 h0).2 (by rw [Nat.pow_succ]; omega)) ?_
  have := (Nat.log2_lt h0 (k := Nat.log2 (u - 1) + 1)).2 (by omega)
  omega

/-- C67, the other direction: of a valid set, universes with different numbers of bits give tries of different heights, which
`Intersect` does not accept together (C15). -/
theorem C67_different {S : List Nat} {u u' : Nat} (hS : ValidSet S u) (hS' : ValidSet S u') (hlen : S.length < 2 ^ 32) (h : 3 ≤ u)
    (hu : u ≤ 2 ^ 62) (h' : 3 ≤ u') (hu' : u' ≤ 2 ^ 62) (hb : Nat.log2 (u - 1) ≠ Nat.log2 (u' - 1)) :
    ∃ t t', flatCtor S u = .ok t ∧ flatCtor S u' = .ok t' ∧ t.height ≠ t'.height := by
  obtain ⟨T, h1, -, -⟩ := flat_built hS hlen h hu
  obtain ⟨T', h1', -, -⟩ := flat_built hS' hlen h' hu'
  exact ⟨_, _, h1, h1', by simp only [flatOf]; omega⟩

/-- C67, the other direction, level-wise tries. -/
theorem C67_level_different {S : List Nat} {u u' : Nat} (hS : ValidSet S u) (hS' : ValidSet S u') (hlen : S.length < 2 ^ 64) (h : 2 ≤ u)
    (hu : u ≤ 2 ^ 63) (h' : 2 ≤ u') (hu' : u' ≤ 2 ^ 63) (hb : Nat.log2 (u - 1) ≠ Nat.log2 (u' - 1)) :
    ∃ t t', levelCtor S u = .ok t ∧ levelCtor S u' = .ok t' ∧ t.height ≠ t'.height := by
  obtain ⟨U, h2, -, -⟩ := level_built hS hlen h hu
  obtain ⟨U', h2', -, -⟩ := level_built hS' hlen h' hu'
  exact ⟨_, _, h2, h2', by rw [levelOf_height, levelOf_height]; omega⟩

/-- C67, the other direction, fast tries, whatever their unwritten members. -/
theorem C67_fast_different {lg : Nat} (hlg : 3 ≤ lg ∧ lg ≤ 6) {S : List Nat} {u u' : Nat} (hS : ValidSet S u) (hS' : ValidSet S u')
    (hlen : S.length < 2 ^ 32) (h : 2 ^ (lg - 1) < u) (hu : u ≤ 2 ^ 62) (h' : 2 ^ (lg - 1) < u') (hu' : u' ≤ 2 ^ 62)
    (hb : Nat.log2 (u - 1) ≠ Nat.log2 (u' - 1)) (junk junk' : FastJunk) :
    ∃ t t', fastCtor lg junk S u = .ok t ∧ fastCtor lg junk' S u' = .ok t' ∧ t.height ≠ t'.height := by
  obtain ⟨T, h1, -, -⟩ := fast_built hlg hS hlen h hu junk
  obtain ⟨T', h1', -, -⟩ := fast_built hlg hS' hlen h' hu' junk'
  obtain ⟨a0, a1, a2⟩ := fast_depth hlg h hu
  obtain ⟨b0, b1, b2⟩ := fast_depth hlg h' hu'
  exact ⟨_, _, h1, h1', by simp only [fastOf]; omega⟩

example : ValidSet [0, 3, 7] 16 ∧ ValidSet [0, 3, 7] 17 ∧ (levelCtor [0, 3, 7] 16).map LevelTrie.height = .ok 4 ∧
    (levelCtor [0, 3, 7] 17).map LevelTrie.height = .ok 5 ∧ (fastCtor 3 ⟨0, 0, 0, false, false⟩ [0, 3, 7] 16).map FastTrie.height = .ok 2 ∧
    (fastCtor 3 ⟨7, 0, 9, true, true⟩ [0, 3, 7] 17).map FastTrie.height = .ok 3 := by decide +kernel

example : ValidSet [0, 3, 7] 8 ∧ ValidSet [0, 3, 7] 9 ∧ (flatCtor [0, 3, 7] 8).map FlatTrie.height = .ok 3 ∧
    (flatCtor [0, 3, 7] 9).map FlatTrie.height = .ok 4 := by decide +kernel

end CBT
