import Verif.Proof.TwicePadSets

/-!
# C27: which sets survive a second run encoding if zeros can be read after the end of a vector
-/

namespace CBT

open Spec

/-- C27, level-wise tries. Reading up to `pad` bits after the end of a vector gives zeros. A set survives a second run encoding exactly
if it has an element outside of all full aligned blocks of four and, for every size from four upwards, full blocks come after the other
elements and the maximal ones among them have room after the end of the vector; or if it is the whole universe. -/
theorem C27_level_runs_twice_pad_iff {S : List Nat} {u : Nat} (hS : ValidSet S u) (hlen : S.length < 2 ^ 64) (hu : 3 ≤ u) (hu' : u ≤ 2 ^ 63)
    (il : Bool) (pad : Nat) (out : List Nat) :
    (levelCtor S u >>= fun t => t.encodeRuns il pad >>= fun t' => t'.encodeRuns il pad >>= fun t'' => t''.decode il pad out) =
        .ok (out ++ S) ↔
      ((∃ x ∈ S, fullBlock S 2 x = false) ∧ ∀ j, 2 ≤ j → fullLast S j ∧ 2 * maxBlocks S j ≤ pad) ∨
        ((∀ x < 2 ^ (Nat.log2 (u - 1) + 1), x ∈ S) ∧ 2 ≤ pad) := by
  obtain ⟨h1, h2⟩ := level_bounds hu hu'
  obtain ⟨T, hc, hne, hT⟩ := level_built hS hlen (by omega) (by omega)
  have hb : ∀ x ∈ S, x < 2 ^ (Nat.log2 (u - 1) + 1) := fun x hx => lt_height (hS.below x hx)
  obtain ⟨k, _, hst, he⟩ := levelOf_encode (pad := pad) (il := il) (hw := 0) (runs := false) (by omega) hne
  obtain ⟨Ls, k', e1, e2, e3, e4, e5, he'⟩ := level_twice_levels (pad := pad) (il := il) (levelOf_height (hw := k + 1) (runs := true))
    (levelOf_rep (by omega) hne.prune_nz) (thin_prune _ T)
  have hT' := hT.prune hne
  have hen := hT'.enum hS.increasing hb
  have hF := front_root hne.prune_nz (tight_prune _ T hne) hT' hS.ne hb
  have hlv : leaves _ [prune 1 _ T] = [] ↔ ∀ x ∈ S, fullBlock S (1 + 1) x = true := front_leaves _ _ hF
  have hLA : LateAll pad _ [prune 1 _ T] ↔ _ := front_lateAll (pad := pad) hS.increasing _ _ hF
  rw [hc, R_bind_ok, he, R_bind_ok, he', R_bind_ok, LevelTrie.decode]
  simp only [levelOf, if_true, Bool.false_eq_true, if_false]
  change runsRecDecode ((levelSolid _ (prune 1 _ T) (Ls.length - 1 + 1)).nav il pad) (Ls.length - 1 + 1) out 0 0 0 = .ok (out ++ S) ↔ _
  by_cases hl : leaves _ [prune 1 _ T] = []
  · have := level_none (pad := pad) (il := il) (by omega) h1 hne.prune_nz (tight_prune _ T hne) e1 e2 (e3 hl) e5 (Ls.length - 1 + 1) out
    rw [hen] at this
    rw [this]
    have hall : (∀ x < 2 ^ (Nat.log2 (u - 1) + 1), hasR 1 _ (prune 1 _ T) x = true) ↔ ∀ x < 2 ^ (Nat.log2 (u - 1) + 1), x ∈ S :=
      forall_congr' fun x => forall_congr' fun hx => by rw [hT' x hx, decide_eq_true_eq]
    rw [hall]
    refine ⟨Or.inr, ?_⟩
    rintro (⟨⟨x, hx, hf⟩, -⟩ | h)
    · rw [hlv.1 hl x hx] at hf; cases hf
    · exact h
  · obtain rfl := e4 hl
    have := level_late (pad := pad) (il := il) (hw := Ls.length - 1 + 1) h2 hne.prune_nz (tight_prune _ T hne) out
    rw [hen] at this
    rw [show Ls.length - 1 + 1 = Nat.log2 (u - 1) + 1 by omega] at this ⊢
    rw [this, hLA]
    have hex : ∃ x ∈ S, fullBlock S 2 x = false := by
      by_contra hcon
      push Not at hcon
      exact hl (hlv.2 fun x hx => by simpa using hcon x hx)
    have hfl := fullLast_iff (b := 1) hb
    constructor
    · intro h
      refine Or.inl ⟨hex, fun j hj => ⟨hfl.2 (fun j hj hj' => (h j hj hj').1) j hj, ?_⟩⟩
      by_cases hj' : j ≤ Nat.log2 (u - 1) + 1
      · exact (h j hj hj').2
      · rw [maxBlocks_none fun x _ => not_full_above hb (by omega)]
        omega
    · rintro (⟨-, h⟩ | ⟨h, -⟩)
      · exact fun j hj hj' => ⟨hfl.1 (fun j hj => (h j hj).1) j hj hj', (h j hj).2⟩
      · obtain ⟨x, hx, hf⟩ := hex
        rw [all_full h (by omega) (hb x hx)] at hf
        cases hf

/-- C27, flat tries. A set survives a second run encoding exactly if it has no full aligned block of four; or if it is the whole universe;
or if it consists of full blocks of two and four, at least one of them not in a full block of four, none in a full block of eight, the
blocks of four after the others. -/
theorem C27_flat_runs_twice_pad_iff {S : List Nat} {u : Nat} (hS : ValidSet S u) (hlen : S.length < 2 ^ 32) (hu : 3 ≤ u) (hu' : u ≤ 2 ^ 62)
    (pad : Nat) (out : List Nat) :
    (flatCtor S u >>= fun t => t.encodeRuns pad >>= fun t' => t'.encodeRuns pad >>= fun t'' => t''.decode pad out) = .ok (out ++ S) ↔
      (∀ x ∈ S, fullBlock S 2 x = false) ∨ ((∀ x < 2 ^ (Nat.log2 (u - 1) + 1), x ∈ S) ∧ 2 ≤ pad) ∨
        ((∃ x ∈ S, fullBlock S 2 x = false) ∧ (∀ x ∈ S, fullBlock S 3 x = false) ∧ (∀ x ∈ S, fullBlock S 1 x = true) ∧ fullLast S 2 ∧
          2 * maxBlocks S 2 ≤ pad) := by
  obtain ⟨h1, h2⟩ := log2_bounds hu hu'
  obtain ⟨T, hc, hne, hT⟩ := flat_built hS hlen hu hu'
  have hb : ∀ x ∈ S, x < 2 ^ (Nat.log2 (u - 1) + 1) := fun x hx => lt_height (hS.below x hx)
  have hT' := hT.prune hne
  have hen := hT'.enum hS.increasing hb
  have hF := front_root hne.prune_nz (tight_prune _ T hne) hT' hS.ne hb
  have hlv : leaves _ [prune 1 _ T] = [] ↔ ∀ x ∈ S, fullBlock S (1 + 1) x = true := front_leaves _ _ hF
  obtain ⟨x0, hx0⟩ := List.exists_mem_of_ne_nil S hS.ne
  rw [hc, R_bind_ok]
  by_cases hl : leaves _ [prune 1 _ T] = []
  · have := flat_none (pad := pad) h2 h1 hne hl out
    rw [hen] at this
    rw [this]
    have hall : (∀ x < 2 ^ (Nat.log2 (u - 1) + 1), hasR 1 _ (prune 1 _ T) x = true) ↔ ∀ x < 2 ^ (Nat.log2 (u - 1) + 1), x ∈ S :=
      forall_congr' fun x => forall_congr' fun hx => by rw [hT' x hx, decide_eq_true_eq]
    rw [hall]
    refine ⟨fun h => Or.inr (Or.inl h), ?_⟩
    rintro (h | h | ⟨⟨x, hx, hf⟩, -⟩)
    · have := hlv.1 hl x0 hx0
      rw [h x0 hx0] at this
      cases this
    · exact h
    · rw [hlv.1 hl x hx] at hf; cases hf
  · have e1 := flatOf_encode (pad := pad) (hw := 0) (runs := false) hne hl
    have e2 := flat_twice (t := flatOf _ (prune 1 _ T) (Nat.log2 (u - 1) + 1) true) (pad := pad) rfl (flatOf_rep hne.prune_nz) (thin_prune _ T) hl
    rw [e1, R_bind_ok, e2, R_bind_ok, FlatTrie.decode]
    simp only [flatOf, if_true, Bool.false_eq_true, if_false]
    change runsRecDecode ((flatSolid _ (prune 1 _ T) _).nav pad) _ out 0 0 0 = .ok (out ++ S) ↔ _
    have := flat_late (pad := pad) (hw := Nat.log2 (u - 1) + 1) h2 hne.prune_nz (tight_prune _ T hne) out
    rw [hen] at this
    rw [this]
    have hLF : LateFlat _ [prune 1 _ T] ↔ _ := front_lateFlat _ _ hF
    have hBA : bareAll _ [prune 1 _ T] = maxBlocksUp S 1 (Nat.log2 (u - 1) + 1) := front_bareAll hS.increasing _ _ hF
    have hth : (∀ w ∈ leaves _ [prune 1 _ T], w = 3) ↔ _ := front_three _ _ hF
    rw [hLF, hBA, hth, maxBlocksUp_zero hb]
    have hex : ∃ x ∈ S, fullBlock S 2 x = false := by
      by_contra hcon
      push Not at hcon
      exact hl (hlv.2 fun x hx => by simpa using hcon x hx)
    have hfew : (∀ x ∈ S, fullBlock S 3 x = false) → maxBlocksUp S 1 (Nat.log2 (u - 1) + 1) = maxBlocks S 2 := by
      intro h3
      rw [maxBlocksUp_two (j := 2) hb (by omega) (fun i _ _ => by omega), maxBlocks_none (j := 2 + 1) h3, Nat.add_zero]
      intro x hx
      by_contra hcon
      have := fullBlock_mono (i := 3) (by omega) (by simpa using hcon : fullBlock S (2 + 2) x = true)
      rw [h3 x hx] at this
      cases this
    have hmono : ∀ {i j x}, i ≤ j → fullBlock S i x = false → fullBlock S j x = true → False := by
      intro i j x hij hf hf'
      rw [fullBlock_mono hij hf'] at hf
      cases hf
    constructor
    · rintro ⟨hlf, hpd, h | h⟩
      · exact Or.inl h
      · have h3 : ∀ x ∈ S, fullBlock S 3 x = false := by
          intro x hx
          by_contra hcon
          obtain ⟨i, i1, i2, i3, i4⟩ := full_max hb (Nat.log2 (u - 1) + 1 + 1) 3 (by omega) (by simpa using hcon : fullBlock S 3 x = true)
          obtain ⟨y, hy, hfy⟩ := hex
          exact hmono (by omega) hfy ((hlf i (by omega) i2).2 (by omega) ⟨x, hx, i3, i4⟩ y hy)
        refine Or.inr (Or.inr ⟨hex, h3, h, ?_, ?_⟩)
        · intro x hx y hy hlt hf
          exact (hlf 2 (by omega) (by omega)).1 x hx y hy hlt (h3 x hx) (h3 y hy) hf
        · rw [← hfew h3]; exact hpd
    · rintro (h | ⟨h, -⟩ | ⟨-, h3, h, hfl, hpd⟩)
      · refine ⟨fun j hj hj' => ⟨fun x hx y hy _ _ _ hf => (hmono hj (h x hx) hf).elim, ?_⟩, ?_, Or.inl h⟩
        · rintro - ⟨x, hx, hf, -⟩
          exact (hmono hj (h x hx) hf).elim
        · rw [(maxBlocksUp_zero hb).2 h]; omega
      · obtain ⟨x, hx, hf⟩ := hex
        rw [all_full h (by omega) (hb x hx)] at hf
        cases hf
      · refine ⟨fun j hj hj' => ⟨?_, ?_⟩, by rw [hfew h3]; exact hpd, Or.inr h⟩
        · intro x hx y hy hlt _ _ hf
          by_cases hj2 : j = 2
          · subst hj2; exact hfl x hx y hy hlt hf
          · exact (hmono (by omega) (h3 x hx) hf).elim
        · rintro hj3 ⟨x, hx, hf, -⟩
          exact (hmono hj3 (h3 x hx) hf).elim

/-- C27, fast tries. A set survives a second run encoding exactly if it has no full aligned block of two words; or if it consists of full
aligned blocks of one size, two words or more, some of which may be joined to full blocks of twice that size, but to nothing larger, and
the joined ones come after the others. -/
theorem C27_fast_runs_twice_pad_iff {lg : Nat} (hlg : 3 ≤ lg ∧ lg ≤ 6) {S : List Nat} {u : Nat} (hS : ValidSet S u) (hlen : S.length < 2 ^ 32)
    (hu : 2 ^ lg < u) (hu' : u ≤ 2 ^ 62) (junk : FastJunk) (hj : junk.emptyTrie = false) (pad : Nat) (out : List Nat) :
    (fastCtor lg junk S u >>= fun t => t.encodeRuns lg pad >>= fun t' => t'.encodeRuns lg pad >>= fun t'' => t''.decode lg pad out) =
        .ok (out ++ S) ↔
      (∀ x ∈ S, fullBlock S (lg + 1) x = false) ∨
        ∃ j, lg < j ∧ (∀ x ∈ S, fullBlock S j x = true) ∧ (∀ x ∈ S, fullBlock S (j + 2) x = false) ∧ fullLast S (j + 1) ∧
          2 * (maxBlocks S j + maxBlocks S (j + 1)) ≤ pad := by
  have hlt : 2 ^ (lg - 1) < u := (Nat.pow_le_pow_right (by omega) (by omega)).trans_lt hu
  obtain ⟨h0, h1, h2⟩ := fast_depth hlg hlt hu'
  have hlog : lg ≤ Nat.log2 (u - 1) := (Nat.le_log2 (by omega)).2 (by omega)
  obtain ⟨T, hc, hne, hT⟩ := fast_built hlg hS hlen hlt hu' junk
  have hb : ∀ x ∈ S, x < 2 ^ (Nat.log2 (u - 1) + 1 - lg + lg) := fun x hx => h1 ▸ lt_height (hS.below x hx)
  obtain ⟨k, he⟩ := fastOf_encode (pad := pad) (hw := junk.heightWithRuns) (runs := false) (empty := junk.emptyTrie) hne
  obtain ⟨k', he'⟩ := fast_twice (lg := lg) (pad := pad) (t := fastOf lg _ (prune lg _ T) k true junk.emptyTrie) rfl
    (fastOf_rep hne.prune_nz) (thin_prune _ T)
  have hT' := hT.prune hne
  have hen := hT'.enum hS.increasing hb
  have hF := front_root hne.prune_nz (tight_prune _ T hne) hT' hS.ne hb
  have hlv : leaves _ [prune lg _ T] = [] ↔ ∀ x ∈ S, fullBlock S (lg + 1) x = true := front_leaves _ _ hF
  have hLF : LateFlat _ [prune lg _ T] ↔ _ := front_lateFlat _ _ hF
  have hBA : bareAll _ [prune lg _ T] = maxBlocksUp S lg _ := front_bareAll hS.increasing _ _ hF
  obtain ⟨x0, hx0⟩ := List.exists_mem_of_ne_nil S hS.ne
  rw [hc, R_bind_ok, he, R_bind_ok, he', R_bind_ok, FastTrie.decode]
  simp only [fastOf, hj, if_true, Bool.false_eq_true, if_false, Nat.add_eq_zero_iff, one_ne_zero, and_false, Nat.add_sub_cancel]
  change fastRunsRecDecode lg _ ((fastSolid lg _ (prune lg _ T) k' false).nav pad) _ out 0 0 0 = .ok (out ++ S) ↔ _
  have := fast_late (lg := lg) (pad := pad) (hw := k') (empty := false) hlg.2 (by omega) hne.prune_nz (tight_prune _ T hne) out
  rw [hen] at this
  rw [this, hLF, hBA, hlv, maxBlocksUp_zero hb]
  obtain ⟨d, hd⟩ : ∃ d, d = Nat.log2 (u - 1) + 1 - lg := ⟨_, rfl⟩
  rw [← hd] at hb ⊢
  have hmono : ∀ {i j x}, i ≤ j → fullBlock S i x = false → fullBlock S j x = true → False := by
    intro i j x hij hf hf'
    rw [fullBlock_mono hij hf'] at hf
    cases hf
  have hnone : ∀ {j}, (∀ x ∈ S, fullBlock S j x = true) → ∀ i, i < j → maxBlocks S i = 0 := by
    intro j hall i hi
    rw [maxBlocks, List.length_eq_zero_iff, List.filter_eq_nil_iff]
    intro x hx
    rw [fullBlock_mono (i := i + 1) (by omega) (hall x hx)]
    simp
  constructor
  · rintro ⟨hlf, hpd, h | h⟩
    · exact Or.inl h
    · right
      obtain ⟨j, hj1, hj2, hj3⟩ : ∃ j, lg < j ∧ (∀ x ∈ S, fullBlock S j x = true) ∧ ¬ ∀ x ∈ S, fullBlock S (j + 1) x = true := by
        by_contra hcon
        push Not at hcon
        have : ∀ k, ∀ x ∈ S, fullBlock S (lg + 1 + k) x = true := by
          intro k
          induction k with
          | zero => exact h
          | succ k ih => exact hcon (lg + 1 + k) (by omega) ih
        have := this (d + lg) x0 hx0
        rw [not_full_above hb (by omega)] at this
        cases this
      have hj4 : ∀ x ∈ S, fullBlock S (j + 2) x = false := by
        intro x hx
        by_contra hcon
        obtain ⟨i, i1, i2, i3, i4⟩ := full_max hb (d + lg + 1) (j + 2) (by omega) (by simpa using hcon : fullBlock S (j + 2) x = true)
        exact hj3 fun y hy => fullBlock_mono (by omega) ((hlf i (by omega) i2).2 (by omega) ⟨x, hx, i3, i4⟩ y hy)
      refine ⟨j, hj1, hj2, hj4, ?_, ?_⟩
      · exact (fullLast_iff (b := lg) hb).2 (fun i hi hi' => (hlf i hi hi').1) (j + 1) (by omega)
      · rw [← maxBlocksUp_two (b := lg) hb (by omega) (fun i _ hi => hnone hj2 i hi) hj4]
        exact hpd
  · rintro (h | ⟨j, hj1, hj2, hj3, hj4, hpd⟩)
    · refine ⟨fun j hj hj' => ⟨fun x hx y hy _ _ _ hf => (hmono hj (h x hx) hf).elim, ?_⟩, ?_, Or.inl h⟩
      · rintro - ⟨x, hx, hf, -⟩
        exact (hmono hj (h x hx) hf).elim
      · rw [(maxBlocksUp_zero hb).2 h]; omega
    · refine ⟨fun i hi hi' => ⟨?_, ?_⟩, ?_, Or.inr fun x hx => fullBlock_mono (by omega) (hj2 x hx)⟩
      · intro x hx y hy hlt _ _ hf
        by_cases hij : i ≤ j
        · exact fullBlock_mono hij (hj2 y hy)
        · by_cases hij' : i = j + 1
          · subst hij'; exact hj4 x hx y hy hlt hf
          · exact (hmono (by omega) (hj3 x hx) hf).elim
      · rintro hi2 ⟨x, hx, hf, -⟩ y hy
        by_cases hij : i ≤ j + 1
        · exact fullBlock_mono (by omega) (hj2 y hy)
        · exact (hmono (by omega) (hj3 x hx) hf).elim
      · rw [maxBlocksUp_two hb (by omega) (fun i _ hi => hnone hj2 i hi) hj3]
        exact hpd

/-- Each family loses sets that another one keeps. -/
example :
    (levelCtor [0, 4, 5, 6, 7] 8 >>= fun t => t.encodeRuns true 64 >>= fun t' => t'.encodeRuns true 64 >>= fun t'' => t''.decode true 64 []) =
      .ok [0, 4, 5, 6, 7] ∧
    (flatCtor [0, 4, 5, 6, 7] 8 >>= fun t => t.encodeRuns 64 >>= fun t' => t'.encodeRuns 64 >>= fun t'' => t''.decode 64 []) ≠
      .ok [0, 4, 5, 6, 7] ∧
    (levelCtor [0, 1, 2, 3, 5] 8 >>= fun t => t.encodeRuns true 64 >>= fun t' => t'.encodeRuns true 64 >>= fun t'' => t''.decode true 64 []) ≠
      .ok [0, 1, 2, 3, 5] ∧
    (fastCtor 3 ⟨9, 9, 9, false, false⟩ (List.range 16) 32 >>= fun t => t.encodeRuns 3 64 >>= fun t' => t'.encodeRuns 3 64 >>=
      fun t'' => t''.decode 3 64 []) = .ok (List.range 16) ∧
    (levelCtor (List.range 16) 32 >>= fun t => t.encodeRuns true 64 >>= fun t' => t'.encodeRuns true 64 >>= fun t'' => t''.decode true 64 []) ≠
      .ok (List.range 16) := by decide +kernel

/-- The conditions of the two that survive. -/
example : fullLast [0, 4, 5, 6, 7] 2 ∧ maxBlocks [0, 4, 5, 6, 7] 2 = 1 ∧ fullBlock [0, 4, 5, 6, 7] 2 0 = false ∧
    (∀ x ∈ List.range 16, fullBlock (List.range 16) 4 x = true) ∧ maxBlocks (List.range 16) 4 = 1 := by
  refine ⟨?_, by decide +kernel, by decide +kernel, by decide +kernel, by decide +kernel⟩
  unfold fullLast
  decide +kernel

end CBT
