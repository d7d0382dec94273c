import Verif.Proof.FlagsHits
import Verif.Props.UnreadablePar
import Verif.Props.Flags

/-!
# C74: `runs = false` on run-encoded flat tries that cannot be read everywhere
-/

namespace CBT

open Spec

open Classical in
/-- C74, exactly, for all tries of flat and level-wise kind. A sequential call with `runs = false` reads out of bounds iff a block that a
run-encoded flat trie cannot read is reached: every set has a number in it, and it is in no larger block collapsed in some trie. Otherwise
the elements in a full block of four of a run-encoded set are left out. -/
theorem C74_false_exact_partial {pad h : Nat} {cs : List (Coding × List Nat)} {Ts : List Nav}
    (hTs : List.Forall₂ (KnownTrie pad h) cs Ts) (hne : Ts ≠ []) (hlen : Ts.length ≤ 16) (env : Env) (hw : env.hw ≠ 0) :
    ∃ R, IsIntersection ((withRuns cs).map (outside 2)) R ∧ intersect Ts false false env =
      if ∃ c ∈ cs, c.1 = .flat ∧ ∃ j k, unreadable pad h c.2 j k ∧ reached (withRuns cs) h j k = true then .error .oob else .ok R := by
  have hdepth : h - 1 ≤ 62 ∧ h - 1 + 1 = h := by
    cases hTs with
    | nil => exact (hne rfl).elim
    | cons h _ => exact ⟨h.read.holds.depth, by have := (KnownTrie.built.2 ⟨_, h⟩).pos; omega⟩
  obtain ⟨hd, hh⟩ := hdepth
  have hheight : ∀ n ∈ Ts, n.height = h - 1 + 1 := forall2_imp_right hTs fun _ _ h => h.read.holds.height
  obtain ⟨as, rfl, ts, h1, h2, h3⟩ := knownTries_pair hTs
  have hS : List.Forall₂ (fun S t => Holds (h - 1 + 1) (has 1 (h - 1) t) S) ((withRuns cs).map (outside 2)) ts := by
    rw [List.forall₂_map_left_iff]
    exact h2.imp fun _ _ H => H.outside
  have hb : ∀ S ∈ (withRuns cs).map (outside 2), ∀ x ∈ S, x < 2 ^ (h - 1 + 1) := by
    intro S hS x hx
    obtain ⟨c, hc, rfl⟩ := List.mem_map.1 hS
    exact forall2_imp_left h2 (fun _ _ H => H.1) c hc x (List.mem_filter.1 hx).1
  have hcs : (withRuns cs).map (outside 2) ≠ [] := by
    rw [ne_eq, List.map_eq_nil_iff]
    intro e
    rw [e] at h2
    cases h2
    cases h1
    exact hne rfl
  refine ⟨_, isIntersection_enum hcs hb hS, ?_⟩
  rw [intersect_unfold hne hheight, intersectBody]
  simp only [hw, if_false, Bool.false_eq_true, false_and]
  have hstop : (flatCfg (h - 1 + 1)).stop = h - 1 + 1 := rfl
  rw [hstop, AND_hits Prod.fst Prod.snd (fun a => leafF a.1) 1 (flat_leafOK_fst as (h - 1 + 1))
    (show h - 1 + 1 ≤ 64 by omega) (h - 1) 0 ts _ 0 [] (RepsQ.root 16 as ts (by simpa using hlen) h1) (by simp [flatCfg]) (dvd_zero _)]
  have hiff : HitsPl Prod.snd 1 (h - 1) 0 as ts ↔
      ∃ c ∈ cs, c.1 = .flat ∧ ∃ j k, unreadable pad h c.2 j k ∧ reached (withRuns cs) h j k = true := by
    rw [hitsPl_iff]
    have hr : ∀ a t j k, (a, t) ∈ as.zip ts → BareAt 1 (h - 1) t j k →
        ((∀ t' ∈ ts, nodeAt 1 (h - 1) t' j (k * 2 ^ j) = true) ↔ reached (withRuns cs) h j k = true) := by
      intro a t j k _ hB
      obtain ⟨hj1, hj2, hk⟩ := hB.bounds
      have := start_lt hj2 hk (Nat.two_pow_pos j)
      rw [nodeAt_reached h2 (by omega) hj2 (by omega), Nat.mul_div_cancel _ (Nat.two_pow_pos j), hh]
    constructor
    · rintro ⟨a, t, j, k, hm, hB, hbad, hn⟩
      obtain ⟨c, hc, h4, k', e, hu⟩ := (h3 j k).1 ⟨a, t, hm, hB, hbad⟩
      have hk : k = k' := Nat.eq_of_mul_eq_mul_right (Nat.two_pow_pos j) e
      subst hk
      exact ⟨c, hc, by simpa using h4, j, k, hu, (hr a t j k hm hB).1 hn⟩
    · rintro ⟨c, hc, h4, j, k, hu, hn⟩
      obtain ⟨a, t, hm, hB, hbad⟩ := (h3 j k).2 ⟨c, hc, by simpa using h4, k, rfl, hu⟩
      exact ⟨a, t, j, k, hm, hB, hbad, (hr a t j k hm hB).2 hn⟩
  by_cases hc : HitsPl Prod.snd 1 (h - 1) 0 as ts
  · rw [if_pos hc, if_pos (hiff.1 hc)]
  · rw [if_neg hc, if_neg (fun h => hc (hiff.2 h))]
    rfl

namespace Ex

theorem flatCollapsed_known2 : KnownTrie 2 4 (.flat, [0, 1, 2, 3, 12, 13, 14, 15]) (flatCollapsed.nav 2) :=
  .flat (u := 16) (t := ⟨4, 0, false, false, [true, true, true, false, false, true, true, true, true, true],
      [true, true, true, true, true, true, true, true]⟩)
    (by decide +kernel) (by decide +kernel) (by decide) (by decide) (by decide +kernel) (by decide +kernel) rfl

end Ex

/-- The second block of four is reached if the other set has 13 and is not reached if it has only 4. -/
example (env : Env) (hw : env.hw ≠ 0) : ∃ t t4, levelCtor [4, 13] 16 = .ok t ∧ levelCtor [4] 16 = .ok t4 ∧
    intersect [Ex.flatCollapsed.nav 2, t.nav false 2] false false env = .error .oob ∧
    intersect [Ex.flatCollapsed.nav 2, t4.nav false 2] false false env = .ok [] := by
  obtain ⟨T, hc, hne, hT⟩ := level_built (S := [4, 13]) (u := 16) (by decide +kernel) (by decide) (by decide) (by decide)
  obtain ⟨T4, hc4, hne4, hT4⟩ := level_built (S := [4]) (u := 16) (by decide +kernel) (by decide) (by decide) (by decide)
  refine ⟨_, _, hc, hc4, ?_, ?_⟩
  · obtain ⟨R, -, h⟩ := C74_false_exact_partial (.cons Ex.flatCollapsed_known2 (.cons (.plain (.level (u := 16) false (by decide +kernel)
      (by decide +kernel) (by decide) (by decide) hc rfl)) .nil)) (by simp) (by simp) env hw
    rw [h, if_pos]
    exact ⟨_, List.mem_cons_self, rfl, 2, 3, ⟨by decide +kernel, by decide +kernel, by decide +kernel⟩, by decide +kernel⟩
  · obtain ⟨R, hR, h⟩ := C74_false_exact_partial (.cons Ex.flatCollapsed_known2 (.cons (.plain (.level (u := 16) false (by decide +kernel)
      (by decide +kernel) (by decide) (by decide) hc4 rfl)) .nil)) (by simp) (by simp) env hw
    rw [h, if_neg]
    · have e : (withRuns [(.flat, [0, 1, 2, 3, 12, 13, 14, 15]), (.plain, [4])]).map (outside 2) = [[], [4]] := by decide +kernel
      rw [e] at hR
      rw [IsIntersection.unique hR (R' := []) ⟨by simp, by simp⟩]
    · rintro ⟨c, hc, hf, j, k, hu, hr⟩
      simp only [List.mem_cons, List.not_mem_nil, or_false] at hc
      rcases hc with rfl | rfl
      · have hj : j = 2 := by
          by_contra hj
          rcases Nat.lt_or_gt_of_ne hj with hj | hj
          · have : j = 0 ∨ j = 1 := by omega
            rcases this with rfl | rfl
            · have := hu.2.2
              rw [show (runBlocks [0, 1, 2, 3, 12, 13, 14, 15] 4 0).drop (2 / 2) = [] by decide +kernel] at this
              simp at this
            · have := hu.2.2
              rw [show (runBlocks [0, 1, 2, 3, 12, 13, 14, 15] 4 1).drop (2 / 2) = [] by decide +kernel] at this
              simp at this
          · have := hu.2.1 2 hj
            revert this; decide +kernel
        subst hj
        have hk : k = 3 := by
          have := hu.2.2
          rw [show (runBlocks [0, 1, 2, 3, 12, 13, 14, 15] 4 2).drop (2 / 2) = [3] by decide +kernel] at this
          simpa using this
        subst hk
        revert hr; decide +kernel
      · cases hf

end CBT
