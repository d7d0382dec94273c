import Verif.Proof.BuildLooks
import Verif.Props.BuildCost
import Verif.Props.QueuePeak

/-!
# C65: how often a constructor looks at an element, exactly
-/

namespace CBT

open Spec

/-- C65, flat tries, exactly: for every bit of the universe the constructor looks at the elements without that bit, and of the others at the
smallest of each half block; at each of them once. -/
theorem C65_flat_looks {S : List Nat} {u : Nat} (hS : ValidSet S u) (hlen : S.length < 2 ^ 32) (hu : 3 ≤ u) (hu' : u ≤ 2 ^ 62) :
    ∃ t k, flatCtor S u = .ok t ∧ flatCtorC S u = .ok (t, k) ∧ k.looks = seenTotal S 0 t.height := by
  obtain ⟨T, hc, -, -⟩ := flat_built hS hlen hu hu'
  obtain ⟨k, hk⟩ := of_map_fst ((flatCtorC_fst S u).trans hc)
  exact ⟨_, k, hc, hk, flatCtorC_seen hS.ne hS.increasing hlen (fun x hx => lt_height (hS.below x hx)) _ hk⟩

example : ValidSet [0, 1, 2, 3, 5, 12] 16 ∧ seenTotal [0, 1, 2, 3, 5, 12] 0 4 = 23 ∧
    (flatCtorC [0, 1, 2, 3, 5, 12] 16).map (·.2.looks) = .ok 23 := by decide +kernel

/-- C65, level-wise tries, exactly: the same. -/
theorem C65_level_looks {S : List Nat} {u : Nat} (hS : ValidSet S u) (hlen : S.length < 2 ^ 64) (hu : 2 ≤ u) (hu' : u ≤ 2 ^ 63) :
    ∃ t k, levelCtor S u = .ok t ∧ levelCtorC S u = .ok (t, k) ∧ k.looks = seenTotal S 0 t.height := by
  obtain ⟨T, hc, -, -⟩ := level_built hS hlen hu hu'
  obtain ⟨k, hk⟩ := of_map_fst ((levelCtorC_fst S u).trans hc)
  refine ⟨_, k, hc, hk, ?_⟩
  rw [levelOf_height]
  exact levelCtorC_seen hS.ne hS.increasing hlen (fun x hx => lt_height (hS.below x hx)) _ hk

example : (levelCtorC [0, 1, 2, 3, 5, 12] 16).map (·.2.looks) = .ok (seenTotal [0, 1, 2, 3, 5, 12] 0 4) := by decide +kernel

/-- C65, fast tries with words of `2^lg` bits, exactly: the same for the bits above those of a word, and once all elements to fill the
words. -/
theorem C65_fast_looks {lg : Nat} (hlg : 3 ≤ lg ∧ lg ≤ 6) {S : List Nat} {u : Nat} (hS : ValidSet S u) (hlen : S.length < 2 ^ 32)
    (hu : 2 ^ (lg - 1) < u) (hu' : u ≤ 2 ^ 62) (junk : FastJunk) :
    ∃ t k, fastCtor lg junk S u = .ok t ∧ fastCtorC lg junk S u = .ok (t, k) ∧ k.looks = S.length + seenTotal S lg (t.height - 1) := by
  obtain ⟨T, hc, -, -⟩ := fast_built hlg hS hlen hu hu' junk
  obtain ⟨k, hk⟩ := of_map_fst ((fastCtorC_fst lg junk S u).trans hc)
  refine ⟨_, k, hc, hk, ?_⟩
  obtain ⟨h1, h2, -⟩ := fast_depth hlg hu hu'
  have h3 := fastCtorC_seen hS.ne hS.increasing hlen (fun x hx => lt_height (hS.below x hx)) (by omega) _ hk
  rw [h3]
  congr 2

example : (fastCtorC 3 ⟨0, 0, 0, false, false⟩ (List.range' 1 61) 64).map (·.2.looks) = .ok (61 + seenTotal (List.range' 1 61) 3 3) ∧
    seenTotal (List.range' 1 61) 3 3 = 100 := by decide +kernel

end CBT
