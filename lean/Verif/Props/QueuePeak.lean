import Verif.Proof.QueuePeak
import Verif.Props.BuildCost
import Verif.Props.Space

/-!
# C82: how long the queue of a constructor gets
-/

namespace CBT

open Spec

/-- C82. The record changes nothing: same tries, same undefined behaviour, for all arguments. -/
theorem C82_record_changes_nothing :
    (∀ S u, (flatCtorQ S u).map Prod.fst = flatCtor S u) ∧ (∀ S u, (levelCtorQ S u).map Prod.fst = levelCtor S u) ∧
    (∀ lg junk S u, (fastCtorQ lg junk S u).map Prod.fst = fastCtor lg junk S u) :=
  ⟨flatCtorQ_fst, levelCtorQ_fst, fastCtorQ_fst⟩

/-- C82, flat tries: the queue of the constructor holds at most as many ranges as the set has elements, and it does get that long. -/
theorem C82_flat {S : List Nat} {u : Nat} (hS : ValidSet S u) (hlen : S.length < 2 ^ 32) (hu : 3 ≤ u) (hu' : u ≤ 2 ^ 62) :
    ∃ t, flatCtor S u = .ok t ∧ flatCtorQ S u = .ok (t, S.length) := by
  obtain ⟨T, hc, -, -⟩ := flat_built hS hlen hu hu'
  obtain ⟨k, hk⟩ := of_map_fst ((flatCtorQ_fst S u).trans hc)
  have h : k = S.length := flatCtorQ_peak hS.ne hS.increasing hlen (fun x hx => lt_height (hS.below x hx)) _ hk
  subst h
  exact ⟨_, hc, hk⟩

example : ValidSet [0, 1, 2, 3, 5, 12] 16 ∧ (flatCtorQ [0, 1, 2, 3, 5, 12] 16).map Prod.snd = .ok 6 := by decide +kernel

/-- C82, level-wise tries: the same. -/
theorem C82_level {S : List Nat} {u : Nat} (hS : ValidSet S u) (hlen : S.length < 2 ^ 64) (hu : 2 ≤ u) (hu' : u ≤ 2 ^ 63) :
    ∃ t, levelCtor S u = .ok t ∧ levelCtorQ S u = .ok (t, S.length) := by
  obtain ⟨T, hc, -, -⟩ := level_built hS hlen hu hu'
  obtain ⟨k, hk⟩ := of_map_fst ((levelCtorQ_fst S u).trans hc)
  have h : k = S.length := levelCtorQ_peak hS.ne hS.increasing hlen (fun x hx => lt_height (hS.below x hx)) _ hk
  subst h
  exact ⟨_, hc, hk⟩

example : ValidSet [0, 1, 2, 3, 5, 12] 16 ∧ (levelCtorQ [0, 1, 2, 3, 5, 12] 16).map Prod.snd = .ok 6 := by decide +kernel

/-- C82, fast tries with words of `2^lg` bits: the queue holds at most as many ranges as there are blocks of the size of a word that contain
an element, and it does get that long. That is never more than the set has elements. -/
theorem C82_fast {lg : Nat} (hlg : 3 ≤ lg ∧ lg ≤ 6) {S : List Nat} {u : Nat} (hS : ValidSet S u) (hlen : S.length < 2 ^ 32)
    (hu : 2 ^ (lg - 1) < u) (hu' : u ≤ 2 ^ 62) (junk : FastJunk) :
    ∃ t, fastCtor lg junk S u = .ok t ∧ fastCtorQ lg junk S u = .ok (t, storedAt false S (t.height - 1 + lg) lg) ∧
      storedAt false S (t.height - 1 + lg) lg ≤ S.length := by
  obtain ⟨t, t', hc, -, -, h2, -, -⟩ := C64_fast_blocks hlg hS hlen hu hu' junk 0
  obtain ⟨T, hc', -, -⟩ := fast_built hlg hS hlen hu hu' junk
  obtain ⟨k, hk⟩ := of_map_fst ((fastCtorQ_fst lg junk S u).trans hc)
  have hh : 0 < t.height := by
    rw [hc] at hc'
    injection hc' with e
    rw [e]
    simp [fastOf]
  obtain ⟨h3, h4⟩ := fastCtorQ_peak hS.ne hS.increasing hlen (fun x hx => lt_height (hS.below x hx)) _ hk hh
  simp only at h3 h4
  rw [h2] at h3
  rw [h3] at h4 hk
  exact ⟨t, hc, hk, h4⟩

example : ValidSet [0, 1, 2, 3, 4, 5, 6, 7, 8, 9, 10, 11, 12, 13, 14, 15, 40] 64 ∧
    (fastCtorQ 3 ⟨0, 0, 0, false, false⟩ [0, 1, 2, 3, 4, 5, 6, 7, 8, 9, 10, 11, 12, 13, 14, 15, 40] 64).map Prod.snd = .ok 3 := by
  decide +kernel

end CBT
