import Verif.Proof.StrictPar
import Verif.Props.Strict
import Verif.Props.Parallel

/-!
# C54: indeterminate values read by parallel plain intersections
-/

namespace CBT

open Spec

/-- C54, exactly, in parallel mode: `Intersect` of 1 to 16 plain tries returns the intersection without reading an indeterminate
value, for every order of execution, if `LeftFirstPar`, and reads one otherwise. -/
theorem C54_parallel_exact_partial {pad h : Nat} {sets : List (List Nat)} {Ts : List Nav} (hTs : List.Forall₂ (PlainTrie pad h) sets Ts)
    (hne : Ts ≠ []) (hlen : Ts.length ≤ 16) (env : Env) (hw : env.hw ≠ 0) (hw2 : env.hw < 2 ^ 16) (hcut : Nat.log2 env.hw + 2 ≤ h) :
    (LeftFirstPar 0 (h - Nat.log2 env.hw) (Nat.log2 env.hw) sets → ∃ R, strictIntersect Ts true env = .ok R ∧ IsIntersection sets R) ∧
    (¬ LeftFirstPar 0 (h - Nat.log2 env.hw) (Nat.log2 env.hw) sets → strictIntersect Ts true env = .error .uninit) := by
  obtain ⟨d, hd⟩ : ∃ d, h = d + 1 + Nat.log2 env.hw + 1 := ⟨h - 2 - Nat.log2 env.hw, by omega⟩
  have hH := hTs.imp fun _ _ h => h.holds
  obtain ⟨R0, hR0, _, hI⟩ := C11_parallel_plain (by omega) hTs hne hlen env env hw hw2 hw
  rw [show h - 1 = d + 1 + Nat.log2 env.hw by omega] at hH
  obtain ⟨ts, h1, h2, h3⟩ := HoldsP.trees hH
  have hd61 : d + 1 + Nat.log2 env.hw ≤ 62 := by
    cases hH with
    | nil => exact (hne rfl).elim
    | cons h _ => exact h.depth
  have hsne : sets ≠ [] := by
    rintro rfl
    cases hH
    exact hne rfl
  have hb : ∀ S ∈ sets, ∀ x ∈ S, x < 2 ^ (d + 1 + Nat.log2 env.hw + 1) := forall2_imp_left hH fun _ _ h => h.below
  have e : strictIntersect Ts true env = strictBody Ts (flatCfg h) h true env := by
    have := forall2_imp_right hTs fun _ _ h => h.height_eq
    cases Ts with
    | nil => exact (hne rfl).elim
    | cons T Ts =>
      have h0 := this T List.mem_cons_self
      rw [strictIntersect, if_neg, h0]
      simp only [List.any_eq_true, not_exists, not_and]
      intro T' hT'
      rw [this T' hT', h0]
      simp
  have key := strictBody_par id leafF (height := h) (flat_leafOKb Ts h) h1 hlen (by simp only [flatCfg]; omega)
    (by simp only [flatCfg]; omega) (by simp only [flatCfg]; omega) hw hw2 (by omega)
  rw [List.map_id, planQuiet_sets (by omega) flatLv_ok hsne h2 h3 hb, ← e,
    show d + 1 + 1 = h - Nat.log2 env.hw by omega] at key
  refine ⟨fun hq => ?_, key.2⟩
  obtain ⟨R, hR⟩ := key.1 hq
  have := C54_returned_partial Ts true env hR
  rw [hR0] at this
  cases this
  exact ⟨R0, hR, hI⟩

/-- Both cases occur: without an element below 4, in parallel mode no indeterminate value is read, in sequential mode one is. -/
example : PlainTrie 0 4 [4, 5, 6, 12, 13] (FlatTrie.nav ⟨4, 0, false, false,
      [true, true, false, true, false, true, true, true, true, false], [true, true, true, false, true, true]⟩ 0) ∧
    LeftFirstPar 0 2 2 [[4, 5, 6, 12, 13]] ∧
    strictIntersect [FlatTrie.nav ⟨4, 0, false, false,
      [true, true, false, true, false, true, true, true, true, false], [true, true, true, false, true, true]⟩ 0] true ⟨4, [], []⟩ =
        .ok [4, 5, 6, 12, 13] ∧
    strictIntersect [FlatTrie.nav ⟨4, 0, false, false,
      [true, true, false, true, false, true, true, true, true, false], [true, true, true, false, true, true]⟩ 0] false ⟨4, [], []⟩ =
        .error .uninit := by
  have hT : PlainTrie 0 4 [4, 5, 6, 12, 13] (FlatTrie.nav ⟨4, 0, false, false,
      [true, true, false, true, false, true, true, true, true, false], [true, true, true, false, true, true]⟩ 0) :=
    .flat (u := 16) (by decide +kernel) (by decide +kernel) (by decide) (by decide) (by decide +kernel) rfl
  refine ⟨hT, ?_, by decide +kernel, by decide +kernel⟩
  by_contra hl
  have := (C54_parallel_exact_partial (.cons hT .nil) (by simp) (by simp) ⟨4, [], []⟩ (by decide) (by decide) (by decide +kernel)).2 (by
    rwa [show Nat.log2 4 = 2 by decide +kernel])
  revert this
  decide +kernel

example : strictIntersect [Ex.flat.nav 0, Ex.level.nav true 0] true ⟨4, [1, 0, 2, 1, 1], [1, 0, 0]⟩ = .error .uninit := by decide +kernel

/-- C54, exactly, in parallel mode, for fast tries with words of `2^lg` bits. -/
theorem C54_fast_parallel_exact_partial {lg pad h : Nat} (hlg : 3 ≤ lg ∧ lg ≤ 6) {sets : List (List Nat)} {Ts : List FNav}
    (hTs : List.Forall₂ (FastPlain lg pad h) sets Ts) (hne : Ts ≠ []) (hlen : Ts.length ≤ 16) (env : Env) (hw : env.hw ≠ 0)
    (hw2 : env.hw < 2 ^ 16) (hcut : Nat.log2 env.hw + 2 ≤ h) :
    (LeftFirstPar lg (h - 1 - Nat.log2 env.hw + lg) (Nat.log2 env.hw) sets →
      ∃ R, strictFastIntersect lg Ts true env = .ok R ∧ IsIntersection sets R) ∧
    (¬ LeftFirstPar lg (h - 1 - Nat.log2 env.hw + lg) (Nat.log2 env.hw) sets → strictFastIntersect lg Ts true env = .error .uninit) := by
  obtain ⟨d, hd⟩ : ∃ d, h = d + 1 + Nat.log2 env.hw + 1 := ⟨h - 2 - Nat.log2 env.hw, by omega⟩
  have hH := hTs.imp fun _ _ h => h.holds hlg
  obtain ⟨R0, hR0, _, hI⟩ := C13_fast_parallel_plain hlg (by omega) hTs hne hlen env env hw hw2 hw
  rw [show h - 1 = d + 1 + Nat.log2 env.hw by omega] at hH
  obtain ⟨ts, h1, h2, h3⟩ := FHoldsP.trees hH
  have hd62 : d + 1 + Nat.log2 env.hw + lg ≤ 62 := by
    cases hH with
    | nil => exact (hne rfl).elim
    | cons h _ => exact h.depth
  have hsne : sets ≠ [] := by
    rintro rfl
    cases hH
    exact hne rfl
  have hb : ∀ S ∈ sets, ∀ x ∈ S, x < 2 ^ (d + 1 + Nat.log2 env.hw + lg) := forall2_imp_left hH fun _ _ h => h.below
  have e : strictFastIntersect lg Ts true env = strictBody (Ts.map FNav.toNav) (fastCfg lg Ts h) h true env := by
    have := forall2_imp_right hH fun _ _ h => h.height
    rw [← hd] at this
    cases Ts with
    | nil => exact (hne rfl).elim
    | cons T Ts =>
      have h0 := this T List.mem_cons_self
      rw [strictFastIntersect, if_neg, if_neg (by omega), h0]
      simp only [List.any_eq_true, not_exists, not_and]
      intro T' hT'
      rw [this T' hT', h0]
      simp
  have key := strictBody_par FNav.toNav (leafW lg) (height := h) (fast_leafOKb hlg.2 Ts h) h1 hlen (by simp only [fastCfg]; omega)
    (by simp only [fastCfg]; omega) (by simp only [fastCfg]; omega) hw hw2 (by omega)
  rw [planQuiet_sets (Nat.le_refl lg) fastLv_ok hsne h2 h3 hb, ← e,
    show d + 1 + lg = h - 1 - Nat.log2 env.hw + lg by omega] at key
  refine ⟨fun hq => ?_, key.2⟩
  obtain ⟨R, hR⟩ := key.1 hq
  have := C54_fast_returned_partial lg Ts true env hR
  rw [hR0] at this
  cases this
  exact ⟨R0, hR, hI⟩

/-- Both cases occur. -/
example : strictFastIntersect 3 [Ex.fast.nav 0, Ex.fast2.nav 0] true ⟨2, [1], [0]⟩ = .ok [4, 17, 31] ∧ LeftFirstPar 3 4 1 [Ex.sV, Ex.sW] := by
  refine ⟨by decide +kernel, ?_⟩
  by_contra hl
  have := (C54_fast_parallel_exact_partial (lg := 3) (by decide) (.cons Ex.fast_plain (.cons Ex.fast2_plain .nil)) (by simp) (by simp)
    ⟨2, [1], [0]⟩ (by decide) (by decide) (by decide +kernel)).2 (by rwa [show Nat.log2 2 = 1 by decide +kernel])
  revert this
  decide +kernel

example : strictFastIntersect 3 [FastTrie.nav ⟨3, 9, 5, false, true, [true, true, false, true, true, false], [2, 2]⟩ 0] true ⟨2, [1], [0]⟩ =
    .error .uninit := by decide +kernel

/-- With fewer levels, parallel mode does the same as sequential mode, so `C54_seq_exact_partial` applies. -/
theorem C54_parallel_short_partial {pad h : Nat} {sets : List (List Nat)} {Ts : List Nav} (hTs : List.Forall₂ (PlainTrie pad h) sets Ts)
    (env : Env) (h2 : 2 ≤ h) (hcut : h < Nat.log2 env.hw + 2) : strictIntersect Ts true env = strictIntersect Ts false env := by
  cases hTs with
  | nil => rfl
  | @cons S T0 _ Ts H _ =>
    have h3 : h < 2 ^ 63 := by have := H.holds.depth; omega
    have e := H.height_eq
    have hn : ¬ Nat.log2 env.hw ≤ (h + 2 ^ 64 - 2) % 2 ^ 64 := by omega
    simp only [strictIntersect, strictBody, e, hn, and_false, if_false, Bool.false_eq_true]

example : PlainTrie 0 4 Ex.sL (Ex.level.nav true 0) ∧ 4 < Nat.log2 8 + 2 := ⟨Ex.level_plain, by decide +kernel⟩

theorem C54_fast_parallel_short_partial {lg pad h : Nat} (hlg : 3 ≤ lg ∧ lg ≤ 6) {sets : List (List Nat)} {Ts : List FNav}
    (hTs : List.Forall₂ (FastPlain lg pad h) sets Ts) (env : Env) (h2 : 2 ≤ h) (hcut : h < Nat.log2 env.hw + 2) :
    strictFastIntersect lg Ts true env = strictFastIntersect lg Ts false env := by
  cases hTs with
  | nil => rfl
  | @cons S T0 _ Ts H _ =>
    have h3 : h < 2 ^ 63 := by have := (H.holds hlg).depth; omega
    have e : T0.height = h := by have := (H.holds hlg).height; omega
    have hn : ¬ Nat.log2 env.hw ≤ (h + 2 ^ 64 - 2) % 2 ^ 64 := by omega
    simp only [strictFastIntersect, strictBody, e, hn, and_false, if_false, Bool.false_eq_true]

example : FastPlain 3 0 3 Ex.sV (Ex.fast.nav 0) ∧ 3 < Nat.log2 4 + 2 := ⟨Ex.fast_plain, by decide +kernel⟩

theorem leftFirst_par {b n N cut : Nat} (hb : b < n) (hN : n ≤ N) {sets : List (List Nat)}
    (h : LeftFirst b N sets) : LeftFirstPar b n cut sets :=
  ⟨fun j k h1 h2 => h j k h1 (by omega), fun k _ => h (n - 1) k (by omega) (by omega)⟩

/-- Where sequential calls read no indeterminate value, parallel ones do not, and return the same. -/
theorem C54_parallel_safer_partial {pad h : Nat} {sets : List (List Nat)} {Ts : List Nav} (hTs : List.Forall₂ (PlainTrie pad h) sets Ts)
    (hlen : Ts.length ≤ 16) (env : Env) (hw : env.hw ≠ 0) (hw2 : env.hw < 2 ^ 16) (h2 : 2 ≤ h) {R : List Nat}
    (hR : strictIntersect Ts false env = .ok R) : strictIntersect Ts true env = .ok R := by
  by_cases hcut : Nat.log2 env.hw + 2 ≤ h
  · have hne : Ts ≠ [] := by rintro rfl; cases hR
    obtain ⟨h3, h4⟩ := C54_seq_exact_partial hTs hne hlen env hw
    by_cases hl : LeftFirst 0 h sets
    · obtain ⟨R1, h5, h6⟩ := h3 hl
      obtain ⟨R2, h7, h8⟩ := (C54_parallel_exact_partial hTs hne hlen env hw hw2 hcut).1 (leftFirst_par (by omega) (by omega) hl)
      rw [hR] at h5
      cases h5
      rw [h7, IsIntersection.unique h6 h8]
    · rw [h4 hl] at hR
      cases hR
  · rw [C54_parallel_short_partial hTs env h2 (by omega), hR]

/-- The same for fast tries. -/
theorem C54_fast_parallel_safer_partial {lg pad h : Nat} (hlg : 3 ≤ lg ∧ lg ≤ 6) {sets : List (List Nat)} {Ts : List FNav}
    (hTs : List.Forall₂ (FastPlain lg pad h) sets Ts) (hlen : Ts.length ≤ 16) (env : Env) (hw : env.hw ≠ 0) (hw2 : env.hw < 2 ^ 16) (h2 : 2 ≤ h)
    {R : List Nat} (hR : strictFastIntersect lg Ts false env = .ok R) : strictFastIntersect lg Ts true env = .ok R := by
  by_cases hcut : Nat.log2 env.hw + 2 ≤ h
  · have hne : Ts ≠ [] := by rintro rfl; cases hR
    obtain ⟨h3, h4⟩ := C54_fast_seq_exact_partial hlg hTs hne hlen env hw
    by_cases hl : LeftFirst lg (h - 1 + lg) sets
    · obtain ⟨R1, h5, h6⟩ := h3 hl
      obtain ⟨R2, h7, h8⟩ := (C54_fast_parallel_exact_partial hlg hTs hne hlen env hw hw2 hcut).1 (leftFirst_par (by omega) (by omega) hl)
      rw [hR] at h5
      cases h5
      rw [h7, IsIntersection.unique h6 h8]
    · rw [h4 hl] at hR
      cases hR
  · rw [C54_fast_parallel_short_partial hlg hTs env h2 (by omega), hR]

example : strictFastIntersect 3 [Ex.fast.nav 0, Ex.fast2.nav 0] false ⟨2, [], []⟩ = .ok [4, 17, 31] := by decide +kernel

/-- A collection with the hypothesis. -/
example : LeftFirst 0 2 [[0]] := by
  intro j k _ hj
  simp only [LeftFirstAt, AllMeet, List.mem_singleton, forall_eq, exists_eq_left, Nat.zero_div]
  refine ⟨fun h => by omega, fun h => .inr ⟨0, ?_, ?_⟩⟩
  · rw [Nat.zero_div]; omega
  · rfl

end CBT
