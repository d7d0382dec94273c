import Verif.Proof.MemoryLeak
import Verif.Props.Parallel

/-!
# C55: memory of parallel intersections
-/

namespace CBT

open Spec

/-- C55, the part that holds of every call: with every pointer checked when it is used or freed, `Intersect` behaves as without
memory: no array is used after it was freed, freed twice, or freed without having been allocated, for any tries, in any mode,
under any schedule, whatever `Intersect` does otherwise. -/
theorem C55_no_invalid_free_partial (Ts : List Nav) (runs parallel : Bool) (env : Env) :
    (memIntersect Ts runs parallel env).map Prod.fst = intersect Ts runs parallel env := by
  cases Ts with
  | nil => rfl
  | cons T Ts =>
    rw [memIntersect, intersect]
    split
    · rfl
    · exact memBody_map _ _ _ _ _ _

theorem C55_fast_no_invalid_free_partial (lg : Nat) (Ts : List FNav) (runs parallel : Bool) (env : Env) :
    (memFastIntersect lg Ts runs parallel env).map Prod.fst = fastIntersect lg Ts runs parallel env := by
  cases Ts with
  | nil => rfl
  | cons T Ts =>
    rw [memFastIntersect, fastIntersect]
    split
    · rfl
    split
    · rfl
    · exact memBody_map _ _ _ _ _ _

theorem memBody_seq {Ts : List Nav} {c : Cfg} {height : Nat} {runs : Bool} {env : Env} {R : List Nat} {H : Heap}
    (h : memBody Ts c height runs false env = .ok (R, H)) : H = [] := by
  rw [memBody] at h
  simp only [Bool.false_eq_true, false_and, if_false] at h
  split at h
  · cases h
  cases runs
  · simp only [Bool.false_eq_true, if_false] at h
    obtain ⟨r, _, h⟩ := bind_ok h
    cases h
    rfl
  · simp only [if_true] at h
    obtain ⟨r, _, h⟩ := bind_ok h
    cases h
    rfl

/-- C55: sequential calls allocate nothing. -/
theorem C55_sequential_partial {Ts : List Nav} {runs : Bool} {env : Env} {R : List Nat} {H : Heap}
    (h : memIntersect Ts runs false env = .ok (R, H)) : H = [] := by
  cases Ts with
  | nil => cases h
  | cons T Ts =>
    rw [memIntersect] at h
    split at h
    · cases h; rfl
    · exact memBody_seq h

theorem C55_fast_sequential_partial {lg : Nat} {Ts : List FNav} {runs : Bool} {env : Env} {R : List Nat} {H : Heap}
    (h : memFastIntersect lg Ts runs false env = .ok (R, H)) : H = [] := by
  cases Ts with
  | nil => cases h
  | cons T Ts =>
    rw [memFastIntersect] at h
    split at h
    · cases h; rfl
    split at h
    · cases h
    · exact memBody_seq h

/-- The number of arrays that a parallel call with `2^cut` threads leaves allocated: one (with runs: two) for each task replaced
by its halves; tasks are the blocks of size `2^(j+1)` that every set meets. -/
def leak (sets : List (List Nat)) (runs : Bool) (cut j : Nat) : Nat :=
  (if runs then 2 else 1) *
    replaced (2 ^ cut) (commonBlocks sets (j + 1) cut).length ((commonBlocks sets (j + 1) cut).map (commonHalves sets j))

/-- C55, exactly: what a parallel `Intersect` of plain tries leaves allocated (the cut lies at `floor(log2(hw))`). -/
theorem C55_leak_exact_partial {pad h : Nat} {sets : List (List Nat)} {Ts : List Nav} (runs : Bool)
    (hTs : List.Forall₂ (PlainTrie pad h) sets Ts) (hne : Ts ≠ []) (hlen : Ts.length ≤ 16)
    (env : Env) (hw : env.hw ≠ 0) (hw2 : env.hw < 2 ^ 16) (hcut : Nat.log2 env.hw + 2 ≤ h) :
    ∃ R H, memIntersect Ts runs true env = .ok (R, H) ∧ IsIntersection sets R ∧
      H.live = leak sets runs (Nat.log2 env.hw) (h - Nat.log2 env.hw - 1) := by
  obtain ⟨R, e, hR⟩ : ∃ R, intersect Ts runs true env = .ok R ∧ IsIntersection sets R := by
    cases runs with
    | false =>
      obtain ⟨R, e, -, hR⟩ := C11_parallel_plain (by omega) hTs hne hlen env env hw hw2 hw
      exact ⟨R, e, hR⟩
    | true =>
      obtain ⟨R, e, -, hR⟩ := C12_parallel_runs_partial (by omega) env env (hTs.imp fun _ _ h => .inl h) hne hlen hw hw2 hw
      exact ⟨R, e, hR⟩
  rw [← C55_no_invalid_free_partial] at e
  cases hm : memIntersect Ts runs true env with
  | error _ => rw [hm] at e; cases e
  | ok p =>
    obtain ⟨R', H⟩ := p
    rw [hm] at e
    cases e
    refine ⟨R', H, rfl, hR, ?_⟩
    have hh : h - 1 = h - 2 - Nat.log2 env.hw + 1 + Nat.log2 env.hw := by omega
    rw [memIntersect_live (hTs.imp fun _ _ H => hh ▸ H.holds) hne hlen rfl hw hw2 hm, leak,
      show h - Nat.log2 env.hw - 1 = h - 2 - Nat.log2 env.hw + 1 by omega]
    rfl

/-- Three tasks, all freed; and one task that is replaced, and its two arrays not freed. -/
example : List.Forall₂ (PlainTrie 0 4) [Ex.sF, Ex.sL] [Ex.flat.nav 0, Ex.level.nav true 0] ∧
    memIntersect [Ex.flat.nav 0, Ex.level.nav true 0] false true ⟨4, [1, 0, 2, 1, 1], [1, 0, 0]⟩ =
      .ok ([1, 2, 3, 5, 14], [none, none, none]) ∧
    memIntersect [FlatTrie.nav ⟨4, 0, false, false, [true, false, true, false, true, false], [true, false]⟩ 0] true true ⟨4, [], []⟩ =
      .ok ([0], [some (.roots [some 2]), some (.flags [true]), none, none]) :=
  ⟨.cons Ex.flat_plain (.cons Ex.level_plain .nil), by decide +kernel, by decide +kernel⟩

/-- C55, exactly, for fast tries. -/
theorem C55_fast_leak_exact_partial {lg pad h : Nat} (hlg : 3 ≤ lg ∧ lg ≤ 6) {sets : List (List Nat)} {Ts : List FNav}
    (hTs : List.Forall₂ (FastPlain lg pad h) sets Ts) (hne : Ts ≠ []) (hlen : Ts.length ≤ 16)
    (env : Env) (hw : env.hw ≠ 0) (hw2 : env.hw < 2 ^ 16) (hcut : Nat.log2 env.hw + 2 ≤ h) :
    ∃ R H, memFastIntersect lg Ts false true env = .ok (R, H) ∧ IsIntersection sets R ∧
      H.live = leak sets false (Nat.log2 env.hw) (h - 2 - Nat.log2 env.hw + lg) := by
  obtain ⟨R, e, -, hR⟩ := C13_fast_parallel_plain hlg (by omega) hTs hne hlen env env hw hw2 hw
  rw [← C55_fast_no_invalid_free_partial] at e
  cases hm : memFastIntersect lg Ts false true env with
  | error _ => rw [hm] at e; cases e
  | ok p =>
    obtain ⟨R', H⟩ := p
    rw [hm] at e
    cases e
    refine ⟨R', H, rfl, hR, ?_⟩
    have hh : h - 1 = h - 2 - Nat.log2 env.hw + 1 + Nat.log2 env.hw := by omega
    rw [memFastIntersect_live (hTs.imp fun _ _ H => hh ▸ H.holds hlg) hne hlen rfl hw hw2 hm, leak,
      Nat.add_right_comm _ 1 lg]
    rfl

example : List.Forall₂ (FastPlain 3 0 3) [Ex.sV, Ex.sW] [Ex.fast.nav 0, Ex.fast2.nav 0] ∧
    memFastIntersect 3 [Ex.fast.nav 0, Ex.fast2.nav 0] false true ⟨2, [1], [0]⟩ = .ok ([4, 17, 31], [none, none]) :=
  ⟨.cons Ex.fast_plain (.cons Ex.fast2_plain .nil), by decide +kernel⟩

theorem leak_eq_zero (sets : List (List Nat)) (runs : Bool) (cut j : Nat) :
    leak sets runs cut j = 0 ↔ commonBlocks sets (j + 1) cut = [] ∨ 2 ^ cut ≤ (commonBlocks sets (j + 1) cut).length + 1 := by
  have : (if runs then 2 else 1) ≠ 0 := by cases runs <;> decide
  rw [leak, Nat.mul_eq_zero, replaced_eq_zero, List.map_eq_nil_iff]
  simp [this]

/-- C55: a parallel call on plain tries frees everything exactly if no block at the cut is common, or at most one thread would be
without a block. -/
theorem C55_leak_zero_iff_partial {pad h : Nat} {sets : List (List Nat)} {Ts : List Nav} (runs : Bool)
    (hTs : List.Forall₂ (PlainTrie pad h) sets Ts) (hne : Ts ≠ []) (hlen : Ts.length ≤ 16)
    (env : Env) (hw : env.hw ≠ 0) (hw2 : env.hw < 2 ^ 16) (hcut : Nat.log2 env.hw + 2 ≤ h) :
    ∃ R H, memIntersect Ts runs true env = .ok (R, H) ∧
      (H.live = 0 ↔ commonBlocks sets (h - Nat.log2 env.hw) (Nat.log2 env.hw) = [] ∨
        2 ^ Nat.log2 env.hw ≤ (commonBlocks sets (h - Nat.log2 env.hw) (Nat.log2 env.hw)).length + 1) := by
  obtain ⟨R, H, h1, -, h2⟩ := C55_leak_exact_partial runs hTs hne hlen env hw hw2 hcut
  refine ⟨R, H, h1, ?_⟩
  rw [h2, leak_eq_zero, show h - Nat.log2 env.hw - 1 + 1 = h - Nat.log2 env.hw by omega]

/-- C55, likewise for fast tries without runs. -/
theorem C55_fast_leak_zero_iff_partial {lg pad h : Nat} (hlg : 3 ≤ lg ∧ lg ≤ 6) {sets : List (List Nat)} {Ts : List FNav}
    (hTs : List.Forall₂ (FastPlain lg pad h) sets Ts) (hne : Ts ≠ []) (hlen : Ts.length ≤ 16)
    (env : Env) (hw : env.hw ≠ 0) (hw2 : env.hw < 2 ^ 16) (hcut : Nat.log2 env.hw + 2 ≤ h) :
    ∃ R H, memFastIntersect lg Ts false true env = .ok (R, H) ∧
      (H.live = 0 ↔ commonBlocks sets (h - 2 - Nat.log2 env.hw + lg + 1) (Nat.log2 env.hw) = [] ∨
        2 ^ Nat.log2 env.hw ≤ (commonBlocks sets (h - 2 - Nat.log2 env.hw + lg + 1) (Nat.log2 env.hw)).length + 1) := by
  obtain ⟨R, H, h1, -, h2⟩ := C55_fast_leak_exact_partial hlg hTs hne hlen env hw hw2 hcut
  exact ⟨R, H, h1, by rw [h2, leak_eq_zero]⟩

/-- Both cases occur: three common blocks of four, and one. -/
example : commonBlocks [Ex.sF, Ex.sL] 2 2 = [0, 1, 3] ∧ commonBlocks [[0]] 2 2 = [0] := by decide +kernel

/-- C55 is false: with 4 hardware threads and the set `{0}` over 16 values the call leaks; under every schedule. -/
theorem C55_negation : ¬ ∀ (pad h : Nat) (sets : List (List Nat)) (Ts : List Nav) (env : Env),
    List.Forall₂ (PlainTrie pad h) sets Ts → Ts ≠ [] → Ts.length ≤ 16 → env.hw ≠ 0 → 2 ≤ h →
    ∃ R H, memIntersect Ts false true env = .ok (R, H) ∧ H.live = 0 := by
  intro hall
  have hp : PlainTrie 0 4 [0] (FlatTrie.nav ⟨4, 0, false, false, [true, false, true, false, true, false], [true, false]⟩ 0) :=
    .flat (u := 16) (by decide +kernel) (by decide +kernel) (by decide) (by decide) (by decide +kernel) rfl
  obtain ⟨R, H, h1, h2⟩ := hall 0 4 [[0]] _ ⟨4, [], []⟩ (.cons hp .nil) (by simp) (by simp) (by decide) (by decide)
  obtain ⟨R', H', h1', _, h2'⟩ := C55_leak_exact_partial false (.cons hp .nil) (by simp) (by simp) ⟨4, [], []⟩ (by decide) (by decide) (by decide)
  rw [h1] at h1'
  cases h1'
  rw [h2] at h2'
  revert h2'
  decide +kernel

end CBT
