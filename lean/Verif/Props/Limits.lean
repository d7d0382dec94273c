import Verif.Props.UnreadablePar
import Verif.Props.CommandLine

/-!
# C16 and C53, where they are false
-/

namespace CBT

open Spec

/-- C16 is false of the code: calls on one or two tries read out of bounds, sequentially (run-encoded flat tries, C04) and in parallel (plain
level-wise tries of height 1). -/
theorem C16_negation : ¬ ∀ (pad h : Nat) (sets : List (List Nat)) (Ts : List Nav) (runs parallel : Bool) (env : Env),
    List.Forall₂ (BuiltTrie pad h) sets Ts → Ts ≠ [] → Ts.length ≤ 16 → env.hw ≠ 0 → intersect Ts runs parallel env ≠ .error .oob := by
  intro H
  exact H 0 4 [[0, 1, 2, 3, 12, 13, 14, 15]] [Ex.flatCollapsed.nav 0] true false ⟨2, [], []⟩ (.cons (KnownTrie.built.2 ⟨_, Ex.flatCollapsed_known⟩) .nil)
    (by simp) (by simp) (by decide) (by decide +kernel)

theorem C16_parallel_negation : ¬ ∀ (pad h : Nat) (sets : List (List Nat)) (Ts : List Nav) (runs : Bool) (env : Env),
    List.Forall₂ (PlainTrie pad h) sets Ts → Ts ≠ [] → Ts.length ≤ 16 → env.hw ≠ 0 → intersect Ts runs true env ≠ .error .oob := by
  intro H
  exact H 0 1 [[0]] [LevelTrie.nav ⟨0, false, false, [[true, false]]⟩ false 0] false ⟨4, [], []⟩
    (.cons (.level (u := 2) false (by decide +kernel) (by decide) (by decide) (by decide) (by decide +kernel) rfl) .nil)
    (by simp) (by simp) (by decide) (by decide +kernel)

/-- C53 is false of the code: run encoding is requested, everything else is as by default, and the answer to the only query lacks elements. -/
theorem C53_negation :
    (∀ l ∈ kept 1 (2 ^ 64 - 1) Ex.coll, ValidSet l 64) ∧
    (mainBuildTries Ex.formats 0 true (Ex.fileAt ['c'] (collectionBytes 1 64 Ex.coll)) [['b'], ['c'], sMinSize, ['1'], sRuns, sT, sLevelwise, sT, sOut, ['o']] >>=
      fun f => mainQueryLog Ex.formats 0 (fun _ => ⟨4, [], []⟩) (Ex.fileAt ['o'] (f.getD ([], [])).2)
        (fun n => if n = ['q'] then some ['2', ' ', '0', '\n'] else none) [['p'], ['o'], ['q'], sOut, ['r']]) =
      .ok (.done [some [31]] (some (['r'], [(2, 1)]))) ∧
    ¬ List.Forall₂ (Answers (kept 1 (2 ^ 64 - 1) Ex.coll)) [[2, 0]] [some [31]] ∧
    ¬ IsResults (kept 1 (2 ^ 64 - 1) Ex.coll) [[2, 0]] [(2, 1)] := by
  have key : ∀ R, IsIntersection ([2, 0].map fun i => (kept 1 (2 ^ 64 - 1) Ex.coll).getD i []) R → 3 ∈ R ∧ 31 ∈ R := fun R h =>
    ⟨(h.mem 3).2 (by decide +kernel), (h.mem 31).2 (by decide +kernel)⟩
  refine ⟨by decide +kernel, by decide +kernel, fun h => ?_, fun h => ?_⟩
  · cases h with
    | cons h _ =>
      obtain ⟨R, e, h⟩ := h.1 (by decide)
      injection e with e
      subst e
      exact absurd (key _ h).1 (by decide)
  · cases h with
    | cons h _ =>
      obtain ⟨-, R, h, e⟩ := h
      obtain ⟨a, rfl⟩ := List.length_eq_one_iff.1 e.symm
      have := key _ h
      simp only [List.mem_singleton] at this
      omega

end CBT
