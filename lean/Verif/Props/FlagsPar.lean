import Verif.Props.AnyInter
import Verif.Props.FlagsExact

/-!
# C74: `runs = false` on run-encoded flat tries, in parallel
-/

namespace CBT

open Spec

theorem KnownTrie.any {pad h : Nat} {c : Coding × List Nat} {n : Nav} (H : KnownTrie pad h c n) : SomeTrie n := by
  cases H with
  | plain H =>
    cases H with
    | flat _ _ _ _ _ _ => exact .flat ..
    | level il _ _ _ _ _ _ => exact .level ..
  | flat _ _ _ _ _ _ _ => exact .flat ..
  | level il _ _ _ _ _ _ _ => exact .level ..

open Classical in
/-- C74, exactly: `C74_false_exact_partial` for parallel calls too, on tries of height at least 2. -/
theorem C74_false_exact {pad h : Nat} {cs : List (Coding × List Nat)} {Ts : List Nav}
    (hTs : List.Forall₂ (KnownTrie pad h) cs Ts) (hne : Ts ≠ []) (hlen : Ts.length ≤ 16) (h2 : 2 ≤ h) (env : Env) (hw : env.hw ≠ 0)
    (hw2 : env.hw < 2 ^ 16) :
    ∃ R, IsIntersection ((withRuns cs).map (outside 2)) R ∧ ∀ par, intersect Ts false par env =
      if ∃ c ∈ cs, c.1 = .flat ∧ ∃ j k, unreadable pad h c.2 j k ∧ reached (withRuns cs) h j k = true then .error .oob else .ok R := by
  obtain ⟨R, hR, h⟩ := C74_false_exact_partial hTs hne hlen env hw
  have hT : ∀ n ∈ Ts, SomeTrie n ∧ 2 ≤ n.height ∧ n.height ≤ 64 := forall2_imp_right hTs fun _ _ H => by
    have h1 := H.read.holds.height
    have h3 := H.read.holds.depth
    exact ⟨H.any, by omega, by omega⟩
  refine ⟨R, hR, fun par => ?_⟩
  cases par with
  | false => exact h
  | true => rw [C77_outcome_any hT hlen env hw hw2, h]

/-- The pairs of the example of `C74_false_exact_partial`, in parallel. -/
example (env : Env) (hw : env.hw ≠ 0) (hw2 : env.hw < 2 ^ 16) : ∃ t, levelCtor [4, 13] 16 = .ok t ∧
    intersect [Ex.flatCollapsed.nav 2, t.nav false 2] false true env = .error .oob := by
  obtain ⟨T, hc, hne, hT⟩ := level_built (S := [4, 13]) (u := 16) (by decide +kernel) (by decide) (by decide) (by decide)
  refine ⟨_, hc, ?_⟩
  obtain ⟨R, -, h⟩ := C74_false_exact (.cons Ex.flatCollapsed_known2 (.cons (.plain (.level (u := 16) false (by decide +kernel)
    (by decide +kernel) (by decide) (by decide) hc rfl)) .nil)) (by simp) (by simp) (by decide) env hw hw2
  rw [h, if_pos]
  exact ⟨_, List.mem_cons_self, rfl, 2, 3, ⟨by decide +kernel, by decide +kernel, by decide +kernel⟩, by decide +kernel⟩

end CBT
