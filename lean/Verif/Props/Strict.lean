import Verif.SpecStrict
import Verif.Proof.StrictSets
import Verif.Props.Intersect

/-!
# C54: indeterminate values read by plain intersections
-/

namespace CBT

open Spec

theorem PlainTrie.height_eq {pad h : Nat} {S : List Nat} {n : Nav} (H : PlainTrie pad h S n) : n.height = h := by
  cases H with
  | flat _ _ _ _ _ hh => exact hh
  | level _ _ _ _ _ _ hh => exact hh

theorem PlainTrie.nonempty {pad h : Nat} {S : List Nat} {n : Nav} (H : PlainTrie pad h S n) : S ≠ [] := by
  cases H with
  | flat hS _ _ _ _ _ => exact hS.ne
  | level _ hS _ _ _ _ _ => exact hS.ne

theorem FastPlain.nonempty {lg pad h : Nat} {S : List Nat} {n : FNav} (H : FastPlain lg pad h S n) : S ≠ [] := by
  cases H with
  | mk hS _ _ _ _ _ => exact hS.ne

/-- C54, what does hold: whatever a plain call returns that read no indeterminate value is what the model without such reads
returns, in any mode; so C07 and C11 apply to it. -/
theorem C54_returned_partial (Ts : List Nav) (parallel : Bool) (env : Env) {R : List Nat}
    (h : strictIntersect Ts parallel env = .ok R) : intersect Ts false parallel env = .ok R :=
  strictIntersect_le Ts parallel env R h

example : strictIntersect [FlatTrie.nav ⟨3, 0, false, false, [true, true, true, true, true, false], [true, true, true, false, true, true]⟩ 0]
    true ⟨2, [1], [1, 0]⟩ = .ok [0, 1, 2, 4, 5] := by decide +kernel

theorem C54_fast_returned_partial (lg : Nat) (Ts : List FNav) (parallel : Bool) (env : Env) {R : List Nat}
    (h : strictFastIntersect lg Ts parallel env = .ok R) : fastIntersect lg Ts false parallel env = .ok R :=
  strictFastIntersect_le lg Ts parallel env R h

example : strictFastIntersect 3 [Ex.fast.nav 0, Ex.fast2.nav 0] true ⟨2, [1], [0]⟩ = .ok [4, 17, 31] := by decide +kernel

/-- C54, exactly: sequential `Intersect` of 1 to 16 plain tries returns the intersection without reading an indeterminate value
if `LeftFirst`, and reads one otherwise. -/
theorem C54_seq_exact_partial {pad h : Nat} {sets : List (List Nat)} {Ts : List Nav} (hTs : List.Forall₂ (PlainTrie pad h) sets Ts)
    (hne : Ts ≠ []) (hlen : Ts.length ≤ 16) (env : Env) (hw : env.hw ≠ 0) :
    (LeftFirst 0 h sets → ∃ R, strictIntersect Ts false env = .ok R ∧ IsIntersection sets R) ∧
    (¬ LeftFirst 0 h sets → strictIntersect Ts false env = .error .uninit) := by
  have e : h - 1 + 1 = h := by
    cases hTs with
    | nil => exact (hne rfl).elim
    | cons H _ => rw [← H.holds.height, H.height_eq]
  have := strict_intersect_seq (hTs.imp fun _ _ h => h.holds) hne hlen hw
  rwa [e] at this

/-- Both cases occur. -/
example : ∃ t t', flatCtor [0, 1, 2, 4, 5] 8 = .ok t ∧ levelCtor [0, 2, 3, 4] 8 = .ok t' ∧
    strictIntersect [t.nav 0, t'.nav true 0] false ⟨8, [], []⟩ = .ok [0, 2, 4] ∧
    LeftFirst 0 3 [[0, 1, 2, 4, 5], [0, 2, 3, 4]] := by
  refine ⟨⟨3, 0, false, false, [true, true, true, true, true, false], [true, true, true, false, true, true]⟩,
    ⟨0, false, false, [[true, true], [true, true, true, false], [true, false, true, true, true, false]]⟩, by decide +kernel,
    by decide +kernel, by decide +kernel, ?_⟩
  by_contra hl
  have := (C54_seq_exact_partial (pad := 0) (h := 3) (sets := [[0, 1, 2, 4, 5], [0, 2, 3, 4]])
    (.cons (.flat (u := 8) (t := ⟨3, 0, false, false, [true, true, true, true, true, false], [true, true, true, false, true, true]⟩)
      (by decide +kernel) (by decide +kernel) (by decide) (by decide) (by decide +kernel) rfl)
    (.cons (.level (u := 8) (t := ⟨0, false, false, [[true, true], [true, true, true, false], [true, false, true, true, true, false]]⟩)
      true (by decide +kernel) (by decide +kernel) (by decide) (by decide) (by decide +kernel) rfl) .nil)) (by simp) (by simp)
    ⟨8, [], []⟩ (by decide)).2 hl
  revert this
  decide +kernel

example : strictIntersect [Ex.flat.nav 0, Ex.level.nav true 0] false ⟨8, [], []⟩ = .error .uninit := by decide +kernel

/-- C54, exactly, for fast tries with words of `2^lg` bits. -/
theorem C54_fast_seq_exact_partial {lg pad h : Nat} (hlg : 3 ≤ lg ∧ lg ≤ 6) {sets : List (List Nat)} {Ts : List FNav}
    (hTs : List.Forall₂ (FastPlain lg pad h) sets Ts) (hne : Ts ≠ []) (hlen : Ts.length ≤ 16) (env : Env) (hw : env.hw ≠ 0) :
    (LeftFirst lg (h - 1 + lg) sets → ∃ R, strictFastIntersect lg Ts false env = .ok R ∧ IsIntersection sets R) ∧
    (¬ LeftFirst lg (h - 1 + lg) sets → strictFastIntersect lg Ts false env = .error .uninit) :=
  strict_fast_seq hlg.2 (hTs.imp fun _ _ h => h.holds hlg) hne hlen hw

/-- Both cases occur. -/
example : strictFastIntersect 3 [Ex.fast.nav 0, Ex.fast2.nav 0] false ⟨8, [], []⟩ = .ok [4, 17, 31] ∧ LeftFirst 3 5 [Ex.sV, Ex.sW] := by
  refine ⟨by decide +kernel, ?_⟩
  by_contra hl
  have := (C54_fast_seq_exact_partial (lg := 3) (by decide) (.cons Ex.fast_plain (.cons Ex.fast2_plain .nil)) (by simp) (by simp)
    ⟨8, [], []⟩ (by decide)).2 hl
  revert this
  decide +kernel

/-- C54 is false: the trie of any set without 0 makes `Intersect` of that trie alone read an indeterminate value. -/
theorem C54_negation {pad h : Nat} {S : List Nat} {T : Nav} (hT : PlainTrie pad h S T) (h0 : 0 ∉ S) (env : Env) (hw : env.hw ≠ 0) :
    strictIntersect [T] false env = .error .uninit := by
  refine (C54_seq_exact_partial (.cons hT .nil) (by simp) (by simp) env hw).2 fun hl => ?_
  have e : h - 1 + 1 = h := by rw [← hT.holds.height, hT.height_eq]
  obtain ⟨x, hx⟩ := List.exists_mem_of_ne_nil _ hT.nonempty
  obtain ⟨y, hy, hy'⟩ := leftFirst_low hl (fun x hx => e ▸ hT.holds.below x hx) x hx
  have : y = 0 := by omega
  exact h0 (this ▸ hy)

example : PlainTrie 0 4 Ex.sL (Ex.level.nav true 0) ∧ 0 ∉ Ex.sL := ⟨Ex.level_plain, by decide⟩

/-- C54 is false for fast tries: the trie of any set whose elements all exceed the word. -/
theorem C54_fast_negation {lg pad h : Nat} (hlg : 3 ≤ lg ∧ lg ≤ 6) {S : List Nat} {T : FNav} (hT : FastPlain lg pad h S T)
    (h0 : ∀ x ∈ S, 2 ^ lg ≤ x) (env : Env) (hw : env.hw ≠ 0) : strictFastIntersect lg [T] false env = .error .uninit := by
  refine (C54_fast_seq_exact_partial hlg (.cons hT .nil) (by simp) (by simp) env hw).2 fun hl => ?_
  obtain ⟨x, hx⟩ := List.exists_mem_of_ne_nil _ hT.nonempty
  obtain ⟨y, hy, hy'⟩ := leftFirst_low hl (fun x hx => (hT.holds hlg).below x hx) x hx
  exact absurd (h0 y hy) (by omega)

/-- A set and a trie with the hypotheses. -/
example : FastPlain 3 0 3 [9, 17] (FastTrie.nav ⟨3, 9, 5, false, true, [true, true, false, true, true, false], [2, 2]⟩ 0) ∧
    ∀ x ∈ [9, 17], 2 ^ 3 ≤ x :=
  ⟨.mk (u := 32) (junk := Ex.junk) (by decide +kernel) (by decide +kernel) (by decide) (by decide) (by decide +kernel) rfl,
    by decide⟩

end CBT
