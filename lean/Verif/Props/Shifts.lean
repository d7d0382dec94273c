import Verif.Proof.Shifts
import Verif.Props.Height1

/-!
# C96: shift amounts

`decodeK`, `intersectK` and `fastIntersectK` (Model/Shifts) fail where an amount of a shift, or a number of levels left, is below zero.
The theorems show that they are `decode`, `intersect` and `fastIntersect`, so such an amount never occurs.
-/

namespace CBT

open Spec

/-- C96, decoding a flat trie in any state. -/
theorem C96_flat_decode (t : FlatTrie) (pad : Nat) (out : List Nat) : t.decodeK pad out = t.decode pad out := by
  rw [FlatTrie.decodeK, FlatTrie.decode, runsRecDecodeK_eq' _ _ _ _ _ (by simp [FlatTrie.nav]), recDecodeK_eq _ _ _ _ _ (by simp [FlatTrie.nav])]

example : Ex.flat.decodeK 0 [] = .ok [0, 1, 2, 3, 5, 8, 14] := by decide +kernel

/-- C96, decoding a level-wise trie in any state. -/
theorem C96_level_decode (t : LevelTrie) (il : Bool) (pad : Nat) (out : List Nat) : t.decodeK il pad out = t.decode il pad out := by
  rw [LevelTrie.decodeK, LevelTrie.decode, recDecodeK_eq _ _ _ _ _ (by simp [LevelTrie.nav]), runsRecDecodeK_eq]
  intro id level h
  have h' : t.bTrie.length ≤ level := h
  simp [LevelTrie.nav, LevelTrie.getNode, vGet, h', bind, Except.bind]

example : Ex.level.decodeK true 0 [] = .ok [1, 2, 3, 5, 6, 14] := by decide +kernel

/-- C96, decoding a fast trie made by the constructor, plain or run-encoded: its height over words is at most its height over bits plus
one. -/
theorem C96_fast_decode {lg pad : Nat} (hlg : 3 ≤ lg ∧ lg ≤ 6) {S : List Nat} {u : Nat} (hS : ValidSet S u) (hlen : S.length < 2 ^ 32)
    (hu : 2 ^ (lg - 1) < u) (hu' : u ≤ 2 ^ 62) (junk : FastJunk) {t : FastTrie} (ht : fastCtor lg junk S u = .ok t) (out : List Nat) :
    t.decodeK lg pad out = t.decode lg pad out ∧
    ∀ t', t.encodeRuns lg pad = .ok t' → t'.decodeK lg pad out = t'.decode lg pad out := by
  have key : ∀ t : FastTrie, t.height ≤ t.heightU + 1 → t.decodeK lg pad out = t.decode lg pad out := by
    intro t h
    rw [FastTrie.decodeK, FastTrie.decode, fastRecDecodeK_eq _ _ _ _ _ (by omega), fastRunsRecDecodeK_eq _ _ _ _ _ (by omega)]
  obtain ⟨T, hc, hne, -⟩ := fast_built hlg hS hlen hu hu' junk
  rw [hc] at ht
  cases ht
  refine ⟨key _ (by simp only [fastOf]; omega), fun t' h => ?_⟩
  obtain ⟨k, he⟩ := fastOf_encode (pad := pad) (hw := junk.heightWithRuns) (runs := false) (empty := junk.emptyTrie) hne
  rw [he] at h
  cases h
  exact key _ (by simp only [fastOf]; omega)

example : (do let t ← fastCtor 3 Ex.junk [1, 9, 30] 32; t.decodeK 3 0 []) = .ok [1, 9, 30] := by decide +kernel

/-- C96, `Intersect` of flat and level-wise tries in any state: any sequential call, and any parallel call on tries of height 2 or
more. -/
theorem C96_intersect_any (Ts : List Nav) (runs par : Bool) (env : Env) (h : par = true → ∀ T ∈ Ts, 2 ≤ T.height) :
    intersectK Ts runs par env = intersect Ts runs par env := by
  cases Ts with
  | nil => rfl
  | cons T Ts =>
    simp only [intersectK, intersect]
    split
    · rfl
    · refine intersectBodyK_eq (by simp [flatCfg]) fun hp _ hc => ?_
      have h2 := h hp T List.mem_cons_self
      have : (T.height + 2 ^ 64 - 2) % 2 ^ 64 ≤ T.height - 2 := by
        have : T.height + 2 ^ 64 - 2 = (T.height - 2) + 2 ^ 64 := by omega
        rw [this, Nat.add_mod_right]
        exact Nat.mod_le _ _
      exact .of_le (by simp only [flatCfg]; omega) (by simp only [flatCfg]; omega)

example : intersectK [Ex.flat.nav 0, Ex.level.nav true 0] true true ⟨4, [], []⟩ = .ok [1, 2, 3, 5, 14] := by decide +kernel

/-- C96, `Intersect` of fast tries in any state: any sequential call, and any parallel call on tries of more than one word. -/
theorem C96_fast_intersect_any (lg : Nat) (Ts : List FNav) (runs par : Bool) (env : Env) (h : par = true → ∀ T ∈ Ts, 2 ≤ T.height) :
    fastIntersectK lg Ts runs par env = fastIntersect lg Ts runs par env := by
  cases Ts with
  | nil => rfl
  | cons T Ts =>
    simp only [fastIntersectK, fastIntersect]
    split
    · rfl
    split
    · rfl
    · refine intersectBodyK_eq (by simp only [fastCfg]; omega) fun hp _ hc => ?_
      have h2 := h hp T List.mem_cons_self
      have : (T.height + 2 ^ 64 - 2) % 2 ^ 64 ≤ T.height - 2 := by
        have : T.height + 2 ^ 64 - 2 = (T.height - 2) + 2 ^ 64 := by omega
        rw [this, Nat.add_mod_right]
        exact Nat.mod_le _ _
      exact .of_le (by simp only [fastCfg]; omega) (by simp only [fastCfg]; omega)

example : fastIntersectK 3 [Ex.fast.nav 0, Ex.fast.nav 0] true true ⟨2, [], []⟩ = fastIntersect 3 [Ex.fast.nav 0, Ex.fast.nav 0] true true ⟨2, [], []⟩ :=
  C96_fast_intersect_any _ _ _ _ _ (by decide +kernel)

/-- C96, `Intersect` in every mode of 1 to 16 tries that constructors and `encodeRuns` make, of any height. -/
theorem C96_intersect {pad h : Nat} {sets : List (List Nat)} {Ts : List Nav} (hTs : List.Forall₂ (BuiltTrie pad h) sets Ts)
    (hlen : Ts.length ≤ 16) (runs par : Bool) (env : Env) : intersectK Ts runs par env = intersect Ts runs par env := by
  by_cases hne : Ts = []
  · subst hne; rfl
  have hh : ∀ T ∈ Ts, T.height = h := forall2_imp_right hTs fun _ _ h => by
    cases h with
    | plain h => cases h <;> assumption
    | flat => assumption
    | level => assumption
  by_cases h2 : 2 ≤ h
  · exact C96_intersect_any _ _ _ _ fun _ T hT => by rw [hh T hT]; exact h2
  obtain rfl : h = 1 := by
    cases hTs with
    | nil => exact (hne rfl).elim
    | cons h _ => have := h.pos; omega
  obtain ⟨ws, hws⟩ := built_one hTs
  cases Ts with
  | nil => rfl
  | cons T Ts =>
    simp only [intersectK, intersect]
    split
    · rfl
    · rw [hh T List.mem_cons_self]
      exact intersectBodyK_eq (Nat.le_refl _) fun _ _ _ => .one hws hne hlen runs _

example : List.Forall₂ (BuiltTrie 0 1) [[1], [0, 1]] [Ex.level1.nav false 0, Ex.level01.nav false 0] ∧
    intersectK [Ex.level1.nav false 0, Ex.level01.nav false 0] true true ⟨3, [], []⟩ = .ok [1] ∧
    intersectK [Ex.level1.nav false 0, Ex.level01.nav false 0] true true ⟨8, [], []⟩ = .error .oob :=
  ⟨.cons (Ex.level1_built 0) (.cons Ex.level01_built .nil), by decide +kernel, by decide +kernel⟩

/-- C96, `Intersect` in every mode of 1 to 16 fast tries that the constructor and `encodeRuns` make, of any height. -/
theorem C96_fast_intersect {lg pad h : Nat} (hlg : 3 ≤ lg ∧ lg ≤ 6) {sets : List (List Nat)} {Ts : List FNav}
    (hTs : List.Forall₂ (FastRuns lg pad h) sets Ts) (hlen : Ts.length ≤ 16) (runs par : Bool) (env : Env) :
    fastIntersectK lg Ts runs par env = fastIntersect lg Ts runs par env := by
  by_cases hne : Ts = []
  · subst hne; rfl
  have hh : ∀ T ∈ Ts, T.height = h := forall2_imp_right hTs fun _ _ h => by
    cases h with
    | plain h => cases h; assumption
    | runs => assumption
  by_cases h2 : 2 ≤ h
  · exact C96_fast_intersect_any _ _ _ _ _ fun _ T hT => by rw [hh T hT]; exact h2
  cases Ts with
  | nil => rfl
  | cons T Ts =>
    simp only [fastIntersectK, fastIntersect]
    split
    · rfl
    split
    · rfl
    · have h1 : T.height = 1 := by have := hh T List.mem_cons_self; omega
      obtain rfl : h = 1 := by rw [← hh T List.mem_cons_self, h1]
      have h := forall2_imp_right hTs fun _ _ h => h.one hlg
      rw [h1]
      exact intersectBodyK_eq (by simp only [fastCfg]; omega) fun _ _ _ => .fast_one hlen hne (fun n hn => (h n hn).2) runs _

example : List.Forall₂ (FastRuns 3 64 1) [[1, 3], [1, 3]] [Ex.fast1.nav 64, Ex.fast1.nav 64] ∧
    fastIntersectK 3 [Ex.fast1.nav 64, Ex.fast1.nav 64] true true ⟨1, [], []⟩ = .ok [1, 3] :=
  ⟨.cons (.plain (Ex.fast1_plain 64)) (.cons (.plain (Ex.fast1_plain 64)) .nil), by decide +kernel⟩

end CBT
