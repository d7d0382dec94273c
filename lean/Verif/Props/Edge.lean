import Verif.Props.Small
import Verif.Proof.Empty

/-!
# C41, C42: empty input, and machines that do not report their threads
-/

namespace CBT

open Spec

/-- C41 is false for flat and fast tries: building a trie from the empty vector reads out of bounds (or converts a
number out of range), for every universe. -/
theorem C41_flat_fast_negation (lg u : Nat) (junk : FastJunk) :
    (∀ t, flatCtor [] u ≠ .ok t) ∧ ∀ t, fastCtor lg junk [] u ≠ .ok t := by
  constructor
  · have key : Post (flatCtor [] u) fun _ => False := by
      unfold flatCtor
      refine (Post.any _).bind fun h _ => (Post.any _).bind fun mx _ => ?_
      obtain ⟨f, hf⟩ := two_pow_succ h
      rw [hf]
      exact Post.bind (Q := fun _ => False) (fun s hs => by cases hs) fun _ h => h.elim
    exact fun t h => key t h
  · have key : Post (fastCtor lg junk [] u) fun _ => False := by
      unfold fastCtor
      refine (Post.any _).bind fun h _ => ?_
      refine Post.ite (fun _ => ?_) (fun _ => ?_)
      · exact Post.bind (Q := fun _ => False) Post.error (fun _ h => h.elim)
      · refine (Post.any _).bind fun mx _ => ?_
        obtain ⟨f, hf⟩ := two_pow_succ h
        rw [hf]
        refine Post.bind (Q := fun _ => False) ?_ fun _ h => h.elim
        rw [fastLoop]
        refine Post.bind (Q := fun _ => False) ?_ fun _ h => h.elim
        unfold fastStep
        refine Post.ite (fun _ => ?_) (fun _ => Post.ite (fun _ => Post.error) fun _ => ?_)
        · exact Post.bind (Q := fun _ => False) (fun s hs => by cases hs) fun _ h => h.elim
        · exact Post.bind (Q := fun _ => False) (fun s hs => by cases hs) fun _ h => h.elim
    exact fun t h => key t h

example : flatCtor [] 16 = .error .oob ∧ fastCtor 3 Ex.junk [] 16 = .error .oob := by decide +kernel

/-- C41 (partial), level-wise tries: the trie built from the empty vector decodes to nothing, and a sequential intersection of
plain tries of one height in which it takes part is empty. Missing: flat and fast tries (`C41_flat_fast_negation`) and
run-aware use (`C41_level_runs_negation`). -/
theorem C41_level_empty_partial {u : Nat} (hu : 2 ≤ u) (hu' : u ≤ 2 ^ 63) (il : Bool) (pad : Nat) :
    ∃ t, levelCtor [] u = .ok t ∧ (∀ out, t.decode il pad out = .ok out) ∧
      ∀ (sets : List (List Nat)) (Ts : List Nav) (env : Env),
        List.Forall₂ (fun S T => PlainTrie pad t.height S T ∨ S = [] ∧ T = t.nav il pad) sets Ts → [] ∈ sets → Ts.length ≤ 16 →
        env.hw ≠ 0 → intersect Ts false false env = .ok [] := by
  have hb : ((List.range (Nat.log2 (u - 1) + 1)).map fun level => List.replicate (2 * 2 ^ level) false) =
      [false, false] :: ((List.range (Nat.log2 (u - 1))).map fun level => List.replicate (2 * 2 ^ (level + 1)) false) := by
    rw [List.range_succ_eq_map, List.map_cons, List.map_map]
    rfl
  refine ⟨_, levelCtor_nil hu (by omega), fun out => ?_, fun sets Ts env hT hmem hlen hw => ?_⟩
  · rw [hb]; rfl
  · rw [hb] at hT
    obtain ⟨d, hd⟩ : ∃ d, d + 1 = LevelTrie.height ⟨0, false, false, [false, false] ::
        ((List.range (Nat.log2 (u - 1))).map fun level => List.replicate (2 * 2 ^ (level + 1)) false)⟩ := ⟨_, rfl⟩
    have hroot : List.Forall₂ (fun S T => T.height = d + 1 ∧ ∃ v, T.getNode 0 0 = .ok v ∧ (S = [] → v = 0)) sets Ts := by
      refine hT.imp fun S T h => ?_
      rcases h with h | ⟨rfl, rfl⟩
      · have hne : S ≠ [] := by cases h with | flat h => exact h.ne | level _ h => exact h.ne
        have hp := h.holds
        rw [← hd] at hp
        obtain ⟨hh, -, -, t, hrep, -⟩ := hp
        refine ⟨hh, ?_⟩
        obtain ⟨v, hv⟩ := root_ok hrep
        exact ⟨v, hv, fun h => (hne h).elim⟩
      · exact ⟨hd.symm, 0, rfl, fun _ => rfl⟩
    have hand := andNodes_zero hroot (List.replicate 16 (some 0)) 3 (by simpa using hlen) (by simp) (.inl hmem)
    have hne : Ts ≠ [] := by
      rintro rfl
      cases hT
      simp at hmem
    rw [intersect_unfold (d := d) hne (forall2_imp_right hroot fun _ _ h => h.1), intersectBody]
    simp only [hw, if_false, Bool.false_eq_true, false_and, flatCfg]
    rw [AND, hand]
    rfl

namespace Ex

/-- The level-wise trie of the empty set over `u = 4`. -/
def levelE : LevelTrie := ⟨0, false, false, [[false, false], [false, false, false, false]]⟩

/-- A level-wise trie of `[1, 2]` over `u = 4`. -/
def level12 : LevelTrie := ⟨0, false, false, [[true, true], [false, true, true, false]]⟩

end Ex

example : levelCtor [] 4 = .ok Ex.levelE ∧ levelCtor [1, 2] 4 = .ok Ex.level12 ∧
    intersect [Ex.level12.nav false 0, Ex.levelE.nav false 0] false false ⟨1, [], []⟩ = .ok [] := by decide +kernel

/-- C41 is false for run-aware use of level-wise tries: a run-aware intersection takes the empty set for the whole universe,
and `encodeRuns` makes a trie that reads out of bounds or, when two zero bits are readable after the vector, decodes to the
whole universe. -/
theorem C41_level_runs_negation :
    levelCtor [] 4 = .ok Ex.levelE ∧ levelCtor [1, 2] 4 = .ok Ex.level12 ∧
    intersect [Ex.level12.nav false 0, Ex.levelE.nav false 0] true false ⟨1, [], []⟩ = .ok [1, 2] ∧
    (Ex.levelE.encodeRuns false 0 >>= fun t => t.decode false 0 []) = .error .oob ∧
    (Ex.levelE.encodeRuns false 2 >>= fun t => t.decode false 2 []) = .ok [0, 1, 2, 3] := by decide +kernel

/-- C42 (partial). The result of a sequential `Intersect` does not depend on the machine, as long as the machine reports a
number of threads. -/
theorem C42_sequential_env_partial (lg : Nat) (Ts : List Nav) (Fs : List FNav) (runs : Bool) (env env' : Env) (hw : env.hw ≠ 0)
    (hw' : env'.hw ≠ 0) :
    intersect Ts runs false env = intersect Ts runs false env' ∧ fastIntersect lg Fs runs false env = fastIntersect lg Fs runs false env' := by
  have key : ∀ Ts c height, intersectBody Ts c height runs false env = intersectBody Ts c height runs false env' := by
    intro Ts c height
    simp only [intersectBody, hw, hw', if_false, Bool.false_eq_true, false_and]
  constructor
  · cases Ts with
    | nil => rfl
    | cons T Ts => rw [intersect, intersect, key]
  · cases Fs with
    | nil => rfl
    | cons T Fs => rw [fastIntersect, fastIntersect, key]

example : intersect [Ex.flat.nav 0, Ex.level.nav true 0] true false ⟨8, [], []⟩ = .ok [1, 2, 3, 5, 14] ∧
    intersect [Ex.flat.nav 0, Ex.level.nav true 0] true false ⟨3, [1], [1]⟩ = .ok [1, 2, 3, 5, 14] := by decide +kernel

/-- C42 is false when `hardware_concurrency()` returns 0, which the standard allows: every call on tries of one height takes
the logarithm of zero and converts the result to an integer. -/
theorem C42_no_hint_negation (T : Nav) (Ts : List Nav) (runs parallel : Bool) (env : Env) (hh : ∀ T' ∈ Ts, T'.height = T.height)
    (hw : env.hw = 0) : intersect (T :: Ts) runs parallel env = .error .conv := by
  rw [intersect, if_neg]
  · rw [intersectBody, if_pos hw]; rfl
  · simpa using hh

example : intersect [Ex.flat.nav 0, Ex.level.nav true 0] true false ⟨0, [], []⟩ = .error .conv := by decide +kernel

end CBT
