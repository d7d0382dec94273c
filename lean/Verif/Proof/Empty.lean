import Verif.Proof.Inter
import Verif.Proof.Reach

/-!
# Tries of the empty set
-/

namespace CBT

open Spec

theorem two_pow_succ (h : Nat) : ∃ f, 2 ^ h = f + 1 := ⟨2 ^ h - 1, by have := Nat.two_pow_pos h; omega⟩

/-- A level-wise trie of the empty set: the root is `00` and the other levels keep their full size. -/
theorem levelCtor_nil {u : Nat} (hu : 2 ≤ u) (hu' : u ≤ 2 ^ 63) :
    levelCtor [] u = .ok ⟨0, false, false, (List.range (Nat.log2 (u - 1) + 1)).map fun level => List.replicate (2 * 2 ^ level) false⟩ := by
  have hlog : Nat.log2 (u - 1) < 63 := (Nat.log2_lt (by omega)).2 (by omega)
  obtain ⟨f, hf⟩ : ∃ f, 2 ^ (Nat.log2 (u - 1) + 1) = f + 2 := ⟨2 ^ (Nat.log2 (u - 1) + 1) - 2, by
    have := Nat.two_pow_pos (Nat.log2 (u - 1))
    rw [Nat.pow_succ]; omega⟩
  rw [levelCtor, heightOf, if_neg (by omega), R_bind_ok]
  simp only
  rw [if_neg (by omega), hf]
  have hb : ((List.range (Nat.log2 (u - 1) + 1)).map fun level => List.replicate (2 * 2 ^ level) false) =
      [false, false] :: ((List.range (Nat.log2 (u - 1))).map fun level => List.replicate (2 * 2 ^ (level + 1)) false) := by
    rw [List.range_succ_eq_map, List.map_cons, List.map_map]
    rfl
  rw [hb]
  by_cases h1 : 1 = Nat.log2 (u - 1) + 1
  · simp [levelLoop, levelStep, scan, levelChild, levelLevelEnd, vGet, bvResize, ← h1]
  · simp [levelLoop, levelStep, scan, levelChild, levelLevelEnd, vGet, bvResize]

theorem root_ok {n : Nav} {d : Nat} {t : Tr d} (h : Rep n (leafF n) d 0 t 0) : ∃ v, n.getNode 0 0 = .ok v := by
  cases d with
  | zero => exact ⟨_, h.2.1⟩
  | succ d => exact ⟨_, h.1⟩

/-- The nodes of the roots, one of them `00`, have no common bit. -/
theorem andNodes_zero {d : Nat} {sets : List (List Nat)} {Ts : List Nav}
    (h : List.Forall₂ (fun S T => T.height = d + 1 ∧ ∃ v, T.getNode 0 0 = .ok v ∧ (S = [] → v = 0)) sets Ts) :
    ∀ (roots : List (Option Nat)) (res : Nat), Ts.length ≤ roots.length → (∀ o ∈ roots, o = some 0) → ([] ∈ sets ∨ res = 0) →
      andNodes Ts roots 0 res = .ok 0 := by
  induction h with
  | nil => intro roots res _ _ hm; rcases hm with hm | rfl
           · simp at hm
           · rfl
  | @cons S T sets Ts hT h ih =>
    intro roots res hlen hr hm
    cases roots with
    | nil => simp at hlen
    | cons o os =>
      obtain ⟨-, v, hv, hz⟩ := hT
      rw [hr o (by simp), andNodes, readRoot, R_bind_ok, hv, R_bind_ok]
      refine ih os _ (by simpa using hlen) (fun o ho => hr o (List.mem_cons_of_mem _ ho)) ?_
      rcases hm with hm | rfl
      · rcases List.mem_cons.1 hm with hm | hm
        · right; rw [hz hm.symm, Nat.and_zero]
        · exact .inl hm
      · right; exact Nat.zero_and _

end CBT
