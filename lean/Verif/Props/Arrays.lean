import Verif.Proof.Arrays
import Verif.Props.Runs

/-!
# C52: flat tries from the levels of level-wise tries
-/

namespace CBT

open Spec

/-- The positions of the ones of a bit sequence. -/
def positions (b : List Bool) : List Nat := (List.range b.length).filter fun i => b.getD i false

theorem positions_eq : positions = onesOf := funext fun b => (onesOf_eq b).symm

/-- C52, plain. The flat trie made from the positions of the ones and the sizes of the levels of the level-wise trie of a set has the bits
of the flat trie of that set, and decodes to the set. -/
theorem C52_from_levels {S : List Nat} {u : Nat} (hS : ValidSet S u) (hlen : S.length < 2 ^ 32) (hu : 3 ≤ u) (hu' : u ≤ 2 ^ 62)
    (pad : Nat) (out : List Nat) :
    ∃ t f f', levelCtor S u = .ok t ∧ flatCtor S u = .ok f ∧
      flatOfArrays (t.bTrie.map positions) t.bTrie.length (t.bTrie.map List.length) false = .ok f' ∧
      f' = { f with heightWithRuns := f.height } ∧ f'.decode pad out = .ok (out ++ S) := by
  obtain ⟨h1, h2⟩ := log2_bounds hu hu'
  have hb : ∀ x ∈ S, x < 2 ^ (Nat.log2 (u - 1) + 1) := fun x hx => lt_height (hS.below x hx)
  have hne := flatTree_NE hS.ne hS.increasing hb
  have hT := flatTree_has hS.increasing hb
  refine ⟨_, _, _, levelCtor_ok hS.ne (by omega) (by omega) rfl (by omega), flatCtor_ok hS.ne hlen (by omega) rfl h1 h2, ?_, rfl, ?_⟩
  · rw [positions_eq]
    exact flatOfArrays_plain hne 0 false false
  · exact flatOf_plain_decode (by omega) hne.nz hT hS.increasing hb out

example : flatOfArrays [[0, 1], [0, 3], [0, 1, 2]] 3 [2, 4, 4] false = .ok ⟨3, 3, false, false,
    [true, true, true, false, false, true], [true, true, true, false]⟩ ∧
    levelCtor [0, 1, 6] 8 = .ok ⟨0, false, false, [[true, true], [true, false, false, true], [true, true, true, false]]⟩ ∧
    ([[true, true], [true, false, false, true], [true, true, true, false]] : List (List Bool)).map positions = [[0, 1], [0, 3], [0, 1, 2]] := by
  decide +kernel

/-- C52, runs. The flat trie made from the levels of the run-encoded level-wise trie of a set is the run-encoded flat trie of that set. -/
theorem C52_from_levels_runs {S : List Nat} {u : Nat} (hS : ValidSet S u) (hlen : S.length < 2 ^ 32) (hu : 3 ≤ u) (hu' : u ≤ 2 ^ 62)
    (pad : Nat) (il : Bool) :
    ∃ t t' f f', levelCtor S u = .ok t ∧ t.encodeRuns il pad = .ok t' ∧ flatCtor S u = .ok f ∧ f.encodeRuns pad = .ok f' ∧
      flatOfArrays (t'.bTrie.map positions) t'.bTrie.length (t'.bTrie.map List.length) true = .ok f' := by
  obtain ⟨h1, h2⟩ := log2_bounds hu hu'
  have hb : ∀ x ∈ S, x < 2 ^ (Nat.log2 (u - 1) + 1) := fun x hx => lt_height (hS.below x hx)
  have hne := flatTree_NE hS.ne hS.increasing hb
  obtain ⟨k, -, -, he⟩ := levelOf_encode (pad := pad) (il := il) (hw := 0) (runs := false) (by omega) hne
  obtain ⟨f', hf', -⟩ := flatOf_encode_bits (pad := pad) (hw := 0) (runs := false) hne
  refine ⟨_, _, _, f', levelCtor_ok hS.ne (by omega) (by omega) rfl (by omega), he, flatCtor_ok hS.ne hlen (by omega) rfl h1 h2, hf', ?_⟩
  rw [positions_eq, ← flatOfArrays_runs (pad := pad) (hw := 0) (r := false) hne]
  exact hf'

example : (levelCtor [0, 1, 2, 3, 6] 8 >>= fun t => t.encodeRuns false 0) =
      .ok ⟨3, true, false, [[true, true], [false, false, false, true], [true, false]]⟩ ∧
    flatOfArrays [[0, 1], [3], [0]] 3 [2, 4, 2] true = (flatCtor [0, 1, 2, 3, 6] 8 >>= fun f => f.encodeRuns 0) := by decide +kernel

theorem lastNonEmpty_zero (h level last : Nat) : lastNonEmpty (List.replicate h 0) level last = last := by
  induction h generalizing level with
  | zero => rfl
  | succ h ih => rw [List.replicate_succ, lastNonEmpty]; exact ih _

theorem flatWriteLoop_nil (last : Nat) : (h level glob : Nat) → (b l : BV) →
    flatWriteLoop last (List.replicate h ([], 0)) level glob b l = .ok (b, l)
  | 0, _, _, _, _ => rfl
  | h + 1, level, glob, b, l => by
    rw [List.replicate_succ, flatWriteLoop]
    split
    · exact flatWriteLoop_nil last h _ _ b l
    · exact flatWriteLoop_nil last h _ _ b l

theorem flatOfArrays_empty (h : Nat) (hh : 0 < h) (runs : Bool) :
    flatOfArrays (List.replicate h []) h (List.replicate h 0) runs = .ok ⟨h, 1, runs, true, [], []⟩ := by
  obtain ⟨k, rfl⟩ : ∃ k, h = k + 1 := ⟨h - 1, by omega⟩
  have hp : vGet (List.replicate (k + 1) 0) 0 = .ok 0 := rfl
  have hz : (List.replicate (k + 1) ([] : List Nat)).zip (List.replicate (k + 1) 0) = List.replicate (k + 1) ([], 0) := by
    rw [List.zip_replicate, Nat.min_self]
  rw [flatOfArrays]
  simp only [List.length_replicate, Nat.lt_irrefl, or_self, if_false, List.take_replicate, Nat.min_self, lastNonEmpty_zero, hp, R_bind_ok, hz,
    flatWriteLoop_nil, List.count_replicate_self]
  simp

/-- C52, empty levels, with runs: the trie is marked empty and decodes to nothing. -/
theorem C52_from_empty_levels_runs (h : Nat) (hh : 0 < h) (pad : Nat) (out : List Nat) :
    ∃ f, flatOfArrays (List.replicate h []) h (List.replicate h 0) true = .ok f ∧ f.decode pad out = .ok out :=
  ⟨_, flatOfArrays_empty h hh true, rfl⟩

/-- C52, empty levels, without runs: the mark is not looked at, and decoding reads a bit that is not there. -/
theorem C52_from_empty_levels_partial (h : Nat) (hh : 0 < h) (out : List Nat) :
    ∃ f, flatOfArrays (List.replicate h []) h (List.replicate h 0) false = .ok f ∧ f.decode 0 out = .error .oob := by
  obtain ⟨k, rfl⟩ : ∃ k, h = k + 1 := ⟨h - 1, by omega⟩
  refine ⟨_, flatOfArrays_empty _ hh false, ?_⟩
  cases k <;> rfl

example : flatOfArrays [[], []] 2 [0, 0] true = .ok ⟨2, 1, true, true, [], []⟩ := by decide +kernel

end CBT
