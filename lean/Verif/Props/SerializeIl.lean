import Verif.Props.Decode
import Verif.Props.Size
import Verif.Props.Serialize

/-!
# C20: `binTrie_il` once more
-/

namespace CBT

open Spec

theorem readLevelsIl_levelsIl (B : BvIO) (K : RankIO) (rest : Bytes) : (vs : List BV) → (∀ v ∈ vs, v.length < 2 ^ 64) →
    readLevelsIl B K vs.length (levelsIl B K vs ++ rest) = .ok (vs, rest)
  | [], _ => rfl
  | [v], h => by
    simp only [levelsIl, List.length_cons, List.length_nil, readLevelsIl]
    rw [B.roundTrip v _ (h v (by simp)), R_bind_ok]
    rfl
  | v :: w :: vs, h => by
    have ih := readLevelsIl_levelsIl B K rest (w :: vs) fun x hx => h x (List.mem_cons_of_mem _ hx)
    have hv := h v (by simp)
    rw [List.length_cons, readLevelsIl, levelsIl, List.append_assoc, B.roundTrip v _ hv, R_bind_ok]
    · simp only [List.length_cons, ne_eq, Nat.add_eq_zero_iff, one_ne_zero, and_false, not_false_eq_true, if_true, List.append_assoc]
      rw [K.roundTrip v _ hv, R_bind_ok, R_bind_ok]
      simp only [List.length_cons] at ih
      simp only
      rw [ih]
      rfl
    · simp

/-- A trie without usable child functions cannot be decoded, if its root is there. -/
theorem recDecode_loadedIl {t : LevelTrie} {pad : Nat} (hh : 2 ≤ t.height) (hh' : t.height ≤ 64) {out S : List Nat} (hS : S ≠ []) {il : Bool}
    (h : recDecode (t.nav il pad) t.height out 0 0 0 = .ok (out ++ S)) : recDecode (t.navLoadedIl pad) t.height out 0 0 0 = .error .null := by
  obtain ⟨r, hr⟩ : ∃ r, t.height = r + 1 := ⟨t.height - 1, by omega⟩
  rw [hr] at h ⊢
  rw [recDecode] at h ⊢
  obtain ⟨node, h1, h2⟩ := bind_ok h
  have h1' : (t.navLoadedIl pad).getNode 0 0 = .ok node := h1
  rw [h1', R_bind_ok]
  have hn : node = 1 ∨ node = 2 ∨ node = 3 := by
    by_cases h0 : node = 2 ∨ node = 3
    · omega
    by_cases h0' : node = 1 ∨ node = 3
    · omega
    rw [if_neg h0] at h2
    obtain ⟨o, h3, h4⟩ := bind_ok h2
    injection h3 with h3
    subst h3
    simp only at h4
    rw [if_neg h0'] at h4
    injection h4 with h4
    have := congrArg List.length h4
    rw [List.length_append] at this
    have := List.length_pos_iff.2 hS
    omega
  have e1 : (t.navLoadedIl pad).getLeftChild 0 0 = .error .null := by
    rw [LevelTrie.navLoadedIl]
    simp only
    rw [if_neg (by omega)]
  have e2 : (t.navLoadedIl pad).getRightChild 0 0 = .error .null := by
    rw [LevelTrie.navLoadedIl]
    simp only
    rw [if_neg (by omega)]
  have e3 : shl1 ((t.navLoadedIl pad).height - 0 - 1) = .ok (1 <<< (t.height - 0 - 1)) := by
    rw [shl1, if_pos (by simp only [LevelTrie.navLoadedIl]; omega)]
    rfl
  rcases hn with rfl | rfl | rfl
  · rw [if_neg (by decide), show (pure out : R (List Nat)) = .ok out from rfl, R_bind_ok]
    simp only
    rw [if_pos (by decide), e3, R_bind_ok, e2]
    rfl
  · rw [if_pos (by decide), e1]
    rfl
  · rw [if_pos (by decide), e1]
    rfl

/-- C20, `binTrie_il`: the pointer that `serialize` uses is not the only defect. Were it repaired, `load` would find all bits of the trie
where they are, for every set, and the loaded trie could still not be decoded. -/
theorem C20_level_il_repaired_negation (B : BvIO) (K : RankIO) {S : List Nat} {u : Nat} (hS : ValidSet S u) (hlen : S.length < 2 ^ 32)
    (hu : 3 ≤ u) (hu' : u ≤ 2 ^ 63) : ∃ t, levelCtor S u = .ok t ∧
      (∀ rest, levelLoadIl B K (header t.height t.heightWithRuns t.emptyTrie t.runsEncoded ++ levelsIl B K t.bTrie ++ rest) = .ok (t, rest)) ∧
      ∀ pad out, t.decodeLoadedIl pad out = .error .null := by
  obtain ⟨T, hc, -, -⟩ := level_built hS (by omega) (by omega) (by omega)
  obtain ⟨t', -, hc', -, h5, -⟩ := C30_level_size hS (by omega) (by omega) (by omega : u ≤ 2 ^ 63) true 0
  rw [hc] at hc'
  injection hc' with hc'
  subst hc'
  have h0 : u - 1 ≠ 0 := by omega
  have h2 : Nat.log2 (u - 1) < 63 := (Nat.log2_lt h0).2 (by omega)
  have h1 : 1 ≤ Nat.log2 (u - 1) := (Nat.le_log2 h0).2 (by omega)
  have hh : (levelOf _ T 0 false).height = Nat.log2 (u - 1) + 1 := levelOf_height
  refine ⟨_, hc, fun rest => ?_, fun pad out => ?_⟩
  · have hb : ∀ v ∈ (levelOf _ T 0 false).bTrie, v.length < 2 ^ 64 := by
      intro v hv
      have h6 := (List.sublist_flatten_of_mem hv).length_le
      have : S.length * ((levelOf _ T 0 false).height - 1) ≤ 2 ^ 32 * 62 := Nat.mul_le_mul (by omega) (by omega)
      omega
    rw [List.append_assoc, levelLoadIl, readHeader_header (by omega) (by simp [levelOf]), R_bind_ok]
    simp only
    rw [if_neg (by omega), LevelTrie.height, readLevelsIl_levelsIl B K rest _ hb]
    rfl
  · rw [LevelTrie.decodeLoadedIl, if_neg (by simp [levelOf])]
    obtain ⟨t', hc', hd⟩ := C02_level_build_decode hS (by omega) (by omega) (by omega : u ≤ 2 ^ 63) false pad out
    rw [hc] at hc'
    injection hc' with hc'
    subst hc'
    rw [LevelTrie.decode, if_neg (by simp [levelOf])] at hd
    exact recDecode_loadedIl (by omega) (by omega) hS.ne hd

example : ValidSet [1, 2, 5] 8 ∧ (levelCtor [1, 2, 5] 8 >>= fun t => levelLoadIl Ex.bvIO Ex.rankIO
    (header t.height t.heightWithRuns t.emptyTrie t.runsEncoded ++ levelsIl Ex.bvIO Ex.rankIO t.bTrie) >>= fun p =>
      .ok (decide (p.1 = t), p.1.decodeLoadedIl 0 [])) = .ok (true, .error .null) := by decide +kernel

end CBT
