import Verif.Model.Unelided
import Verif.Proof.Copies
import Verif.Proof.Arrays
import Verif.Proof.ToolsTries
import Verif.Props.Copies
import Verif.Props.Tools

/-!
# C98: tools compiled without copy elision
-/

namespace CBT

open Spec

/-! ## Without run encoding -/

/-- C98, plain tries: `build_tries` without runs writes the same file, from any input, whether or not copies are elided. -/
theorem C98_plain (F : Formats) (pad : Nat) (ltr : Bool) (mn mx rank block : Nat) (levelwise : Bool) (s : Bytes) :
    buildTriesCopied F pad ltr mn mx rank block false levelwise s = buildTries F pad ltr mn mx rank block false levelwise s := by
  have e : makeTrieCopied F pad ltr rank block false levelwise = makeTrie F pad ltr rank block false levelwise := by
    funext u i il
    rw [makeTrieCopied, makeTrie]
    split
    · rfl
    split
    · rw [makeLevelCopied, makeLevel]
      cases levelCtor il u with
      | error e => rfl
      | ok t =>
        simp only [R_bind_ok, Bool.false_eq_true, if_false]
        have h : (t.bTrie.dropLast.map (F.rank rank).of).take (t.bTrie.length % 2 ^ 16 - 1) =
            (t.bTrie.take (t.bTrie.length % 2 ^ 16 - 1)).map (F.rank rank).of := by
          rw [List.dropLast_eq_take, ← List.map_take, List.take_take, Nat.min_eq_left]
          have := Nat.mod_le t.bTrie.length (2 ^ 16)
          omega
        simp only [LevelCopy.serialize, LevelCopy.orphan, LevelTrie.copy, LevelTrie.serialize, h, List.flatMap_map]
    · rw [makeFlatCopied, makeFlat]
      cases flatCtor il u <;> rfl
  rw [buildTriesCopied, buildTries, e]

/-- C98: with rank type 1, `build_tries` copies no trie, with or without runs. -/
theorem C98_il (F : Formats) (pad : Nat) (ltr : Bool) (mn mx block : Nat) (runs levelwise : Bool) (s : Bytes) :
    buildTriesCopied F pad ltr mn mx 1 block runs levelwise s = buildTries F pad ltr mn mx 1 block runs levelwise s := by
  have e : makeTrieCopied F pad ltr 1 block runs levelwise = makeTrie F pad ltr 1 block runs levelwise := by
    funext u i il
    simp only [makeTrieCopied, makeTrie, if_true]
  rw [buildTriesCopied, buildTries, e]

example : (buildTriesCopied Ex.formats 0 true 1 100 0 512 false true (collectionBytes 1 64 Ex.coll)).toBool = true := by decide +kernel

/-! ## With run encoding -/

theorem writeCompress_error {n : Nav} {e : UB} {rem id node : Nat} (hg : n.getNode id 0 = .ok node)
    (hc : (node = 2 ∨ node = 3) ∨ node = 1) (hl : n.getLeftChild id 0 = .error e) (hr : n.getRightChild id 0 = .error e) (h : Nat) :
    writeCompress n (rem + 1) { ones := List.replicate (h + 1) [], pos := List.replicate (h + 1) 0 } 0 id = .error e := by
  rw [writeCompress]
  rcases hc with (rfl | rfl) | rfl <;> simp [hg, hl, hr, RunSt.inc, vGet, List.replicate_succ, bind, Except.bind]

theorem fastWriteCompress_error {lg : Nat} {n : FNav} {e : UB} {rem id node : Nat} (hg : n.getNode id 0 = .ok node)
    (hc : (node = 2 ∨ node = 3) ∨ node = 1) (hl : n.getLeftChild id 0 = .error e) (hr : n.getRightChild id 0 = .error e) (h : Nat) :
    fastWriteCompress lg n (rem + 1) { ones := List.replicate (h + 1) [], pos := List.replicate (h + 1) 0 } [] 0 id = .error e := by
  rw [fastWriteCompress]
  rcases hc with (rfl | rfl) | rfl <;> simp [hg, hl, hr, RunSt.inc, vGet, List.replicate_succ, bind, Except.bind]

theorem flat_orphan_encode {K : RankIO} {d hw pad : Nat} {T : Tr (d + 1)} (hne : NE 1 (d + 1) T) :
    ((flatOf (d + 1) T hw false).copy K).orphan.encodeRuns pad = .error .null := by
  have hrep := flatOf_rep (pad := pad) (hw := hw) (runs := false) hne.nz
  have hh : ((flatOf (d + 1) T hw false).copy K).orphan.trie.height = d + 1 + 1 := rfl
  rw [FlatCopy.encodeRuns, hh, if_neg (by omega), Nat.add_sub_cancel]
  rw [writeCompress_error (e := .null) (node := node2 T.l.isSome T.r.isSome) (by exact hrep.1) (node2_cases hne.1)
    (by simp [FlatCopy.nav, FlatCopy.rank, FlatCopy.orphan, FlatTrie.copy, flatOf])
    (by simp [FlatCopy.nav, FlatCopy.rank, FlatCopy.orphan, FlatTrie.copy, flatOf])]
  rfl

theorem level_orphan_encode {K : RankIO} {d hw pad : Nat} {T : Tr (d + 1)} (hd : d ≤ 61) (hne : NE 1 (d + 1) T) :
    ((levelOf (d + 1) T hw false).copy K).orphan.encodeRuns pad = .error .null := by
  have hrep := levelOf_rep (pad := pad) (hw := hw) (runs := false) (il := false) (by omega) hne.nz
  have hh : (levelOf (d + 1) T hw false).height = d + 1 + 1 := levelOf_height
  have hk : ∀ i, ((levelOf (d + 1) T hw false).copy K).orphan.rank 0 i = .error .null := by
    intro i
    have hlen : 0 < ((levelOf (d + 1) T hw false).bTrie.dropLast.map K.of).length := by
      unfold LevelTrie.height at hh
      rw [List.length_map, List.length_dropLast, hh]; omega
    simp only [LevelCopy.rank, LevelCopy.orphan, LevelTrie.copy, vGet, List.getElem?_eq_getElem hlen, R_bind_ok]
  have e1 : ((levelOf (d + 1) T hw false).copy K).orphan.trie = levelOf (d + 1) T hw false := rfl
  rw [LevelCopy.encodeRuns, e1, hh, if_neg (by omega), Nat.add_sub_cancel]
  rw [writeCompress_error (e := .null) (node := node2 T.l.isSome T.r.isSome) (by exact hrep.1) (node2_cases hne.1)
    (by simp [LevelCopy.nav, e1, hh, hk]) (by simp [LevelCopy.nav, e1, hh, hk])]
  rfl

theorem fast_orphan_encode {K : RankIO} {lg d hw pad : Nat} {empty : Bool} {T : Tr (d + 1)} (hne : NE lg (d + 1) T) :
    ((fastOf lg (d + 1) T hw false empty).copy K).orphan.encodeRuns lg pad = .error .null := by
  have hrep := fastOf_rep (pad := pad) (hw := hw) (runs := false) (empty := empty) hne.nz
  have hh : ((fastOf lg (d + 1) T hw false empty).copy K).orphan.trie.height = d + 1 + 1 := rfl
  rw [FastCopy.encodeRuns, hh, if_neg (by omega), Nat.add_sub_cancel]
  rw [fastWriteCompress_error (e := .null) (node := node2 T.l.isSome T.r.isSome) (by exact hrep.1) (node2_cases hne.1)
    (by simp [FastCopy.nav, FastCopy.rank, FastCopy.orphan, FastTrie.copy, fastOf])
    (by simp [FastCopy.nav, FastCopy.rank, FastCopy.orphan, FastTrie.copy, fastOf])]
  rfl

/-- C98 fails for every set: a `binTrie` or `flatBinTrie` of `build_tries` that is copied from its temporary cannot be run-encoded. -/
theorem C98_trie_negation (F : Formats) (pad : Nat) (ltr : Bool) {rank : Nat} (hrank : rank ≠ 1) (block : Nat) (levelwise : Bool) (i : Nat)
    {S : List Nat} {u : Nat} (hS : ValidSet S u) (hlen : S.length < 2 ^ 32) (hu : 3 ≤ u) (hu' : u ≤ 2 ^ 62) :
    makeTrieCopied F pad ltr rank block true levelwise u i S = .error .null := by
  obtain ⟨h1, h2⟩ := log2_bounds hu hu'
  rw [makeTrieCopied, if_neg hrank]
  cases levelwise
  · obtain ⟨T, hc, hne, -⟩ := flat_built hS hlen hu hu'
    simp only [Bool.false_eq_true, if_false]
    rw [makeFlatCopied, hc, R_bind_ok]
    clear hc
    generalize Nat.log2 (u - 1) = d at *
    obtain ⟨d, rfl⟩ : ∃ k, d = k + 1 := ⟨d - 1, by omega⟩
    simp only [if_true, flat_orphan_encode hne]; rfl
  · obtain ⟨T, hc, hne, -⟩ := level_built hS (by omega) (by omega) (by omega)
    simp only [if_true]
    rw [makeLevelCopied, hc, R_bind_ok]
    clear hc
    generalize Nat.log2 (u - 1) = d at *
    obtain ⟨d, rfl⟩ : ∃ k, d = k + 1 := ⟨d - 1, by omega⟩
    simp only [if_true, level_orphan_encode (K := F.rank rank) (pad := pad) (by omega) hne]; rfl

/-- C98 fails, `build_tries`: with runs, for `rank_support_v` and `rank_support_v5`, every collection with a kept list makes a build
without copy elision follow a dangling pointer. -/
theorem C98_build_negation (F : Formats) (pad : Nat) (ltr : Bool) {mn mx rank : Nat} (hrank : rank ≠ 1) (block : Nat) (levelwise : Bool)
    {one u : Nat} (hone : one < 2 ^ 32) (hu : 3 ≤ u) (hu' : u < 2 ^ 32) {lists : List (List Nat)} (hl : ∀ l ∈ lists, l.length < 2 ^ 30)
    (hv : ∀ l ∈ kept mn mx lists, ValidSet l u) (hn : (kept mn mx lists).length < 2 ^ 32) (hk : kept mn mx lists ≠ []) :
    buildTriesCopied F pad ltr mn mx rank block true levelwise (collectionBytes one u lists) = .error .null := by
  rw [buildTriesCopied, buildFile_lists hone hu' hl (fun l h x hx => Nat.lt_trans ((hv l h).below x hx) hu') hn]
  obtain ⟨l, ls, e⟩ : ∃ l ls, kept mn mx lists = l :: ls := List.exists_cons_of_ne_nil hk
  have hm : l ∈ kept mn mx lists := by rw [e]; exact List.mem_cons_self
  rw [e, makeAll, C98_trie_negation F pad ltr hrank block levelwise 0 (hv l hm)
    (Nat.lt_trans (hl l (List.mem_of_mem_filter hm)) (by decide)) hu (by omega)]
  rfl

example : (∀ l ∈ kept 1 100 Ex.coll, ValidSet l 64) ∧ kept 1 100 Ex.coll ≠ [] ∧
    (buildTries Ex.formats 0 true 1 100 0 512 true true (collectionBytes 1 64 Ex.coll)).toBool = true ∧
    buildTriesCopied Ex.formats 0 true 1 100 0 512 true true (collectionBytes 1 64 Ex.coll) = .error .null :=
  ⟨by decide +kernel, by decide +kernel, by decide +kernel, by decide +kernel⟩

/-- C98 fails, `measures`: the measure of every list, with and without runs. -/
theorem C98_measures_negation (K : RankIO) (pad : Nat) (runs : Bool) {S : List Nat} {u : Nat} (hS : ValidSet S u) (hlen : S.length < 2 ^ 32)
    (hu : 3 ≤ u) (hu' : u ≤ 2 ^ 62) : trieOfCopied K pad S u runs = .error .null := by
  obtain ⟨h1, h2⟩ := log2_bounds hu hu'
  obtain ⟨T, hc, hne, -⟩ := flat_built hS hlen hu hu'
  rw [trieOfCopied, hc, R_bind_ok]
  clear hc
  cases runs
  · rfl
  · generalize Nat.log2 (u - 1) = d at *
    obtain ⟨d, rfl⟩ : ∃ k, d = k + 1 := ⟨d - 1, by omega⟩
    simp only [if_true, flat_orphan_encode hne]; rfl

example : (trieOf 0 [0, 1, 6] 8 false = .ok 7 ∧ trieOf 0 [0, 1, 6] 8 true = .ok 7) ∧
    trieOfCopied Ex.rankIO 0 [0, 1, 6] 8 true = .error .null := ⟨by decide +kernel, by decide +kernel⟩

/-- C98 fails, `test_fastTrie` with `rank_support_v`: nothing can be decoded, with and without runs, over universes of more than one
word. -/
theorem C98_check_negation (K : RankIO) {lg : Nat} (hlg : 3 ≤ lg ∧ lg ≤ 6) {S : List Nat} {u : Nat} (hS : ValidSet S u)
    (hlen : S.length < 2 ^ 32) (hu : 2 ^ lg < u) (hu' : u ≤ 2 ^ 62) (junk : FastJunk) (pad : Nat) (runs : Bool) :
    decodeFastCopied K lg pad junk runs u S = .error .null := by
  cases runs
  · obtain ⟨t, ht, h⟩ := C47_fast_orphan_negation K hlg hS hlen hu hu' junk pad []
    rw [decodeFastCopied, ht, R_bind_ok]; exact h
  · have hu0 : 2 ^ (lg - 1) < u := Nat.lt_of_le_of_lt (Nat.pow_le_pow_right (by omega) (by omega)) hu
    obtain ⟨h0, h1, h2⟩ := fast_depth hlg hu0 hu'
    have h3 : lg ≤ Nat.log2 (u - 1) := (Nat.le_log2 (by omega)).2 (by omega)
    obtain ⟨T, hc, hne, -⟩ := fast_built hlg hS hlen hu0 hu' junk
    rw [decodeFastCopied, hc, R_bind_ok]
    clear hc
    have h4 : Nat.log2 (u - 1) + 1 - lg ≠ 0 := by omega
    generalize Nat.log2 (u - 1) + 1 - lg = d at *
    obtain ⟨d, rfl⟩ : ∃ k, d = k + 1 := ⟨d - 1, by omega⟩
    simp only [if_true, fast_orphan_encode hne]; rfl

example : decodeFastCopied Ex.rankIO 3 0 Ex.junk true 32 [1, 9, 30] = .error .null ∧
    (do let t ← fastCtor 3 Ex.junk [1, 9, 30] 32; t.decode 3 0 []) = .ok [1, 9, 30] := ⟨by decide +kernel, by decide +kernel⟩

end CBT
