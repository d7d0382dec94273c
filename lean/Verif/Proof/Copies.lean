import Verif.Model.Copies
import Verif.Proof.SerialRt
import Verif.Proof.Built

/-!
# Copies of tries
-/

namespace CBT

theorem FlatTrie.copy_nav {K : RankIO} (t : FlatTrie) (pad : Nat) : (t.copy K).nav pad = t.nav pad := by
  simp only [FlatCopy.nav, FlatTrie.copy, FlatCopy.rank, FlatTrie.nav, K.query_of]
  rfl

theorem FastTrie.copy_nav {K : RankIO} (t : FastTrie) (pad : Nat) : (t.copy K).nav pad = t.nav pad := by
  simp only [FastCopy.nav, FastTrie.copy, FastCopy.rank, FastTrie.nav, K.query_of]
  rfl

theorem LevelTrie.copy_rank {K : RankIO} (t : LevelTrie) {level i : Nat} (hl : level + 1 < t.height) :
    (t.copy K).rank level i = (do let lv ← vGet t.bTrie level; rank1 lv i) := by
  unfold LevelTrie.height at hl
  have h1 : t.bTrie[level]? = some t.bTrie[level] := List.getElem?_eq_getElem (by omega)
  have h2 : (t.bTrie.dropLast.map K.of)[level]? = some (K.of t.bTrie[level]) := by
    rw [List.getElem?_map, List.getElem?_dropLast, if_pos (by omega), h1]; rfl
  simp only [LevelCopy.rank, LevelTrie.copy, vGet, h1, h2, R_bind_ok, K.query_of]

theorem LevelTrie.copy_nav {K : RankIO} (t : LevelTrie) (il : Bool) (pad : Nat) : (t.copy K).nav il pad = t.nav il pad := by
  have hh : (t.copy K).trie = t := rfl
  simp only [LevelCopy.nav, LevelTrie.nav, hh, Nav.mk.injEq, true_and]
  constructor
  · funext id level
    cases il
    · simp only [Bool.false_eq_true, if_false, LevelTrie.getLeftChild]
      split
      · rfl
      · exact t.copy_rank (by omega)
    · simp only [if_true, LevelTrie.getLeftChildIl]
      split
      · rfl
      · rw [t.copy_rank (by omega)]
        cases vGet t.bTrie level <;> rfl
  · funext id level
    cases il
    · simp only [Bool.false_eq_true, if_false, LevelTrie.getRightChild]
      split
      · rfl
      · exact t.copy_rank (by omega)
    · simp only [if_true, LevelTrie.getRightChildIl]
      split
      · rfl
      · rw [t.copy_rank (by omega)]
        cases vGet t.bTrie level <;> rfl

/-! ## After the original is gone -/

theorem node2_cases {d : Nat} {T : Tr (d + 1)} (h : T.bare = false) :
    (node2 T.l.isSome T.r.isSome = 2 ∨ node2 T.l.isSome T.r.isSome = 3) ∨ node2 T.l.isSome T.r.isSome = 1 := by
  cases h1 : T.l <;> cases h2 : T.r <;> simp_all [node2, Tr.bare]

theorem recDecode_error {n : Nav} {e : UB} {rem id level node : Nat} (hg : n.getNode id level = .ok node)
    (hc : (node = 2 ∨ node = 3) ∨ node = 1) (hl : n.getLeftChild id level = .error e) (hr : n.getRightChild id level = .error e)
    (hh : n.height - level - 1 < 64) (out : List Nat) (part : Nat) : recDecode n (rem + 1) out part id level = .error e := by
  rw [recDecode]
  rcases hc with (rfl | rfl) | rfl <;> simp [hg, hl, hr, shl1_ok hh, bind, Except.bind]

theorem fastRecDecode_error {lg hu : Nat} {n : FNav} {e : UB} {rem id level node : Nat} (hg : n.getNode id level = .ok node)
    (hc : (node = 2 ∨ node = 3) ∨ node = 1) (hl : n.getLeftChild id level = .error e) (hr : n.getRightChild id level = .error e)
    (hh : hu - level - 1 < 64) (out : List Nat) (part : Nat) : fastRecDecode lg hu n (rem + 1) out part id level = .error e := by
  rw [fastRecDecode]
  rcases hc with (rfl | rfl) | rfl <;> simp [hg, hl, hr, shl1_ok hh, bind, Except.bind]

theorem flat_orphan {K : RankIO} {d hw pad : Nat} {T : Tr (d + 1)} (hd : d ≤ 61) (hne : NE 1 (d + 1) T) (out : List Nat) :
    ((flatOf (d + 1) T hw false).copy K).orphan.decode pad out = .error .null := by
  have hrep := flatOf_rep (pad := pad) (hw := hw) (runs := false) hne.nz
  rw [FlatCopy.decode]
  simp only [FlatCopy.orphan, FlatTrie.copy, flatOf, Bool.false_eq_true, if_false]
  refine recDecode_error (node := node2 T.l.isSome T.r.isSome) (by exact hrep.1) (node2_cases hne.1) ?_ ?_ ?_ out 0
  · simp [FlatCopy.nav, FlatCopy.rank]
  · simp [FlatCopy.nav, FlatCopy.rank]
  · simp only [FlatCopy.nav]; omega

theorem level_orphan {K : RankIO} {d hw pad : Nat} {il : Bool} {T : Tr (d + 1)} (hd : d ≤ 61) (hne : NE 1 (d + 1) T) (out : List Nat) :
    ((levelOf (d + 1) T hw false).copy K).orphan.decode il pad out = .error .null := by
  have hrep := levelOf_rep (pad := pad) (hw := hw) (runs := false) (il := il) (by omega) hne.nz
  have hh : (levelOf (d + 1) T hw false).height = d + 1 + 1 := levelOf_height
  have hk : ∀ i, ((levelOf (d + 1) T hw false).copy K).orphan.rank 0 i = .error .null := by
    intro i
    have hlen : 0 < ((levelOf (d + 1) T hw false).bTrie.dropLast.map K.of).length := by
      unfold LevelTrie.height at hh
      rw [List.length_map, List.length_dropLast, hh]; omega
    simp only [LevelCopy.rank, LevelCopy.orphan, LevelTrie.copy, vGet, List.getElem?_eq_getElem hlen, R_bind_ok]
  rw [LevelCopy.decode]
  have e1 : ((levelOf (d + 1) T hw false).copy K).orphan.trie = levelOf (d + 1) T hw false := rfl
  rw [e1, hh]
  simp only [show (levelOf (d + 1) T hw false).runsEncoded = false from rfl, Bool.false_eq_true, if_false]
  refine recDecode_error (node := node2 T.l.isSome T.r.isSome) (by exact hrep.1) (node2_cases hne.1) ?_ ?_ ?_ out 0
  · simp only [LevelCopy.nav, e1, hh, hk]; cases il <;> simp [bind, Except.bind]
  · simp only [LevelCopy.nav, e1, hh, hk]; cases il <;> simp [bind, Except.bind]
  · simp only [LevelCopy.nav, e1, hh]; omega

theorem fast_orphan {K : RankIO} {lg d hw pad : Nat} {empty : Bool} {T : Tr (d + 1)} (hd : d + 1 + lg ≤ 62) (hne : NE lg (d + 1) T)
    (out : List Nat) : ((fastOf lg (d + 1) T hw false empty).copy K).orphan.decode lg pad out = .error .null := by
  have hrep := fastOf_rep (pad := pad) (hw := hw) (runs := false) (empty := empty) hne.nz
  rw [FastCopy.decode]
  simp only [FastCopy.orphan, FastTrie.copy, fastOf, Bool.false_eq_true, if_false, Nat.add_one_ne_zero, Nat.add_sub_cancel]
  refine fastRecDecode_error (node := node2 T.l.isSome T.r.isSome) (by exact hrep.1) (node2_cases hne.1) ?_ ?_ (by omega) out 0
  · simp [FastCopy.nav, FastCopy.rank]
  · simp [FastCopy.nav, FastCopy.rank]

end CBT
