import Verif.Model.Arrays
import Verif.Proof.Built
import Verif.Proof.Edges

/-!
# Flat tries made from arrays: lemmas
-/

namespace CBT

theorem flatWriteLoop_zeros (last : Nat) : (k level glob : Nat) → (b l : BV) →
    flatWriteLoop last (List.replicate k ([], 0)) level glob b l = .ok (b, l)
  | 0, _, _, _, _ => rfl
  | k + 1, level, glob, b, l => by
    rw [List.replicate_succ, flatWriteLoop]
    by_cases h : level = last
    · simp [h, setAll, flatWriteLoop_zeros last k]
    · simp [h, setAll, flatWriteLoop_zeros last k]

theorem flatWriteLoop_append_zeros (last k : Nat) : (A : List (List Nat × Nat)) → (level glob : Nat) → (b l : BV) →
    flatWriteLoop last (A ++ List.replicate k ([], 0)) level glob b l = flatWriteLoop last A level glob b l
  | [], level, glob, b, l => by rw [List.nil_append, flatWriteLoop_zeros]; rfl
  | (o, p) :: A, level, glob, b, l => by
    simp only [List.cons_append, flatWriteLoop, flatWriteLoop_append_zeros last k A]

/-- What the constructor makes of the positions of given levels. -/
theorem flatOfArrays_levels {Ls : List BV} {B : BV} {k : Nat} (hB : B ≠ []) (hL : ∀ B ∈ Ls, B ≠ []) {L : List BV}
    (h : L = Ls ++ [B] ++ List.replicate k []) (runs : Bool) :
    flatOfArrays (L.map onesOf) L.length (L.map List.length) runs =
      .ok { height := L.length, heightWithRuns := Ls.length + 1, runsEncoded := runs, emptyTrie := false, bTrie := Ls.flatten, lastLevel := B } := by
  obtain ⟨e1, e2, e3⟩ := flat_write hB hL h
  have e4 : (L.map List.length).take L.length = L.map List.length := List.take_of_length_le (by simp)
  have e5 : ((L.map onesOf).zip (L.map List.length)).take L.length = (L.map onesOf).zip (L.map List.length) :=
    List.take_of_length_le (by simp)
  have e6 : (L.map onesOf).zip (L.map List.length) =
      ((L.map onesOf).zip (L.map List.length)).take (Ls.length + 1) ++ List.replicate k ([], 0) := by
    rw [zip_entries, h, List.map_append, List.take_left' (by simp)]
    simp [entry, onesOf, onesFrom]
  have e7 : (L.map List.length).count 0 ≠ L.length := by
    intro hc
    have hall : ∀ b ∈ L.map List.length, 0 = b := List.count_eq_length.mp (by rw [hc, List.length_map])
    have := hall B.length (List.mem_map.mpr ⟨B, by rw [h]; simp, rfl⟩)
    exact hB (List.length_eq_zero_iff.mp this.symm)
  rw [flatOfArrays, if_neg (by simp), e4, e5]
  simp only [R_bind_ok, e1, e2]
  rw [e6, flatWriteLoop_append_zeros, e3]
  simp [e7]

/-- The positions of the ones of a bit sequence. -/
theorem onesOf_eq (b : BV) : onesOf b = (List.range b.length).filter fun i => b.getD i false := by
  have gen : ∀ (b : BV) (k : Nat), onesFrom k b = (List.range' k b.length).filter fun i => b.getD (i - k) false := by
    intro b
    induction b with
    | nil => intro k; rfl
    | cons x b ih =>
      intro k
      have e : (List.range' (k + 1) b.length).filter (fun i => (x :: b).getD (i - k) false) =
          (List.range' (k + 1) b.length).filter fun i => b.getD (i - (k + 1)) false := by
        apply List.filter_congr
        intro i hi
        obtain ⟨h1, -⟩ := List.mem_range'_1.mp hi
        rw [show i - k = (i - (k + 1)) + 1 by omega]
        rfl
      cases x with
      | false => rw [onesFrom, ih, List.length_cons, List.range'_succ, List.filter_cons_of_neg (by simp), e]
      | true => rw [onesFrom, ih, List.length_cons, List.range'_succ, List.filter_cons_of_pos (by simp), e]
  have := gen b 0
  simpa [onesOf, List.range_eq_range'] using this

theorem leaves_ne {b : Nat} : (d : Nat) → (f : List (Tr d)) → f ≠ [] → (∀ t ∈ f, NE b d t) → leaves d f ≠ []
  | 0, f, h, _ => by
    cases f with
    | nil => exact absurd rfl h
    | cons a f => simp [leaves]
  | d + 1, f, h, hne => by
    rw [leaves]
    apply leaves_ne d
    · intro hk
      cases f with
      | nil => exact absurd rfl h
      | cons a f =>
        have h1 := kids_nil_bare hk a (by simp)
        rw [(hne a (by simp)).1] at h1
        exact absurd h1 (by simp)
    · intro s hs
      obtain ⟨t, ht, hst⟩ := List.mem_flatMap.1 hs
      simp only [kidsOf, List.mem_append, Option.mem_toList] at hst
      rcases hst with hst | hst
      · exact (hne t ht).2.1 s hst
      · exact (hne t ht).2.2 s hst

theorem levelOf_bTrie {d hw : Nat} {T : Tr d} {runs : Bool} : (levelOf d T hw runs).bTrie = levelsF d [T] := (levelsF_eq d [T]).symm

theorem flatOfArrays_plain {d : Nat} {T : Tr d} (hne : NE 1 d T) (hw : Nat) (r runs : Bool) :
    flatOfArrays ((levelOf d T hw r).bTrie.map onesOf) (levelOf d T hw r).bTrie.length ((levelOf d T hw r).bTrie.map List.length) runs =
      .ok (flatOf d T (d + 1) runs) := by
  have hl := levelsF_eq d [T]
  have hlv : ∀ B ∈ levelsF d [T], B ≠ [] := by
    rcases levels_cases d [T] (by simp) with ⟨-, h⟩ | ⟨h, -⟩
    · exact h
    · exact absurd h (leaves_ne (b := 1) d [T] (by simp) (by simpa using hne))
  rw [levelOf_bTrie]
  rw [flatOfArrays_levels (Ls := nodeLevels d [T]) (B := (leaves d [T]).flatMap leafBits) (k := 0)
    (hlv _ (by rw [hl]; simp)) (fun B h => hlv B (by rw [hl]; exact List.mem_append_left _ h)) (by simpa using hl) runs]
  rw [length_levelsF]
  simp [flatOf, length_nodeLevels, flatten_nodeLevels]

/-- The constructor given the levels of the run-encoded level-wise trie makes the run-encoded flat trie. -/
theorem flatOfArrays_runs {d pad hw hw' : Nat} {T : Tr d} {r r' : Bool} (hne : NE 1 d T) :
    (flatOf d T hw r).encodeRuns pad = flatOfArrays ((levelOf d (prune 1 d T) hw' r').bTrie.map onesOf)
      (levelOf d (prune 1 d T) hw' r').bTrie.length ((levelOf d (prune 1 d T) hw' r').bTrie.map List.length) true := by
  have hr := flatOf_rep (pad := pad) (hw := hw) (runs := r) hne.nz
  have hh : (flatOf d T hw r).height = d + 1 := rfl
  rw [levelOf_bTrie, FlatTrie.encodeRuns, hh]
  simp only [Nat.add_eq_zero_iff, one_ne_zero, and_false, if_false, Nat.add_sub_cancel, writeCompress_start hr hne, R_bind_ok]
  have hlen := length_levelsF d [prune 1 d T]
  rcases levels_cases d [prune 1 d T] (by simp) with ⟨h1, h2⟩ | ⟨h1, Ls, z, k, h2, h3, h4, h5⟩
  · have hl := levelsF_eq d [prune 1 d T]
    have a1 := h2 _ (by rw [hl]; exact List.mem_append_right _ (List.mem_singleton.mpr rfl))
    have a2 : ∀ B ∈ nodeLevels d [prune 1 d T], B ≠ [] := fun B hB => h2 B (by rw [hl]; exact List.mem_append_left _ hB)
    have a3 : levelsF d [prune 1 d T] = nodeLevels d [prune 1 d T] ++ [(leaves d [prune 1 d T]).flatMap leafBits] ++ List.replicate 0 [] := by
      rw [List.replicate_zero, List.append_nil]; exact hl
    obtain ⟨e1, e2, e3⟩ := flat_write a1 a2 a3
    rw [e1, e2]
    simp only [R_bind_ok]
    rw [e3, flatOfArrays_levels a1 a2 a3, hlen]
    rfl
  · obtain ⟨e1, e2, e3⟩ := flat_write (Ls := Ls) (k := k + 1) (B := List.replicate (z + 1) false) (by simp) h3 h2
    rw [e1, e2]
    simp only [R_bind_ok]
    rw [e3, flatOfArrays_levels (by simp) h3 h2, hlen]
    rfl

/-- Plain decoding. -/
theorem flatOf_plain_decode {d hw pad : Nat} {T : Tr d} {S : List Nat} (hd : d ≤ 62) (hnz : NZ 1 d T)
    (hT : Holds (d + 1) (has 1 d T) S) (hs : S.Pairwise (· < ·)) (hb : ∀ x ∈ S, x < 2 ^ (d + 1)) (out : List Nat) :
    (flatOf d T hw false).decode pad out = .ok (out ++ S) := by
  rw [FlatTrie.decode]
  simp only [flatOf, Bool.false_eq_true, if_false]
  rw [← flatOf, recDecode_rep (by simp [FlatTrie.nav, flatOf]; omega) _ 0 _ 0 0 out (flatOf_rep hnz)
    (by simp [FlatTrie.nav, flatOf]) (dvd_zero _), hT.enum hs hb]

end CBT
