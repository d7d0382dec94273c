import Verif.Proof.Edges
import Verif.Proof.TwiceSets

/-!
Helper lemmas for C93: run encoding makes no level of a trie longer.
-/

namespace CBT

open Spec

theorem kids_prune_sublist (b : Nat) {d : Nat} (f : List (Tr (d + 1))) :
    (kids (f.map (prune b (d + 1)))).Sublist ((kids f).map (prune b d)) := by
  induction f with
  | nil => simp [kids]
  | cons t f ih =>
    rw [List.map_cons, kids_cons, kids_cons, List.map_append]
    refine List.Sublist.append ?_ ih
    cases hf : full b (d + 1) t with
    | true => rw [prune_full hf]; simp [kidsOf]
    | false => rw [prune_not_full hf]; simp only [kidsOf, Tr.l_mk, Tr.r_mk]; cases t.l <;> cases t.r <;> simp

theorem levelsF_prune_le {b : Nat} : (d : Nat) → (f g : List (Tr d)) → g.Sublist (f.map (prune b d)) →
    List.Forall₂ (fun v w => v.length ≤ w.length) (levelsF d g) (levelsF d f)
  | 0, f, g, h => .cons (by
      have := h.length_le
      rw [List.length_map] at this
      rw [length_leafBits, length_leafBits, List.length_map, List.length_map]
      omega) .nil
  | d + 1, f, g, h => by
    rw [levelsF, levelsF]
    refine .cons ?_ (levelsF_prune_le d (kids f) (kids g) ((kids_sublist h).trans (kids_prune_sublist b f)))
    have := h.length_le
    rw [List.length_map] at this
    rw [length_bitsOf, length_bitsOf]
    omega

theorem levelsF_le {b : Nat} : (d : Nat) → (f : List (Tr d)) → (∀ t ∈ f, NE b d t) → ∀ B ∈ levelsF d f, B.length ≤ 2 * (leaves d f).length
  | 0, f, _, B, hB => by
    rw [List.mem_singleton.1 hB, length_leafBits]
    exact Nat.le_refl _
  | d + 1, f, h, B, hB => by
    rw [levelsF] at hB
    rcases List.mem_cons.1 hB with rfl | hB
    · rw [length_bitsOf]
      have := length_le_leaves (d + 1) f h
      omega
    · exact levelsF_le d (kids f) (kids_ne h) B hB

theorem forall2_mem_left {α β : Type} {P : α → β → Prop} {l : List α} {l' : List β} (h : List.Forall₂ P l l') :
    ∀ a ∈ l, ∃ b ∈ l', P a b := by
  induction h with
  | nil => intro a ha; cases ha
  | cons h _ ih =>
    intro a ha
    rcases List.mem_cons.1 ha with rfl | ha
    · exact ⟨_, List.mem_cons_self, h⟩
    · obtain ⟨b, hb, h⟩ := ih a ha
      exact ⟨b, List.mem_cons_of_mem _ hb, h⟩

/-- The last level written for a flat trie is one of the levels of the pruned tree. -/
theorem flat_encode_level {d pad : Nat} {T : Tr d} {hw : Nat} {runs : Bool} (hne : NE 1 d T) :
    ∃ t', (flatOf d T hw runs).encodeRuns pad = .ok t' ∧ t'.height = d + 1 ∧
      t'.bTrie ++ t'.lastLevel = flatBits d [prune 1 d T] ++ (leaves d [prune 1 d T]).flatMap leafBits ∧
      t'.lastLevel ∈ levelsF d [prune 1 d T] ∧ t'.bTrie.length ≤ (flatBits d [prune 1 d T]).length := by
  have hr := flatOf_rep (pad := pad) (hw := hw) (runs := runs) hne.nz
  have hh : (flatOf d T hw runs).height = d + 1 := rfl
  rcases levels_cases d [prune 1 d T] (by simp) with ⟨h1, -⟩ | ⟨h1, Ls, z, k, h2, h3, h4, -⟩
  · exact ⟨_, flatOf_encode hne h1, rfl, rfl, by rw [levelsF_eq]; simp [flatOf], Nat.le_refl _⟩
  · obtain ⟨e1, e2, e3⟩ := flat_write (Ls := Ls) (k := k + 1) (B := List.replicate (z + 1) false) (by simp) h3 h2
    refine ⟨⟨d + 1, Ls.length + 1, true, false, Ls.flatten, List.replicate (z + 1) false⟩, ?_, rfl, ?_, ?_, ?_⟩
    · rw [FlatTrie.encodeRuns, hh]
      simp only [Nat.add_eq_zero_iff, one_ne_zero, and_false, if_false, Nat.add_sub_cancel, writeCompress_start hr hne, R_bind_ok]
      rw [e1, e2]
      simp only [R_bind_ok]
      rw [e3]
      rfl
    · rw [h1, List.flatMap_nil, List.append_nil, h4]
    · rw [h2]; simp
    · rw [h4]; simp

/-- Both vectors of a flat trie get no longer. -/
theorem flat_encode_le {d pad : Nat} {T : Tr d} {hw : Nat} {runs : Bool} (hne : NE 1 d T) :
    ∃ t', (flatOf d T hw runs).encodeRuns pad = .ok t' ∧ t'.height = d + 1 ∧ t'.bTrie.length ≤ (flatBits d [T]).length ∧
      t'.lastLevel.length ≤ ((leaves d [T]).flatMap leafBits).length := by
  obtain ⟨t', h1, h0, -, h2, h3⟩ := flat_encode_level (pad := pad) (hw := hw) (runs := runs) hne
  refine ⟨t', h1, h0, h3.trans (prune_size d [T] _ (List.Sublist.refl _)).1, ?_⟩
  obtain ⟨B, hB, h4⟩ := forall2_mem_left (levelsF_prune_le (b := 1) d [T] _ (List.Sublist.refl _)) _ h2
  have := levelsF_le d [T] (by simpa using hne) B hB
  rw [length_leafBits]
  omega

theorem sum_map_le {α β : Type} {f : α → Nat} {g : β → Nat} {l : List α} {l' : List β} (h : List.Forall₂ (fun a b => f a ≤ g b) l l') :
    (l.map f).sum ≤ (l'.map g).sum := by
  induction h with
  | nil => exact Nat.le_refl _
  | cons h _ ih => simp only [List.map_cons, List.sum_cons]; omega

theorem forall2_take {α β : Type} {P : α → β → Prop} {l : List α} {l' : List β} (h : List.Forall₂ P l l') (n : Nat) :
    List.Forall₂ P (l.take n) (l'.take n) := by
  induction h generalizing n with
  | nil => simp
  | cons h _ ih =>
    cases n with
    | zero => simp
    | succ n => simp only [List.take_succ_cons]; exact .cons h (ih n)

end CBT
