import Verif.Proof.FlatCollapse

/-!
# Sizes of the encoded tries
-/

namespace CBT

theorem kids_ne {b d : Nat} {f : List (Tr (d + 1))} (h : ∀ t ∈ f, NE b (d + 1) t) : ∀ s ∈ kids f, NE b d s := by
  intro s hs
  obtain ⟨t, ht, hs⟩ := List.mem_flatMap.1 hs
  rcases List.mem_append.1 hs with hs | hs
  · exact (h t ht).2.1 s (by simpa using hs)
  · exact (h t ht).2.2 s (by simpa using hs)

theorem length_le_kids {b d : Nat} : (f : List (Tr (d + 1))) → (∀ t ∈ f, NE b (d + 1) t) → f.length ≤ (kids f).length
  | [], _ => by simp
  | t :: f, h => by
    have ih := length_le_kids f (fun t ht => h t (List.mem_cons_of_mem _ ht))
    have hb := (h t (by simp)).1
    rw [kids_cons, List.length_append, List.length_cons]
    have : 1 ≤ (kidsOf t).length := by
      revert hb; unfold Tr.bare kidsOf
      cases t.l <;> cases t.r <;> simp
    omega

theorem length_le_leaves {b : Nat} : (d : Nat) → (f : List (Tr d)) → (∀ t ∈ f, NE b d t) → f.length ≤ (leaves d f).length
  | 0, f, _ => by simp [leaves]
  | d + 1, f, h => (length_le_kids f h).trans (length_le_leaves d (kids f) (kids_ne h))

/-- The size in terms of the number of leaves. -/
theorem size_le_leaves {b : Nat} : (d : Nat) → (f : List (Tr d)) → (∀ t ∈ f, NE b d t) →
    (flatBits d f).length + 2 * (leaves d f).length ≤ 2 * f.length + 2 * (d * (leaves d f).length)
  | 0, f, _ => by simp [leaves, flatBits]
  | d + 1, f, h => by
    have ih := size_le_leaves d (kids f) (kids_ne h)
    have hk := length_le_leaves d (kids f) (kids_ne h)
    rw [flatBits, leaves, List.length_append, length_bitsOf]
    have e : (d + 1) * (leaves d (kids f)).length = d * (leaves d (kids f)).length + (leaves d (kids f)).length := Nat.succ_mul _ _
    omega

theorem leaves_single {d : Nat} (t : Tr (d + 1)) :
    (leaves (d + 1) [t]).length = (t.l.elim 0 fun s => (leaves d [s]).length) + (t.r.elim 0 fun s => (leaves d [s]).length) := by
  rw [leaves_pair, List.length_append]
  cases t.l <;> cases t.r <;> simp [leaves_nil]

/-- Every leaf holds an element. -/
theorem leaves_le_card {b : Nat} : (d : Nat) → (T : Tr d) → (p : Nat) → NE b d T →
    (leaves d [T]).length ≤ (enum (d + b) (has b d T) p).length
  | 0, T, p, h => by
    obtain ⟨x, hx, hT⟩ := exists_has 0 T h
    exact List.length_pos_iff.2 (List.ne_nil_of_mem (mem_enum.2 ⟨x, hx, hT, rfl⟩))
  | d + 1, T, p, h => by
    rw [leaves_single, enum_has_node, List.length_append]
    have h1 : ∀ s, T.l = some s → (leaves d [s]).length ≤ (enum (d + b) (has b d s) p).length :=
      fun s hs => leaves_le_card d s p (h.2.1 s hs)
    have h2 : ∀ s, T.r = some s → (leaves d [s]).length ≤ (enum (d + b) (has b d s) (p + 2 ^ (d + b))).length :=
      fun s hs => leaves_le_card d s _ (h.2.2 s hs)
    revert h1 h2
    cases T.l <;> cases T.r <;> simp; omega

/-- Bits of a trie of `n` elements. -/
theorem size_le {b d : Nat} {T : Tr d} {S : List Nat} (h : NE b d T) (hT : Holds (d + b) (has b d T) S)
    (hs : S.Pairwise (· < ·)) (hb : ∀ x ∈ S, x < 2 ^ (d + b)) :
    (flatBits d [T]).length + 2 * (leaves d [T]).length ≤ 2 * (1 + S.length * d) ∧ (leaves d [T]).length ≤ S.length := by
  have h1 := size_le_leaves d [T] (by simpa using h)
  have h2 := leaves_le_card d T 0 h
  rw [hT.enum hs hb] at h2
  have h3 := Nat.mul_le_mul_left d h2
  rw [Nat.mul_comm d S.length] at h3
  simp only [List.length_singleton] at h1
  omega

theorem kids_sublist {d : Nat} {f g : List (Tr (d + 1))} (h : g.Sublist f) : (kids g).Sublist (kids f) := by
  induction h with
  | slnil => exact List.Sublist.refl _
  | cons a _ ih => rw [kids_cons]; exact ih.trans (List.sublist_append_right _ _)
  | cons_cons a _ ih => rw [kids_cons, kids_cons]; exact List.Sublist.append (List.Sublist.refl _) ih

/-- Pruning never adds bits. -/
theorem prune_size {b : Nat} : (d : Nat) → (f g : List (Tr d)) → g.Sublist (f.map (prune b d)) →
    (flatBits d g).length ≤ (flatBits d f).length ∧ (leaves d g).length ≤ (leaves d f).length
  | 0, f, g, h => by
    have := h.length_le
    simpa [flatBits, leaves] using this
  | d + 1, f, g, h => by
    have hk : (kids (f.map (prune b (d + 1)))).Sublist ((kids f).map (prune b d)) := by
      clear h
      induction f with
      | nil => simp [kids]
      | cons t f ih =>
        rw [List.map_cons, kids_cons, kids_cons, List.map_append]
        refine List.Sublist.append ?_ ih
        cases hf : full b (d + 1) t with
        | true => rw [prune_full hf]; simp [kidsOf]
        | false => rw [prune_not_full hf]; simp only [kidsOf, Tr.l_mk, Tr.r_mk]; cases t.l <;> cases t.r <;> simp
    have hg : (kids g).Sublist (kids (f.map (prune b (d + 1)))) := kids_sublist h
    obtain ⟨h1, h2⟩ := prune_size d (kids f) (kids g) (hg.trans hk)
    have := h.length_le
    rw [List.length_map] at this
    rw [flatBits, flatBits, leaves, leaves, List.length_append, List.length_append, length_bitsOf, length_bitsOf]
    exact ⟨by omega, h2⟩

end CBT
