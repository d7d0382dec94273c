import Verif.Proof.Tree
import Verif.Model.Runs

/-!
# Representation of an abstract trie by node numbers
-/

namespace CBT

/-- Node `id` at level `ℓ` of the navigation interface `n` represents the trie `t`. -/
def Rep (n : Nav) (leaf : (w id level : Nat) → Prop) : (d ℓ : Nat) → Tr d → (id : Nat) → Prop
  | 0, ℓ, t, id => leaf t.word id ℓ
  | d + 1, ℓ, t, id =>
    n.getNode id ℓ = .ok (node2 t.l.isSome t.r.isSome) ∧
    (∀ s, t.l = some s → ∃ c, n.getLeftChild id ℓ = .ok c ∧ Rep n leaf d (ℓ + 1) s c ∧
      ∀ s', t.r = some s' → Rep n leaf d (ℓ + 1) s' (c + 1)) ∧
    (∀ s', t.r = some s' → ∃ c, n.getRightChild id ℓ = .ok c ∧ Rep n leaf d (ℓ + 1) s' c)

theorem split_at {α : Type} {f : List α} {j : Nat} {t : α} (h : f[j]? = some t) :
    ∃ f1 f2, f = f1 ++ t :: f2 ∧ f1.length = j := by
  have hj : j < f.length := by
    by_contra hc
    rw [List.getElem?_eq_none (by omega)] at h; simp at h
  refine ⟨f.take j, f.drop (j + 1), ?_, by simp; omega⟩
  have : t = f[j] := by rw [List.getElem?_eq_getElem hj] at h; simpa using h.symm
  rw [this, List.getElem_cons_drop, List.take_append_drop]

/-- Level-order layout with global node numbers (flat and fast tries). -/
theorem rep_flat {n : Nav} {leaf : Nat → Nat → Nat → Prop} {bits : BV} {D : Nat}
    (hget : ∀ id ℓ b0 b1, ℓ < D → bits[2 * id]? = some b0 → bits[2 * id + 1]? = some b1 →
      n.getNode id ℓ = .ok (node2 b0 b1))
    (hleft : ∀ id ℓ, ℓ < D → bits[2 * id]? = some true →
      n.getLeftChild id ℓ = .ok ((bits.take (2 * id + 1)).count true))
    (hright : ∀ id ℓ, ℓ < D → bits[2 * id + 1]? = some true →
      n.getRightChild id ℓ = .ok ((bits.take (2 * id + 2)).count true)) :
    ∀ (d ℓ : Nat) (f : List (Tr d)) (P : BV) (m : Nat), ℓ + d = D → bits = P ++ flatBits d f →
      P.length = 2 * m → P.count true + 1 = m + f.length →
      (∀ i w, (leaves d f)[i]? = some w → leaf w (bits.length / 2 + i) D) →
      ∀ j t, f[j]? = some t → Rep n leaf d ℓ t (m + j) := by
  intro d
  induction d with
  | zero =>
    intro ℓ f P m hℓ hb hP _ hl j t hj
    have h1 : bits.length / 2 = m := by rw [hb]; simp [flatBits, hP]
    have := hl j t.word (by simp [leaves, hj])
    rw [h1] at this
    simpa [Rep, ← hℓ] using this
  | succ d ih =>
    intro ℓ f P m hℓ hb hP hc hl j t hj
    obtain ⟨f1, f2, hf, hj1⟩ := split_at hj
    have hℓD : ℓ < D := by omega
    have hkids : kids f = kids f1 ++ (kidsOf t ++ kids f2) := by rw [hf, kids_append, kids_cons]
    have hbits : bits = (P ++ bitsOf f1) ++ (t.l.isSome :: t.r.isSome :: (bitsOf f2 ++ flatBits d (kids f))) := by
      rw [hb, flatBits, ← List.append_assoc]
      conv_lhs => rw [hf, bitsOf_append, bitsOf_cons]
      rw [← hf]; simp
    have hlen : (P ++ bitsOf f1).length = 2 * (m + j) := by
      rw [List.length_append, length_bitsOf, hP, hj1]; omega
    have hfl : f.length = f1.length + 1 + f2.length := by rw [hf]; simp; omega
    have ih' := ih (ℓ + 1) (kids f) (P ++ bitsOf f) (m + f.length) (by omega)
      (by rw [hb, flatBits, List.append_assoc]) (by rw [List.length_append, length_bitsOf, hP]; omega)
      (by rw [List.count_append, count_bitsOf]; omega)
      (fun i w hi => hl i w hi)
    have hb0 : bits[2 * (m + j)]? = some t.l.isSome := by
      rw [hbits, ← hlen, List.getElem?_append_right (Nat.le_refl _)]; simp
    have hb1 : bits[2 * (m + j) + 1]? = some t.r.isSome := by
      rw [hbits, ← hlen, List.getElem?_append_right (by omega)]
      simp
    have ht1 : (bits.take (2 * (m + j) + 1)).count true = P.count true + (kids f1).length + t.l.toList.length := by
      rw [hbits, ← hlen, List.take_append]
      rw [List.take_of_length_le (by omega)]
      simp only [Nat.add_sub_cancel_left, List.take_succ_cons, List.take_zero, List.count_append, count_bitsOf]
      cases t.l <;> simp
    have ht2 : (bits.take (2 * (m + j) + 2)).count true =
        P.count true + (kids f1).length + t.l.toList.length + t.r.toList.length := by
      rw [hbits, ← hlen, List.take_append]
      rw [List.take_of_length_le (by omega)]
      simp only [Nat.add_sub_cancel_left, List.take_succ_cons, List.take_zero, List.count_append, count_bitsOf]
      cases t.l <;> cases t.r <;> simp
    refine ⟨hget _ _ _ _ hℓD hb0 hb1, ?_, ?_⟩
    · intro s hs
      refine ⟨_, hleft _ _ hℓD (by rw [hb0, hs]; rfl), ?_, ?_⟩
      · have := ih' (kids f1).length s (by rw [hkids]; simp [kidsOf, hs])
        rw [ht1, hs]
        simpa [show P.count true + (kids f1).length + 1 = m + f.length + (kids f1).length by omega] using this
      · intro s' hs'
        have := ih' ((kids f1).length + 1) s' (by rw [hkids]; simp [kidsOf, hs, hs'])
        rw [ht1, hs]
        simpa [show P.count true + (kids f1).length + 1 + 1 = m + f.length + ((kids f1).length + 1) by omega] using this
    · intro s' hs'
      refine ⟨_, hright _ _ hℓD (by rw [hb1, hs']; rfl), ?_⟩
      rw [ht2, hs']
      cases hl : t.l with
      | none =>
        have := ih' (kids f1).length s' (by rw [hkids]; simp [kidsOf, hl, hs'])
        simpa [show P.count true + (kids f1).length + 1 = m + f.length + (kids f1).length by omega] using this
      | some s =>
        have := ih' ((kids f1).length + 1) s' (by rw [hkids]; simp [kidsOf, hl, hs'])
        simpa [show P.count true + (kids f1).length + 1 + 1 = m + f.length + ((kids f1).length + 1) by omega] using this

/-- The bits of the levels, leaves excluded. -/
def nodeLevels : (d : Nat) → List (Tr d) → List BV
  | 0, _ => []
  | d + 1, f => bitsOf f :: nodeLevels d (kids f)

theorem length_nodeLevels : (d : Nat) → (f : List (Tr d)) → (nodeLevels d f).length = d
  | 0, _ => rfl
  | d + 1, f => by simp [nodeLevels, length_nodeLevels d]

theorem flatten_nodeLevels : (d : Nat) → (f : List (Tr d)) → (nodeLevels d f).flatten = flatBits d f
  | 0, _ => rfl
  | d + 1, f => by simp [nodeLevels, flatBits, flatten_nodeLevels d]

/-- Level-order layout with node numbers local to each level (level-wise tries). -/
theorem rep_level {n : Nav} {leaf : Nat → Nat → Nat → Prop} {levels : List BV} {D : Nat}
    (hget : ∀ id ℓ v b0 b1, ℓ < D → levels[ℓ]? = some v → v[2 * id]? = some b0 → v[2 * id + 1]? = some b1 →
      n.getNode id ℓ = .ok (node2 b0 b1))
    (hleft : ∀ id ℓ v, ℓ < D → levels[ℓ]? = some v → v[2 * id]? = some true →
      n.getLeftChild id ℓ = .ok ((v.take (2 * id)).count true))
    (hright : ∀ id ℓ v, ℓ < D → levels[ℓ]? = some v → v[2 * id + 1]? = some true →
      n.getRightChild id ℓ = .ok ((v.take (2 * id + 1)).count true)) :
    ∀ (d ℓ : Nat) (f : List (Tr d)), ℓ + d = D → (levels.drop ℓ).take d = nodeLevels d f →
      (∀ i w, (leaves d f)[i]? = some w → leaf w i D) →
      ∀ j t, f[j]? = some t → Rep n leaf d ℓ t j := by
  intro d
  induction d with
  | zero =>
    intro ℓ f hℓ _ hl j t hj
    have := hl j t.word (by simp [leaves, hj])
    simpa [Rep, ← hℓ] using this
  | succ d ih =>
    intro ℓ f hℓ hv hl j t hj
    obtain ⟨f1, f2, hf, hj1⟩ := split_at hj
    have hℓD : ℓ < D := by omega
    have hkids : kids f = kids f1 ++ (kidsOf t ++ kids f2) := by rw [hf, kids_append, kids_cons]
    have hvℓ : levels[ℓ]? = some (bitsOf f) := by
      have h := congrArg (fun l => l[0]?) hv
      simpa [nodeLevels, List.getElem?_take, List.getElem?_drop] using h
    have ih' := ih (ℓ + 1) (kids f) (by omega)
      (by
        have h := congrArg List.tail hv
        rw [nodeLevels, List.tail_cons] at h
        rw [← h, ← List.drop_one, List.drop_take, List.drop_drop]
        simp)
      (fun i w hi => hl i w hi)
    have hbits : bitsOf f = bitsOf f1 ++ (t.l.isSome :: t.r.isSome :: bitsOf f2) := by
      rw [hf, bitsOf_append, bitsOf_cons]
    have hlen : (bitsOf f1).length = 2 * j := by rw [length_bitsOf, hj1]
    have hb0 : (bitsOf f)[2 * j]? = some t.l.isSome := by
      rw [hbits, ← hlen, List.getElem?_append_right (Nat.le_refl _)]; simp
    have hb1 : (bitsOf f)[2 * j + 1]? = some t.r.isSome := by
      rw [hbits, ← hlen, List.getElem?_append_right (by omega)]; simp
    have ht1 : ((bitsOf f).take (2 * j)).count true = (kids f1).length := by
      rw [hbits, ← hlen, List.take_append]
      rw [List.take_of_length_le (by omega)]
      simp [count_bitsOf]
    have ht2 : ((bitsOf f).take (2 * j + 1)).count true = (kids f1).length + t.l.toList.length := by
      rw [hbits, ← hlen, List.take_append]
      rw [List.take_of_length_le (by omega)]
      simp only [Nat.add_sub_cancel_left, List.take_succ_cons, List.take_zero, List.count_append, count_bitsOf]
      cases t.l <;> simp
    refine ⟨hget _ _ _ _ _ hℓD hvℓ hb0 hb1, ?_, ?_⟩
    · intro s hs
      refine ⟨_, hleft _ _ _ hℓD hvℓ (by rw [hb0, hs]; rfl), ?_, ?_⟩
      · rw [ht1]; exact ih' _ s (by rw [hkids]; simp [kidsOf, hs])
      · intro s' hs'
        rw [ht1]; exact ih' _ s' (by rw [hkids]; simp [kidsOf, hs, hs'])
    · intro s' hs'
      refine ⟨_, hright _ _ _ hℓD hvℓ (by rw [hb1, hs']; rfl), ?_⟩
      rw [ht2]
      cases hl : t.l with
      | none => exact ih' _ s' (by rw [hkids]; simp [kidsOf, hl, hs'])
      | some s => exact ih' _ s' (by rw [hkids]; simp [kidsOf, hl, hs'])

end CBT
