import Verif.Proof.TwicePad

/-!
# Reading a doubly run-encoded trie when zeros can be read after the end of a vector: vectors
-/

namespace CBT

theorem node2_inj {a b a' b' : Bool} (h : node2 a b = node2 a' b') : a = a' ∧ b = b' := by
  revert h
  cases a <;> cases b <;> cases a' <;> cases b' <;> decide

theorem bits_prefix {d : Nat} : (f : List (Tr (d + 1))) → (W : BV) →
    (∀ j t, f[j]? = some t → W[2 * j]? = some t.l.isSome ∧ W[2 * j + 1]? = some t.r.isSome) → ∃ rest, W = bitsOf f ++ rest
  | [], W, _ => ⟨W, rfl⟩
  | t :: f, W, h => by
    obtain ⟨h0, h1⟩ := h 0 t rfl
    match W, h0, h1, h with
    | [], h0, _, _ => simp at h0
    | [a], _, h1, _ => simp at h1
    | a :: b :: W, h0, h1, h =>
      simp at h0 h1
      obtain ⟨rest, hr⟩ := bits_prefix f W fun j s hs => by
        have := h (j + 1) s (by simpa using hs)
        rw [show 2 * (j + 1) = 2 * j + 1 + 1 by omega] at this
        simpa using this
      exact ⟨rest, by rw [bitsOf_cons, hr, h0, h1]; rfl⟩

/-- Node numbers across levels: what has been read is a prefix of what can be read. -/
theorem prefix_flat {n : Nav} {leaf : Nat → Nat → Nat → Prop} {V : BV} {D : Nat}
    (hget : ∀ id ℓ b0 b1, ℓ < D → n.getNode id ℓ = .ok (node2 b0 b1) → V[2 * id]? = some b0 ∧ V[2 * id + 1]? = some b1)
    (hleft : ∀ id ℓ c, ℓ < D → n.getLeftChild id ℓ = .ok c → c = (V.take (2 * id + 1)).count true)
    (hright : ∀ id ℓ c, ℓ < D → n.getRightChild id ℓ = .ok c → c = (V.take (2 * id + 2)).count true) :
    ∀ (d ℓ : Nat) (f : List (Tr d)) (m : Nat), ℓ + d = D → (∀ j t, f[j]? = some t → Rep n leaf d ℓ t (m + j)) →
      (V.take (2 * m)).count true + 1 = m + f.length → 2 * m ≤ V.length →
      (∃ rest, V.drop (2 * m) = flatBits d f ++ rest) ∧
        ∀ i w, (leaves d f)[i]? = some w → leaf w (m + (flatBits d f).length / 2 + i) D := by
  intro d
  induction d with
  | zero =>
    intro ℓ f m hℓ hf hc hm
    refine ⟨⟨V.drop (2 * m), rfl⟩, fun i w hw => ?_⟩
    rw [leaves, List.getElem?_map, Option.map_eq_some_iff] at hw
    obtain ⟨t, ht, rfl⟩ := hw
    have := hf i t ht
    rw [← hℓ]
    simpa [Rep, flatBits] using this
  | succ d ih =>
    intro ℓ f m hℓ hf hc hm
    have hℓD : ℓ < D := by omega
    obtain ⟨rest0, hr0⟩ := bits_prefix f (V.drop (2 * m)) fun j t ht => by
      obtain ⟨hn, -, -⟩ := hf j t ht
      obtain ⟨h0, h1⟩ := hget _ _ _ _ hℓD hn
      rw [List.getElem?_drop, List.getElem?_drop, show 2 * m + 2 * j = 2 * (m + j) by omega,
        show 2 * m + (2 * j + 1) = 2 * (m + j) + 1 by omega]
      exact ⟨h0, h1⟩
    have hV : V = V.take (2 * m) ++ (bitsOf f ++ rest0) := by rw [← hr0, List.take_append_drop]
    obtain ⟨P, hP⟩ : ∃ P, P = V.take (2 * m) := ⟨_, rfl⟩
    rw [← hP] at hV hc
    have hPl : P.length = 2 * m := by rw [hP, List.length_take]; omega
    have hVl : V.length = 2 * m + 2 * f.length + rest0.length := by
      rw [hV]; simp only [List.length_append, length_bitsOf, hPl]; omega
    have pos : ∀ (f1 : List (Tr (d + 1))) (t : Tr (d + 1)) (f2 : List (Tr (d + 1))), f = f1 ++ t :: f2 →
        (V.take (2 * (m + f1.length) + 1)).count true = P.count true + (kids f1).length + t.l.toList.length ∧
        (V.take (2 * (m + f1.length) + 2)).count true =
          P.count true + (kids f1).length + t.l.toList.length + t.r.toList.length := by
      intro f1 t f2 hf
      have hbits : V = (P ++ bitsOf f1) ++ (t.l.isSome :: t.r.isSome :: (bitsOf f2 ++ rest0)) := by
        rw [hV, hf, bitsOf_append, bitsOf_cons]; simp
      have hlen : (P ++ bitsOf f1).length = 2 * (m + f1.length) := by rw [List.length_append, length_bitsOf, hPl]; omega
      refine ⟨?_, ?_⟩
      · rw [hbits, ← hlen, List.take_append]
        rw [List.take_of_length_le (by omega)]
        simp only [Nat.add_sub_cancel_left, List.take_succ_cons, List.take_zero, List.count_append, count_bitsOf]
        cases t.l <;> simp
      · rw [hbits, ← hlen, List.take_append]
        rw [List.take_of_length_le (by omega)]
        simp only [Nat.add_sub_cancel_left, List.take_succ_cons, List.take_zero, List.count_append, count_bitsOf]
        cases t.l <;> cases t.r <;> simp
    have hkids : ∀ j s, (kids f)[j]? = some s → Rep n leaf d (ℓ + 1) s (m + f.length + j) := by
      intro j s hs
      obtain ⟨f1, t, f2, hf', h'⟩ := kids_index f j s hs
      obtain ⟨c1, c2⟩ := pos f1 t f2 hf'
      have ht : f[f1.length]? = some t := by rw [hf', List.getElem?_append_right (Nat.le_refl _)]; simp
      obtain ⟨hn, hl, hr⟩ := hf f1.length t ht
      rcases h' with ⟨hs', rfl⟩ | ⟨hs', rfl⟩
      · obtain ⟨c, hc', hR, -⟩ := hl s hs'
        have e := hleft _ _ _ hℓD hc'
        rw [c1, hs'] at e
        simp only [Option.toList_some, List.length_singleton] at e
        rw [show m + f.length + (kids f1).length = c by omega]
        exact hR
      · obtain ⟨c, hc', hR⟩ := hr s hs'
        have e := hright _ _ _ hℓD hc'
        rw [c2, hs'] at e
        simp only [Option.toList_some, List.length_singleton] at e
        rw [show m + f.length + ((kids f1).length + t.l.toList.length) = c by omega]
        exact hR
    have htake : V.take (2 * (m + f.length)) = P ++ bitsOf f := by
      have hl2 : 2 * (m + f.length) = (P ++ bitsOf f).length := by rw [List.length_append, length_bitsOf, hPl]; omega
      rw [hl2, hV, ← List.append_assoc, List.take_left]
    obtain ⟨⟨rest, hrest⟩, hlv⟩ := ih (ℓ + 1) (kids f) (m + f.length) (by omega) hkids
      (by rw [htake, List.count_append, count_bitsOf]; omega) (by omega)
    have hdrop : V.drop (2 * (m + f.length)) = rest0 := by
      rw [show 2 * (m + f.length) = 2 * m + 2 * f.length by omega, ← List.drop_drop, hr0, ← length_bitsOf, List.drop_left]
    refine ⟨⟨rest, ?_⟩, fun i w hw => ?_⟩
    · rw [hr0, flatBits, List.append_assoc, ← hrest, hdrop]
    · have := hlv i w hw
      rwa [flatBits, List.length_append, length_bitsOf, show (2 * f.length + (flatBits d (kids f)).length) / 2 =
        f.length + (flatBits d (kids f)).length / 2 by omega, ← Nat.add_assoc]

/-- Node numbers within each level. -/
theorem prefix_level {n : Nav} {leaf : Nat → Nat → Nat → Prop} {V : Nat → BV} {D : Nat}
    (hget : ∀ id ℓ b0 b1, ℓ < D → n.getNode id ℓ = .ok (node2 b0 b1) → (V ℓ)[2 * id]? = some b0 ∧ (V ℓ)[2 * id + 1]? = some b1)
    (hleft : ∀ id ℓ c, ℓ < D → (V ℓ)[2 * id]? = some true → n.getLeftChild id ℓ = .ok c → c = ((V ℓ).take (2 * id)).count true)
    (hright : ∀ id ℓ c, ℓ < D → (V ℓ)[2 * id + 1]? = some true → n.getRightChild id ℓ = .ok c →
      c = ((V ℓ).take (2 * id + 1)).count true) :
    ∀ (d ℓ : Nat) (f : List (Tr d)), ℓ + d = D → (∀ j t, f[j]? = some t → Rep n leaf d ℓ t j) →
      (∀ (i : Nat) B, (nodeLevels d f)[i]? = some B → ∃ rest, V (ℓ + i) = B ++ rest) := by
  intro d
  induction d with
  | zero =>
    intro ℓ f hℓ hf i B hB
    simp [nodeLevels] at hB
  | succ d ih =>
    intro ℓ f hℓ hf
    have hℓD : ℓ < D := by omega
    obtain ⟨rest0, hV⟩ := bits_prefix f (V ℓ) fun j t ht => by
      obtain ⟨hn, -, -⟩ := hf j t ht
      exact hget _ _ _ _ hℓD hn
    have pos : ∀ (f1 : List (Tr (d + 1))) (t : Tr (d + 1)) (f2 : List (Tr (d + 1))), f = f1 ++ t :: f2 →
        ((V ℓ).take (2 * f1.length)).count true = (kids f1).length ∧
        ((V ℓ).take (2 * f1.length + 1)).count true = (kids f1).length + t.l.toList.length ∧
        (V ℓ)[2 * f1.length]? = some t.l.isSome ∧ (V ℓ)[2 * f1.length + 1]? = some t.r.isSome := by
      intro f1 t f2 hf
      have hbits : V ℓ = bitsOf f1 ++ (t.l.isSome :: t.r.isSome :: (bitsOf f2 ++ rest0)) := by
        rw [hV, hf, bitsOf_append, bitsOf_cons]; simp
      rw [hbits, ← length_bitsOf]
      refine ⟨by rw [List.take_left, count_bitsOf], ?_, ?_, ?_⟩
      · rw [List.take_append]
        rw [List.take_of_length_le (by omega)]
        simp only [Nat.add_sub_cancel_left, List.take_succ_cons, List.take_zero, List.count_append, count_bitsOf]
        cases t.l <;> simp
      · rw [List.getElem?_append_right (Nat.le_refl _)]; simp
      · rw [List.getElem?_append_right (by omega)]; simp
    have hkids : ∀ j s, (kids f)[j]? = some s → Rep n leaf d (ℓ + 1) s j := by
      intro j s hs
      obtain ⟨f1, t, f2, hf', h'⟩ := kids_index f j s hs
      obtain ⟨c1, c2, c3, c4⟩ := pos f1 t f2 hf'
      have ht : f[f1.length]? = some t := by rw [hf', List.getElem?_append_right (Nat.le_refl _)]; simp
      obtain ⟨hn, hl, hr⟩ := hf f1.length t ht
      rcases h' with ⟨hs', rfl⟩ | ⟨hs', rfl⟩
      · obtain ⟨c, hc', hR, -⟩ := hl s hs'
        have e := hleft _ _ _ hℓD (by rw [c3, hs']; rfl) hc'
        rw [c1] at e
        rw [← e]
        exact hR
      · obtain ⟨c, hc', hR⟩ := hr s hs'
        have e := hright _ _ _ hℓD (by rw [c4, hs']; rfl) hc'
        rw [c2] at e
        rw [← e]
        exact hR
    intro i B hB
    cases i with
    | zero =>
      simp only [nodeLevels, List.getElem?_cons_zero, Option.some.injEq] at hB
      exact ⟨rest0, by rw [← hB]; exact hV⟩
    | succ i =>
      rw [nodeLevels, List.getElem?_cons_succ] at hB
      obtain ⟨rest, h⟩ := ih (ℓ + 1) (kids f) (by omega) hkids i B hB
      exact ⟨rest, by rw [← h]; congr 1; omega⟩

/-! ## Pairs that are not `00` -/

/-- The number of pairs of bits other than `00`. -/
def nzPairs : BV → Nat
  | a :: b :: l => (a || b).toNat + nzPairs l
  | _ => 0

theorem nzPairs_le : (v : BV) → 2 * nzPairs v ≤ v.length
  | [] => by simp [nzPairs]
  | [_] => by simp [nzPairs]
  | a :: b :: l => by
    have := nzPairs_le l
    simp only [nzPairs, List.length_cons]
    cases a <;> cases b <;> simp <;> omega

theorem nzPairs_append : (v w : BV) → 2 ∣ v.length → nzPairs (v ++ w) = nzPairs v + nzPairs w
  | [], w, _ => by simp [nzPairs]
  | [_], _, h => by simp at h
  | a :: b :: l, w, h => by
    have := nzPairs_append l w (by simp at h ⊢; omega)
    simp only [List.cons_append, nzPairs, this]
    omega

theorem nzPairs_zeros : (z : Nat) → nzPairs (List.replicate z false) = 0
  | 0 => rfl
  | 1 => rfl
  | z + 2 => by
    have := nzPairs_zeros z
    simp [List.replicate_succ, nzPairs, this]

theorem nzPairs_bitsOf {d : Nat} : (f : List (Tr (d + 1))) → 2 * nzPairs (bitsOf f) = (solidBits f).length
  | [] => rfl
  | t :: f => by
    have := nzPairs_bitsOf f
    rw [bitsOf_cons, nzPairs, solidBits, List.filter_cons, Tr.bare]
    rw [solidBits] at this
    cases t.l <;> cases t.r <;> simp [bitsOf_cons] <;> omega

theorem nzPairs_flatBits : (d : Nat) → (f : List (Tr d)) → 2 * nzPairs (flatBits d f) = (nodeLevelsS d f).flatten.length
  | 0, _ => rfl
  | d + 1, f => by
    rw [flatBits, nzPairs_append _ _ (by rw [length_bitsOf]; exact ⟨_, rfl⟩), nodeLevelsS, List.flatten_cons, List.length_append,
      ← nzPairs_flatBits d (kids f), ← nzPairs_bitsOf]
    omega

theorem solid_le {d : Nat} (f : List (Tr (d + 1))) : (solidBits f).length ≤ (bitsOf f).length := by
  rw [← nzPairs_bitsOf]
  exact nzPairs_le _

theorem solid_le_flat (d : Nat) (f : List (Tr d)) : (nodeLevelsS d f).flatten.length ≤ (flatBits d f).length := by
  rw [← nzPairs_flatBits]
  exact nzPairs_le _

theorem solid_even {d : Nat} (f : List (Tr (d + 1))) : 2 ∣ (solidBits f).length := ⟨_, (nzPairs_bitsOf f).symm⟩

theorem solid_even_flat (d : Nat) (f : List (Tr d)) : 2 ∣ (nodeLevelsS d f).flatten.length := ⟨_, (nzPairs_flatBits d f).symm⟩

/-- Reading no further than zeros are readable. -/
theorem prefix_zeros {A B rest : BV} {pad : Nat} (h : B ++ List.replicate pad false = A ++ rest) (hle : B.length ≤ A.length) :
    ∃ z, z ≤ pad ∧ A = B ++ List.replicate z false := by
  have h1 := congrArg (List.take A.length) h
  rw [List.take_left, List.take_append, List.take_of_length_le hle, List.take_replicate] at h1
  exact ⟨_, Nat.min_le_right _ _, h1.symm⟩

/-! ## Nodes without children that come last -/

/-- No node with a child comes after one without. -/
def Late {d : Nat} (f : List (Tr (d + 1))) : Prop := f.Pairwise fun t t' => t.bare = true → t'.bare = true

/-- The number of nodes without children. -/
def bareN {d : Nat} (f : List (Tr (d + 1))) : Nat := (f.filter Tr.bare).length

theorem solid_nil_iff {d : Nat} {f : List (Tr (d + 1))} : solidBits f = [] ↔ ∀ t ∈ f, t.bare = true := by
  constructor
  · intro h t ht
    by_contra hc
    have hm : t ∈ f.filter fun t => !t.bare := List.mem_filter.2 ⟨ht, by simpa using hc⟩
    have e := congrArg List.length h
    rw [solidBits, length_bitsOf, List.length_nil] at e
    have := List.length_pos_of_mem hm
    omega
  · intro h
    rw [solidBits, List.filter_eq_nil_iff.2 (by intro t ht; simp [h t ht])]
    rfl

theorem bits_bare {d : Nat} : (f : List (Tr (d + 1))) → (∀ t ∈ f, t.bare = true) → bitsOf f = List.replicate (2 * f.length) false
  | [], _ => rfl
  | t :: f, h => by
    obtain ⟨e1, e2⟩ := Tr.bare_eq (h t (by simp))
    rw [bitsOf_cons, bits_bare f fun s hs => h s (List.mem_cons_of_mem _ hs), e1, e2, List.length_cons,
      show 2 * (f.length + 1) = 2 * f.length + 1 + 1 by omega, List.replicate_succ, List.replicate_succ]
    rfl

theorem bits_length {d : Nat} (f : List (Tr (d + 1))) : (bitsOf f).length = (solidBits f).length + 2 * bareN f := by
  rw [length_bitsOf, solidBits, length_bitsOf, bareN]
  induction f with
  | nil => rfl
  | cons t f ih =>
    simp only [List.filter_cons, List.length_cons]
    cases t.bare <;> simp <;> omega

theorem late_bits {d : Nat} : {f : List (Tr (d + 1))} → Late f → bitsOf f = solidBits f ++ List.replicate (2 * bareN f) false
  | [], _ => rfl
  | t :: f, h => by
    rw [Late, List.pairwise_cons] at h
    cases hb : t.bare with
    | true =>
      have hall : ∀ s ∈ t :: f, s.bare = true := by
        intro s hs
        rcases List.mem_cons.1 hs with rfl | hs
        · exact hb
        · exact h.1 s hs hb
      rw [solid_nil_iff.2 hall, bits_bare _ hall, bareN, List.filter_eq_self.2 hall]
      rfl
    | false =>
      have e1 : solidBits (t :: f) = t.l.isSome :: t.r.isSome :: solidBits f := by
        rw [solidBits, List.filter_cons, hb]; simp [bitsOf_cons, solidBits]
      have e2 : bareN (t :: f) = bareN f := by rw [bareN, List.filter_cons, hb]; rfl
      rw [bitsOf_cons, e1, e2, late_bits (f := f) h.2]
      rfl

theorem solid_head {d : Nat} {f : List (Tr (d + 1))} (h : solidBits f ≠ []) : ∃ a b l, solidBits f = a :: b :: l ∧ (a || b) = true := by
  rw [solidBits] at h ⊢
  cases hf : f.filter fun t => !t.bare with
  | nil => rw [hf] at h; exact (h rfl).elim
  | cons t g =>
    have ht := (List.mem_filter.1 (hf ▸ List.mem_cons_self : t ∈ f.filter fun t => !t.bare)).2
    rw [bitsOf_cons]
    refine ⟨_, _, _, rfl, ?_⟩
    rw [Tr.bare] at ht
    cases hl : t.l <;> cases hr : t.r <;> simp [hl, hr] at ht ⊢

theorem late_of_bits {d : Nat} : {f : List (Tr (d + 1))} → {z : Nat} → bitsOf f = solidBits f ++ List.replicate z false → Late f
  | [], _, _ => .nil
  | t :: f, z, h => by
    rw [Late, List.pairwise_cons]
    cases hb : t.bare with
    | true =>
      have hn : solidBits (t :: f) = [] := by
        by_contra hc
        obtain ⟨a, b, l, hs, hab⟩ := solid_head hc
        obtain ⟨e1, e2⟩ := Tr.bare_eq hb
        rw [hs, bitsOf_cons, e1, e2] at h
        simp only [List.cons_append, List.cons.injEq, Option.isSome_none] at h
        rw [← h.1, ← h.2.1] at hab
        simp at hab
      have hall := solid_nil_iff.1 hn
      exact ⟨fun s hs _ => hall s (List.mem_cons_of_mem _ hs), List.pairwise_of_forall_mem_list fun a ha b hb' _ =>
        hall b (List.mem_cons_of_mem _ hb')⟩
    | false =>
      have e1 : solidBits (t :: f) = t.l.isSome :: t.r.isSome :: solidBits f := by
        rw [solidBits, List.filter_cons, hb]; simp [bitsOf_cons, solidBits]
      rw [bitsOf_cons, e1] at h
      simp at h
      exact ⟨fun s _ h => by simp at h, late_of_bits h⟩

/-- In every level the nodes without children come last, and `pad` bits are enough for them. -/
def LateAll (pad : Nat) : (d : Nat) → List (Tr d) → Prop
  | 0, _ => True
  | d + 1, f => Late f ∧ 2 * bareN f ≤ pad ∧ LateAll pad d (kids f)

theorem lateAll_of_levels {pad : Nat} : (d : Nat) → (f : List (Tr d)) →
    (∀ (i : Nat) B B', (nodeLevels d f)[i]? = some B → (nodeLevelsS d f)[i]? = some B' → ∃ rest, B' ++ List.replicate pad false = B ++ rest) →
    LateAll pad d f
  | 0, _, _ => trivial
  | d + 1, f, h => by
    obtain ⟨rest, h0⟩ := h 0 _ _ rfl rfl
    obtain ⟨z, hz, e⟩ := prefix_zeros h0 (solid_le f)
    have hl := congrArg List.length e
    rw [bits_length, List.length_append, List.length_replicate] at hl
    exact ⟨late_of_bits e, by omega, lateAll_of_levels d (kids f) fun i B B' hB hB' => h (i + 1) B B' hB hB'⟩

theorem LateAll.levels {pad : Nat} : {d : Nat} → {f : List (Tr d)} → LateAll pad d f →
    ∀ (i : Nat) B, (nodeLevels d f)[i]? = some B → ∃ B' z, (nodeLevelsS d f)[i]? = some B' ∧ z ≤ pad ∧ B = B' ++ List.replicate z false
  | 0, _, _, i, B, hB => by simp [nodeLevels] at hB
  | d + 1, f, h, 0, B, hB => by
    simp only [nodeLevels, List.getElem?_cons_zero, Option.some.injEq] at hB
    exact ⟨_, _, rfl, h.2.1, by rw [← hB]; exact late_bits h.1⟩
  | d + 1, f, h, i + 1, B, hB => h.2.2.levels i B hB

/-- In level order over all levels the nodes without children come last. -/
def LateFlat : (d : Nat) → List (Tr d) → Prop
  | 0, _ => True
  | d + 1, f => ((∀ t ∈ f, t.bare = false) ∧ LateFlat d (kids f)) ∨ (Late f ∧ (nodeLevelsS d (kids f)).flatten = [])

theorem solid_all {d : Nat} {f : List (Tr (d + 1))} (h : ∀ t ∈ f, t.bare = false) : solidBits f = bitsOf f := by
  rw [solidBits, List.filter_eq_self.2]
  intro t ht
  simp [h t ht]

theorem solid_flat_nil : (d : Nat) → (f : List (Tr d)) → (nodeLevelsS d f).flatten = [] → ∃ z, flatBits d f = List.replicate z false
  | 0, _, _ => ⟨0, rfl⟩
  | d + 1, f, h => by
    rw [nodeLevelsS, List.flatten_cons, List.append_eq_nil_iff] at h
    obtain ⟨z, hz⟩ := solid_flat_nil d (kids f) h.2
    refine ⟨2 * f.length + z, ?_⟩
    rw [flatBits, bits_bare f (solid_nil_iff.1 h.1), hz, List.replicate_append_replicate]

theorem solid_flat_head {d : Nat} {f : List (Tr d)} (h : (nodeLevelsS d f).flatten ≠ []) :
    ∃ a b l, (nodeLevelsS d f).flatten = a :: b :: l ∧ (a || b) = true := by
  induction d with
  | zero => exact (h rfl).elim
  | succ d ih =>
    rw [nodeLevelsS, List.flatten_cons] at h ⊢
    by_cases hs : solidBits f = []
    · rw [hs, List.nil_append] at h ⊢
      exact ih h
    · obtain ⟨a, b, l, e, hab⟩ := solid_head hs
      exact ⟨a, b, _, by rw [e]; rfl, hab⟩

theorem late_flat_aux {d : Nat} {X : BV} (hX : X ≠ [] → ∃ a b l, X = a :: b :: l ∧ (a || b) = true) : {f : List (Tr (d + 1))} → {Y : BV} → {z : Nat} →
    bitsOf f ++ Y = solidBits f ++ (X ++ List.replicate z false) → (∀ t ∈ f, t.bare = false) ∨ (Late f ∧ X = [])
  | [], _, _, _ => Or.inl (by simp)
  | t :: f, Y, z, h => by
    cases hb : t.bare with
    | true =>
      obtain ⟨e1, e2⟩ := Tr.bare_eq hb
      rw [bitsOf_cons, e1, e2] at h
      have hn : solidBits (t :: f) = [] := by
        by_contra hc
        obtain ⟨a, b, l, hs, hab⟩ := solid_head hc
        rw [hs] at h
        simp only [List.cons_append, List.cons.injEq, Option.isSome_none] at h
        rw [← h.1, ← h.2.1] at hab
        simp at hab
      have hX' : X = [] := by
        by_contra hc
        obtain ⟨a, b, l, hs, hab⟩ := hX hc
        rw [hn, hs, List.nil_append] at h
        simp only [List.cons_append, List.cons.injEq, Option.isSome_none] at h
        rw [← h.1, ← h.2.1] at hab
        simp at hab
      have hall := solid_nil_iff.1 hn
      exact Or.inr ⟨List.pairwise_of_forall_mem_list fun a ha b hb' _ => hall b hb', hX'⟩
    | false =>
      have e1 : solidBits (t :: f) = t.l.isSome :: t.r.isSome :: solidBits f := by
        rw [solidBits, List.filter_cons, hb]; simp [bitsOf_cons, solidBits]
      rw [bitsOf_cons, e1] at h
      simp only [List.cons_append, List.cons.injEq, true_and] at h
      rcases late_flat_aux hX h with h' | ⟨h1, h2⟩
      · left
        intro s hs
        rcases List.mem_cons.1 hs with rfl | hs
        · exact hb
        · exact h' s hs
      · refine Or.inr ⟨?_, h2⟩
        rw [Late, List.pairwise_cons]
        exact ⟨fun s _ h => absurd h (by simp [hb]), h1⟩

theorem lateFlat_iff : (d : Nat) → (f : List (Tr d)) →
    ((∃ z, flatBits d f = (nodeLevelsS d f).flatten ++ List.replicate z false) ↔ LateFlat d f)
  | 0, _ => ⟨fun _ => trivial, fun _ => ⟨0, rfl⟩⟩
  | d + 1, f => by
    rw [flatBits, nodeLevelsS, List.flatten_cons]
    constructor
    · rintro ⟨z, h⟩
      rw [List.append_assoc] at h
      rcases late_flat_aux solid_flat_head h with h' | h'
      · left
        refine ⟨h', (lateFlat_iff d (kids f)).1 ⟨z, ?_⟩⟩
        rw [solid_all h'] at h
        exact List.append_cancel_left h
      · exact Or.inr h'
    · rintro (⟨h1, h2⟩ | ⟨h1, h2⟩)
      · obtain ⟨z, hz⟩ := (lateFlat_iff d (kids f)).2 h2
        exact ⟨z, by rw [solid_all h1, List.append_assoc, ← hz]⟩
      · obtain ⟨z, hz⟩ := solid_flat_nil d (kids f) h2
        exact ⟨2 * bareN f + z, by rw [h2, late_bits h1, hz, List.append_nil, List.append_assoc, List.replicate_append_replicate]⟩

end CBT
