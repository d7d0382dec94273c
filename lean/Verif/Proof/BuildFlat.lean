import Verif.Proof.Build

/-!
# The constructor of the flat trie
-/

namespace CBT

theorem flatChild_inner {h : Nat} {s : FlatSt} {W : BV} {m : Nat} (c : Option (Nat × Nat × Nat)) (hl : s.level + 1 ≠ h)
    (hb : s.bTrie = W ++ List.replicate (m + 1) false) (hi : s.index = W.length) :
    flatChild h s c = .ok { s with
      q := s.q ++ c.toList, nodesNext := s.nodesNext + c.toList.length, index := s.index + 1, total := s.total + 1,
      bTrie := W ++ [c.isSome] ++ List.replicate m false } := by
  cases c with
  | none => simp [flatChild, hb, replicate_next]
  | some c => simp [flatChild, hl, hb, hi, bvSet_next]

theorem flatChild_last {h : Nat} {s : FlatSt} {W : BV} {m : Nat} (c : Option (Nat × Nat × Nat)) (hl : s.level + 1 = h)
    (hb : s.lastLevel = W ++ List.replicate (m + 1) false) (hi : s.index = W.length) :
    flatChild h s c = .ok { s with
      q := s.q ++ c.toList, nodesNext := s.nodesNext + c.toList.length, index := s.index + 1, total := s.total + 1,
      lastLevel := W ++ [c.isSome] ++ List.replicate m false } := by
  cases c with
  | none => simp [flatChild, hb, replicate_next]
  | some c => simp [flatChild, hl, hb, hi, bvSet_next]

theorem toList_map_append (k : Nat) (g : Group) :
    ((loG k g).map ent).toList ++ ((hiG k g).map ent).toList = (splitG k g).map ent := by
  rw [splitG]
  cases loG k g <;> cases hiG k g <;> rfl

theorem toList_map_length (k : Nat) (g : Group) :
    ((loG k g).map ent).toList.length + ((hiG k g).map ent).toList.length = (splitG k g).length := by
  rw [splitG]
  cases loG k g <;> cases hiG k g <;> rfl

theorem flatStep_inner {set : List Nat} {h : Nat} {s : FlatSt} {W : BV} {m : Nat} {g : Group} {q : List (Nat × Nat × Nat)}
    (hat : At set g) (hlen : set.length < 2 ^ 64) (hl : s.level + 1 ≠ h)
    (hb : s.bTrie = W ++ List.replicate (m + 2) false) (hi : s.index = W.length) :
    flatStep set h s g.1 (g.1 + g.2.length - 1) q = .ok (flatLevelEnd h { s with
      q := q ++ (splitG (h - s.level - 1) g).map ent,
      count := s.count + 1, nodesNext := s.nodesNext + (splitG (h - s.level - 1) g).length,
      index := s.index + 2, total := s.total + 2,
      bTrie := W ++ bitsG (h - s.level - 1) g ++ List.replicate m false }) := by
  obtain ⟨left, right, e, e1, e2⟩ := scan_group (h - s.level - 1) hat hlen
  rw [flatStep]
  simp only [e, R_bind_ok, e1, e2]
  rw [flatChild_inner (W := W) (m := m + 1) _ (by exact hl) (by exact hb) (by exact hi)]
  simp only [R_bind_ok]
  rw [flatChild_inner (W := W ++ [((loG (h - s.level - 1) g).map ent).isSome]) (m := m) _ (by exact hl) rfl
    (by simp [hi])]
  simp only [R_bind_ok]
  rw [List.append_assoc, toList_map_append, Nat.add_assoc s.nodesNext, toList_map_length]
  simp [bitsG]

theorem flatStep_last {set : List Nat} {h : Nat} {s : FlatSt} {W : BV} {m : Nat} {g : Group} {q : List (Nat × Nat × Nat)}
    (hat : At set g) (hlen : set.length < 2 ^ 64) (hl : s.level + 1 = h)
    (hb : s.lastLevel = W ++ List.replicate (m + 2) false) (hi : s.index = W.length) :
    flatStep set h s g.1 (g.1 + g.2.length - 1) q = .ok (flatLevelEnd h { s with
      q := q ++ (splitG (h - s.level - 1) g).map ent,
      count := s.count + 1, nodesNext := s.nodesNext + (splitG (h - s.level - 1) g).length,
      index := s.index + 2, total := s.total + 2,
      lastLevel := W ++ bitsG (h - s.level - 1) g ++ List.replicate m false }) := by
  obtain ⟨left, right, e, e1, e2⟩ := scan_group (h - s.level - 1) hat hlen
  rw [flatStep]
  simp only [e, R_bind_ok, e1, e2]
  rw [flatChild_last (W := W) (m := m + 1) _ (by exact hl) (by exact hb) (by exact hi)]
  simp only [R_bind_ok]
  rw [flatChild_last (W := W ++ [((loG (h - s.level - 1) g).map ent).isSome]) (m := m) _ (by exact hl) rfl
    (by simp [hi])]
  simp only [R_bind_ok]
  rw [List.append_assoc, toList_map_append, Nat.add_assoc s.nodesNext, toList_map_length]
  simp [bitsG]

theorem flatLevelEnd_pos {h : Nat} {s : FlatSt} (hc : s.count = s.nodesCurr) :
    flatLevelEnd h s = { s with
      nodesLast := if s.level + 2 = h then s.nodesNext else s.nodesLast, index := if s.level + 2 = h then 0 else s.index,
      nodesCurr := s.nodesNext, nodesNext := 0, count := 0, level := s.level + 1 } := by
  rw [flatLevelEnd, if_pos hc]
  by_cases h2 : s.level + 2 = h <;> simp [h2]

theorem flatLevelEnd_neg {h : Nat} {s : FlatSt} (hc : s.count ≠ s.nodesCurr) : flatLevelEnd h s = s := by
  rw [flatLevelEnd, if_neg hc]

theorem splitAll_snoc (k : Nat) (done : List Group) (g : Group) :
    splitAll k (done ++ [g]) = splitAll k done ++ splitG k g := by
  rw [splitAll_append]; simp [splitAll]

@[simp] theorem splitAll_nil (k : Nat) : splitAll k [] = [] := rfl
@[simp] theorem bitsAll_nil (k : Nat) : bitsAll k [] = [] := rfl

theorem splitAll_cons (k : Nat) (g : Group) (rest : List Group) : splitAll k (g :: rest) = splitG k g ++ splitAll k rest := by
  simp [splitAll]

theorem bitsAll_cons (k : Nat) (g : Group) (rest : List Group) : bitsAll k (g :: rest) = bitsG k g ++ bitsAll k rest := by
  simp [bitsAll]

/-- A whole inner level. -/
theorem flat_level {set : List Nat} {h ℓ : Nat} (hlen : set.length < 2 ^ 64) (hℓ : ℓ + 1 < h) {LL : BV} :
    ∀ (rest done : List Group) (W : BV) (m f : Nat), rest ≠ [] → (∀ g ∈ rest, At set g) →
    flatLoop set h (f + rest.length)
      { q := rest.map ent ++ (splitAll (h - ℓ - 1) done).map ent, level := ℓ, nodesCurr := done.length + rest.length,
        count := done.length, nodesNext := (splitAll (h - ℓ - 1) done).length, index := W.length, total := W.length,
        nodesLast := 0, bTrie := W ++ List.replicate (m + 2 * rest.length) false, lastLevel := LL } =
    flatLoop set h f
      { q := (splitAll (h - ℓ - 1) (done ++ rest)).map ent, level := ℓ + 1,
        nodesCurr := (splitAll (h - ℓ - 1) (done ++ rest)).length, count := 0, nodesNext := 0,
        index := if ℓ + 2 = h then 0 else (W ++ bitsAll (h - ℓ - 1) rest).length,
        total := (W ++ bitsAll (h - ℓ - 1) rest).length,
        nodesLast := if ℓ + 2 = h then (splitAll (h - ℓ - 1) (done ++ rest)).length else 0,
        bTrie := W ++ bitsAll (h - ℓ - 1) rest ++ List.replicate m false, lastLevel := LL } := by
  intro rest
  induction rest with
  | nil => intro _ _ _ _ h; exact absurd rfl h
  | cons g rest ih =>
    intro done W m f _ hat
    rw [List.length_cons, ← Nat.add_assoc, flatLoop]
    simp only [List.map_cons, List.cons_append, ent]
    rw [flatStep_inner (W := W) (m := m + 2 * rest.length) (hat g (by simp)) hlen (by simp; omega)
      (by rw [show m + 2 * (rest.length + 1) = m + 2 * rest.length + 2 by omega]) rfl]
    simp only [R_bind_ok]
    by_cases hr : rest = []
    · subst hr
      rw [flatLevelEnd_pos (by simp)]
      have h3 : ¬ ℓ + 1 = h := by omega
      simp [h3, splitAll_snoc, bitsAll, bitsG]
    · rw [flatLevelEnd_neg (by simp [hr])]
      have h3 : ¬ ℓ = h := by omega
      simp only [h3, if_false]
      have := ih (done ++ [g]) (W ++ bitsG (h - ℓ - 1) g) m f hr (fun g' hg' => hat g' (by simp [hg']))
      simp only [splitAll_append, splitAll_nil, splitAll_cons, bitsAll_cons, bitsG, List.map_append, List.length_append,
        List.append_assoc, List.length_cons, List.length_nil, List.append_nil, Nat.zero_add, Nat.add_assoc, Nat.reduceAdd] at this ⊢
      rw [show done.length + (1 + rest.length) = done.length + (rest.length + 1) by omega] at this
      exact this

/-- The last level. -/
theorem flat_lastlevel {set : List Nat} {h ℓ : Nat} (hlen : set.length < 2 ^ 64) (hℓ : ℓ + 1 = h) {B : BV} {T NL : Nat} :
    ∀ (rest done : List Group) (W : BV) (m f : Nat), rest ≠ [] → (∀ g ∈ rest, At set g) →
    ∃ s, flatLoop set h (f + rest.length)
      { q := rest.map ent ++ (splitAll (h - ℓ - 1) done).map ent, level := ℓ, nodesCurr := done.length + rest.length,
        count := done.length, nodesNext := (splitAll (h - ℓ - 1) done).length, index := W.length, total := T + W.length,
        nodesLast := NL, bTrie := B, lastLevel := W ++ List.replicate (m + 2 * rest.length) false } = .ok s ∧
      s.total = T + (W ++ bitsAll (h - ℓ - 1) rest).length ∧ s.nodesLast = NL ∧ s.bTrie = B ∧
      s.lastLevel = W ++ bitsAll (h - ℓ - 1) rest ++ List.replicate m false := by
  intro rest
  induction rest with
  | nil => intro _ _ _ _ h; exact absurd rfl h
  | cons g rest ih =>
    intro done W m f _ hat
    rw [List.length_cons, ← Nat.add_assoc, flatLoop]
    simp only [List.map_cons, List.cons_append, ent]
    rw [flatStep_last (W := W) (m := m + 2 * rest.length) (hat g (by simp)) hlen (by simp; omega)
      (by rw [show m + 2 * (rest.length + 1) = m + 2 * rest.length + 2 by omega]) rfl]
    simp only [R_bind_ok]
    by_cases hr : rest = []
    · subst hr
      rw [flatLevelEnd_pos (by simp)]
      simp only [hℓ, if_true]
      have h3 : ¬ ℓ + 2 = h := by omega
      refine ⟨_, rfl, ?_⟩
      simp [h3, bitsAll, bitsG, Nat.add_assoc]
    · rw [flatLevelEnd_neg (by simp [hr])]
      have h3 : ¬ ℓ = h := by omega
      simp only [h3, if_false]
      have := ih (done ++ [g]) (W ++ bitsG (h - ℓ - 1) g) m f hr (fun g' hg' => hat g' (by simp [hg']))
      simp only [splitAll_append, splitAll_nil, splitAll_cons, bitsAll_cons, bitsG, List.map_append, List.length_append,
        List.append_assoc, List.length_cons, List.length_nil, List.append_nil, Nat.zero_add, Nat.add_assoc, Nat.reduceAdd] at this ⊢
      rw [show done.length + (1 + rest.length) = done.length + (rest.length + 1) by omega] at this
      exact this

/-- The leaf word of a group on the last level: bit 0 for the left child, bit 1 for the right child. -/
def lfFlat (g : List Nat) : Nat :=
  (if (nonEmpty (loPart 0 g)).isSome then 1 else 0) + (if (nonEmpty (hiPart 0 g)).isSome then 2 else 0)

def leafBits (w : Nat) : List Bool := [w.testBit 0, w.testBit 1]

theorem leafBits_lfFlat (g : Group) : leafBits (lfFlat g.2) = bitsG 0 g := by
  rw [leafBits, lfFlat, bitsG, loG, hiG]
  cases nonEmpty (loPart 0 g.2) <;> cases nonEmpty (hiPart 0 g.2) <;> simp <;> decide

theorem leafBits_trees (G : List Group) : (leaves 0 (trees 1 lfFlat 0 G)).flatMap leafBits = bitsAll 0 G := by
  induction G with
  | nil => rfl
  | cons g G ih =>
    rw [bitsAll_cons, ← ih, ← leafBits_lfFlat]
    simp [leaves, trees, mkTr]

theorem flat_run {set : List Nat} {h : Nat} (hlen : set.length < 2 ^ 64) :
    ∀ (d ℓ : Nat) (G : List Group) (W : BV) (m M f NL : Nat), ℓ + d + 1 = h → G ≠ [] → (∀ g ∈ G, At set g) →
    G.length * (2 ^ (d + 1) - 1) ≤ f → 2 * G.length * (2 ^ d - 1) ≤ m → G.length * 2 ^ (d + 1) ≤ M →
    ∃ s, flatLoop set h f
      { q := G.map ent, level := ℓ, nodesCurr := G.length, count := 0, nodesNext := 0,
        index := if d = 0 then 0 else W.length, total := W.length,
        nodesLast := if d = 0 then NL else 0, bTrie := W ++ List.replicate m false, lastLevel := List.replicate M false } = .ok s ∧
      ∃ m' M', s.bTrie = W ++ flatBits d (trees 1 lfFlat d G) ++ List.replicate m' false ∧
      s.lastLevel = (leaves d (trees 1 lfFlat d G)).flatMap leafBits ++ List.replicate M' false ∧
      s.total = s.bTrie.length - m' + (s.lastLevel.length - M') ∧
      s.nodesLast = if d = 0 then NL else (leaves d (trees 1 lfFlat d G)).length := by
  intro d
  induction d with
  | zero =>
    intro ℓ G W m M f NL hℓ hG hat hf hm hM
    obtain ⟨s, e, h1, h2, h3, h4⟩ := flat_lastlevel (ℓ := ℓ) (B := W ++ List.replicate m false) (T := W.length) (NL := NL) hlen (by omega) G [] [] (M - 2 * G.length)
      (f - G.length) hG hat
    rw [show h - ℓ - 1 = 0 by omega] at e h1 h4
    simp only [splitAll, List.flatMap_nil, List.map_nil, List.append_nil, List.length_nil, Nat.zero_add, Nat.add_zero,
      List.nil_append, show f - G.length + G.length = f by omega,
      show M - 2 * G.length + 2 * G.length = M by omega] at e h1 h4
    refine ⟨s, by simpa using e, m, M - 2 * G.length, ?_, ?_, ?_, ?_⟩
    · rw [h3]; simp [flatBits]
    · rw [h4, leafBits_trees]
    · rw [h1, h3, h4]; simp
    · simp [h2]
  | succ d ih =>
    intro ℓ G W m M f NL hℓ hG hat hf hm hM
    have hpos : 0 < G.length := List.length_pos_iff.2 hG
    have hk : h - ℓ - 1 = d + 1 := by omega
    obtain ⟨X, hX⟩ : ∃ X, 2 ^ d = X + 1 := ⟨2 ^ d - 1, by have := Nat.two_pow_pos d; omega⟩
    have hp2 : 2 ^ (d + 1) = 2 * X + 2 := by rw [Nat.pow_succ]; omega
    have hp1 : 2 ^ (d + 1 + 1) = 4 * X + 4 := by rw [Nat.pow_succ]; omega
    rw [hp1, show 4 * X + 4 - 1 = 4 * X + 3 by omega] at hf
    rw [hp2, show 2 * X + 2 - 1 = 2 * X + 1 by omega] at hm
    rw [hp1] at hM
    have hsl := length_splitAll_le (d + 1) G
    have hsl2 : (splitAll (d + 1) G).length * X ≤ 2 * G.length * X := Nat.mul_le_mul_right _ hsl
    have e1 : G.length * (4 * X + 3) = 4 * (G.length * X) + 3 * G.length := by ring
    have e2 : 2 * G.length * (2 * X + 1) = 4 * (G.length * X) + 2 * G.length := by ring
    have e3 : 2 * G.length * X = 2 * (G.length * X) := by ring
    have e4 : (splitAll (d + 1) G).length * (2 ^ (d + 1) - 1) =
        2 * ((splitAll (d + 1) G).length * X) + (splitAll (d + 1) G).length := by
      rw [hp2, show 2 * X + 2 - 1 = 2 * X + 1 by omega]; ring
    have e5 : 2 * (splitAll (d + 1) G).length * (2 ^ d - 1) = 2 * ((splitAll (d + 1) G).length * X) := by
      rw [hX, Nat.add_sub_cancel]; ring
    have e6 : (splitAll (d + 1) G).length * 2 ^ (d + 1) =
        2 * ((splitAll (d + 1) G).length * X) + 2 * (splitAll (d + 1) G).length := by
      rw [hp2]; ring
    have e7 : G.length * (4 * X + 4) = 4 * (G.length * X) + 4 * G.length := by ring
    have hlv := flat_level (set := set) (h := h) (ℓ := ℓ) (LL := List.replicate M false) hlen (by omega) G [] W
      (m - 2 * G.length) (f - G.length) hG hat
    rw [hk] at hlv
    obtain ⟨s, e, m', M', h1, h2, h3, h4⟩ := ih (ℓ + 1) (splitAll (d + 1) G) (W ++ bitsAll (d + 1) G) (m - 2 * G.length) M
      (f - G.length) (splitAll (d + 1) G).length (by omega) (splitAll_ne_nil hat hG) (At.splitAll hat)
      (by omega) (by omega) (by omega)
    refine ⟨s, ?_, m', M', ?_, ?_, h3, ?_⟩
    · simp only [List.nil_append, splitAll, List.flatMap_nil, List.map_nil, List.append_nil, List.length_nil, Nat.zero_add,
        show f - G.length + G.length = f by omega,
        show m - 2 * G.length + 2 * G.length = m by omega] at hlv e ⊢
      simp only [Nat.add_eq_zero_iff, one_ne_zero, and_false, if_false]
      rw [hlv, ← e]
      have : (ℓ + 2 = h) = (d = 0) := by apply propext; omega
      simp only [this]
    · rw [h1, flatBits, bitsOf_trees, kids_trees]; simp
    · rw [h2, leaves, kids_trees]
    · rw [h4, leaves, kids_trees]
      by_cases hd : d = 0
      · subst hd; simp [leaves, trees]
      · simp [hd]

end CBT
