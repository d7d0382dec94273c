import Verif.Proof.LevelRep

/-!
# The fast trie built from a set represents the set
-/

namespace CBT

theorem fastChild_ok {s : FastSt} {W : BV} {m : Nat} (c : Option (Nat × Nat × Nat))
    (hb : s.bTrie = W ++ List.replicate (m + 1) false) (hi : s.index = W.length) :
    fastChild s c = .ok { s with
      q := s.q ++ c.toList, nodesNext := s.nodesNext + c.toList.length, index := s.index + 1,
      bTrie := W ++ [c.isSome] ++ List.replicate m false } := by
  cases c with
  | none => simp [fastChild, hb, replicate_next]
  | some c => simp [fastChild, hb, hi, bvSet_next]

theorem fastStep_inner {lg : Nat} {set : List Nat} {height hu : Nat} {s : FastSt} {W : BV} {m : Nat} {g : Group}
    {q : List (Nat × Nat × Nat)} (hat : At set g) (hlen : set.length < 2 ^ 64) (hl : s.level + 1 ≠ height) (hu' : s.level < hu)
    (hb : s.bTrie = W ++ List.replicate (m + 2) false) (hi : s.index = W.length) :
    fastStep lg set height hu s g.1 (g.1 + g.2.length - 1) q =
      (let s := fastLevelEnd { s with
          q := q ++ (splitG (hu - s.level - 1) g).map ent,
          count := s.count + 1, nodesNext := s.nodesNext + (splitG (hu - s.level - 1) g).length,
          index := s.index + 2,
          bTrie := W ++ bitsG (hu - s.level - 1) g ++ List.replicate m false }
       .ok (s, decide (s.level = height))) := by
  obtain ⟨left, right, e, e1, e2⟩ := scan_group (hu - s.level - 1) hat hlen
  rw [fastStep]
  simp only [hl, if_false, show ¬ hu ≤ s.level by omega, e, R_bind_ok, e1, e2]
  rw [fastChild_ok (W := W) (m := m + 1) _ (by exact hb) (by exact hi)]
  simp only [R_bind_ok]
  rw [fastChild_ok (W := W ++ [((loG (hu - s.level - 1) g).map ent).isSome]) (m := m) _ rfl (by simp [hi])]
  simp only [R_bind_ok]
  rw [List.append_assoc, toList_map_append, Nat.add_assoc s.nodesNext, toList_map_length]
  simp [bitsG]

/-- The word of a group. -/
def lfAcc (lg : Nat) (w : Nat) (g : List Nat) : Nat := g.foldl (fun w x => w ||| (1 <<< (x &&& ((1 <<< lg) - 1)))) w
def lfFast (lg : Nat) (g : List Nat) : Nat := lfAcc lg 0 g

theorem fastWord_ok {lg : Nat} : ∀ (g P Q : List Nat) (w : Nat),
    fastWord lg (P ++ g ++ Q) g.length P.length w = .ok (lfAcc lg w g)
  | [], P, Q, w => rfl
  | x :: g, P, Q, w => by
    have e : P ++ x :: g ++ Q = P ++ x :: (g ++ Q) := by simp
    rw [List.length_cons, fastWord, e, vGet_append]
    simp only [R_bind_ok]
    have := fastWord_ok (lg := lg) g (P ++ [x]) Q (w ||| (1 <<< (x &&& ((1 <<< lg) - 1))))
    rw [show P ++ [x] ++ g ++ Q = P ++ x :: (g ++ Q) by simp] at this
    simp only [List.length_append, List.length_singleton] at this
    rw [this]; rfl

theorem fastWord_group {lg : Nat} {set : List Nat} {g : Group} (h : At set g) (hlen : set.length < 2 ^ 64) :
    fastWord lg set ((g.1 + g.2.length - 1 + 1) % 2 ^ 64 - g.1) g.1 0 = .ok (lfFast lg g.2) := by
  obtain ⟨hne, P, Q, e, hl⟩ := h
  have hpos : 0 < g.2.length := List.length_pos_iff.2 hne
  have hsz : set.length = P.length + g.2.length + Q.length := by rw [e]; simp; omega
  rw [show (g.1 + g.2.length - 1 + 1) % 2 ^ 64 - g.1 = g.2.length by rw [Nat.mod_eq_of_lt (by omega)]; omega, e, ← hl]
  exact fastWord_ok g.2 P Q 0

theorem fastLevelEnd_pos {s : FastSt} (hc : s.count = s.nodesCurr) :
    fastLevelEnd s = { s with nodesCurr := s.nodesNext, nodesNext := 0, count := 0, level := s.level + 1 } := by
  rw [fastLevelEnd, if_pos hc]

theorem fastLevelEnd_neg {s : FastSt} (hc : s.count ≠ s.nodesCurr) : fastLevelEnd s = s := by
  rw [fastLevelEnd, if_neg hc]

/-- A whole inner level. -/
theorem fast_level {lg : Nat} {set : List Nat} {height hu ℓ : Nat} (hlen : set.length < 2 ^ 64) (hℓ : ℓ + 1 < height) (hhu : ℓ < hu)
    {LL : List Nat} :
    ∀ (rest done : List Group) (W : BV) (m f : Nat), rest ≠ [] → (∀ g ∈ rest, At set g) →
    fastLoop lg set height hu (f + rest.length)
      { q := rest.map ent ++ (splitAll (hu - ℓ - 1) done).map ent, level := ℓ, nodesCurr := done.length + rest.length,
        count := done.length, nodesNext := (splitAll (hu - ℓ - 1) done).length, index := W.length,
        bTrie := W ++ List.replicate (m + 2 * rest.length) false, lastLevel := LL } =
    fastLoop lg set height hu f
      { q := (splitAll (hu - ℓ - 1) (done ++ rest)).map ent, level := ℓ + 1,
        nodesCurr := (splitAll (hu - ℓ - 1) (done ++ rest)).length, count := 0, nodesNext := 0,
        index := (W ++ bitsAll (hu - ℓ - 1) rest).length,
        bTrie := W ++ bitsAll (hu - ℓ - 1) rest ++ List.replicate m false, lastLevel := LL } := by
  intro rest
  induction rest with
  | nil => intro _ _ _ _ h; exact absurd rfl h
  | cons g rest ih =>
    intro done W m f _ hat
    rw [List.length_cons, ← Nat.add_assoc, fastLoop]
    simp only [List.map_cons, List.cons_append, ent]
    rw [fastStep_inner (W := W) (m := m + 2 * rest.length) (hat g (by simp)) hlen (by simp; omega) (by simp; omega)
      (by rw [show m + 2 * (rest.length + 1) = m + 2 * rest.length + 2 by omega]) rfl]
    simp only [R_bind_ok]
    by_cases hr : rest = []
    · subst hr
      rw [fastLevelEnd_pos (by simp)]
      have h3 : ¬ ℓ + 1 = height := by omega
      simp [h3, splitAll_snoc, bitsAll, bitsG]
    · rw [fastLevelEnd_neg (by simp [hr])]
      have h3 : ¬ ℓ = height := by omega
      simp only [h3, if_false, decide_false, Bool.false_eq_true]
      have := ih (done ++ [g]) (W ++ bitsG (hu - ℓ - 1) g) m f hr (fun g' hg' => hat g' (by simp [hg']))
      simp only [splitAll_append, splitAll_nil, splitAll_cons, bitsAll_cons, bitsG, List.map_append, List.length_append,
        List.append_assoc, List.length_cons, List.length_nil, List.append_nil, Nat.zero_add, Nat.add_assoc, Nat.reduceAdd] at this ⊢
      rw [show done.length + (1 + rest.length) = done.length + (rest.length + 1) by omega] at this
      exact this

/-- The level of words. -/
theorem fast_lastlevel {lg : Nat} {set : List Nat} {height hu ℓ : Nat} (hlen : set.length < 2 ^ 64) (hℓ : ℓ + 1 = height)
    {B : BV} {I N : Nat} :
    ∀ (rest : List Group) (c : Nat) (LL : List Nat) (f : Nat), rest ≠ [] → (∀ g ∈ rest, At set g) →
    ∃ s, fastLoop lg set height hu (f + rest.length)
      { q := rest.map ent, level := ℓ, nodesCurr := c + rest.length, count := c, nodesNext := N, index := I,
        bTrie := B, lastLevel := LL } = .ok s ∧
      s.bTrie = B ∧ s.index = I ∧ s.lastLevel = LL ++ rest.map fun g => lfFast lg g.2 := by
  intro rest
  induction rest with
  | nil => intro _ _ _ h; exact absurd rfl h
  | cons g rest ih =>
    intro c LL f _ hat
    rw [List.length_cons, ← Nat.add_assoc, fastLoop]
    simp only [List.map_cons, ent, fastStep, hℓ, if_true, fastWord_group (hat g (by simp)) hlen, R_bind_ok]
    have h3 : ¬ ℓ = height := by omega
    by_cases hr : rest = []
    · subst hr
      simp
    · have h4 : ¬ c + 1 = c + (rest.length + 1) := by simp [hr]
      simp only [h3, h4, decide_false, Bool.or_self, Bool.false_eq_true, if_false]
      obtain ⟨s, e, h5, h6, h7⟩ := ih (c + 1) (LL ++ [lfFast lg g.2]) f hr (fun g' hg' => hat g' (by simp [hg']))
      rw [show c + 1 + rest.length = c + (rest.length + 1) by omega] at e
      exact ⟨s, e, h5, h6, by rw [h7]; simp⟩

theorem fast_run {lg : Nat} {set : List Nat} {height hu : Nat} (hlen : set.length < 2 ^ 64) (hhu : hu + 1 = height + lg) :
    ∀ (d ℓ : Nat) (G : List Group) (W : BV) (m f : Nat), ℓ + d + 1 = height → G ≠ [] → (∀ g ∈ G, At set g) →
    G.length * (2 ^ (d + 1) - 1) ≤ f → 2 * G.length * (2 ^ d - 1) ≤ m →
    ∃ s, fastLoop lg set height hu f
      { q := G.map ent, level := ℓ, nodesCurr := G.length, count := 0, nodesNext := 0,
        index := W.length, bTrie := W ++ List.replicate m false, lastLevel := [] } = .ok s ∧
      ∃ m', s.bTrie = W ++ flatBits d (trees lg (lfFast lg) d G) ++ List.replicate m' false ∧
      s.lastLevel = leaves d (trees lg (lfFast lg) d G) ∧
      s.index = (W ++ flatBits d (trees lg (lfFast lg) d G)).length := by
  intro d
  induction d with
  | zero =>
    intro ℓ G W m f hℓ hG hat hf hm
    obtain ⟨s, e, h1, h2, h3⟩ := fast_lastlevel (lg := lg) (hu := hu) (ℓ := ℓ) (B := W ++ List.replicate m false) (I := W.length) (N := 0)
      hlen (by omega) G 0 [] (f - G.length) hG hat
    simp only [Nat.zero_add, List.nil_append, show f - G.length + G.length = f by simp at hf; omega] at e h3
    refine ⟨s, e, m, ?_, ?_, ?_⟩
    · rw [h1]; simp [flatBits]
    · rw [h3]; simp [leaves, trees, mkTr]
    · rw [h2]; simp [flatBits]
  | succ d ih =>
    intro ℓ G W m f hℓ hG hat hf hm
    have hk : hu - ℓ - 1 = d + lg := by omega
    obtain ⟨X, hX⟩ : ∃ X, 2 ^ d = X + 1 := ⟨2 ^ d - 1, by have := Nat.two_pow_pos d; omega⟩
    have hp2 : 2 ^ (d + 1) = 2 * X + 2 := by rw [Nat.pow_succ]; omega
    have hp1 : 2 ^ (d + 1 + 1) = 4 * X + 4 := by rw [Nat.pow_succ]; omega
    rw [hp1, show 4 * X + 4 - 1 = 4 * X + 3 by omega] at hf
    rw [hp2, show 2 * X + 2 - 1 = 2 * X + 1 by omega] at hm
    have hsl := length_splitAll_le (d + lg) G
    have hsl2 : (splitAll (d + lg) G).length * X ≤ 2 * G.length * X := Nat.mul_le_mul_right _ hsl
    have e1 : G.length * (4 * X + 3) = 4 * (G.length * X) + 3 * G.length := by ring
    have e2 : 2 * G.length * (2 * X + 1) = 4 * (G.length * X) + 2 * G.length := by ring
    have e3 : 2 * G.length * X = 2 * (G.length * X) := by ring
    have e4 : (splitAll (d + lg) G).length * (2 ^ (d + 1) - 1) =
        2 * ((splitAll (d + lg) G).length * X) + (splitAll (d + lg) G).length := by
      rw [hp2, show 2 * X + 2 - 1 = 2 * X + 1 by omega]; ring
    have e5 : 2 * (splitAll (d + lg) G).length * (2 ^ d - 1) = 2 * ((splitAll (d + lg) G).length * X) := by
      rw [hX, Nat.add_sub_cancel]; ring
    have hlv := fast_level (lg := lg) (set := set) (height := height) (hu := hu) (ℓ := ℓ) (LL := []) hlen (by omega) (by omega) G [] W
      (m - 2 * G.length) (f - G.length) hG hat
    rw [hk] at hlv
    obtain ⟨s, e, m', h1, h2, h3⟩ := ih (ℓ + 1) (splitAll (d + lg) G) (W ++ bitsAll (d + lg) G) (m - 2 * G.length)
      (f - G.length) (by omega) (splitAll_ne_nil hat hG) (At.splitAll hat)
      (by omega) (by omega)
    refine ⟨s, ?_, m', ?_, ?_, ?_⟩
    · simp only [splitAll_nil, List.map_nil, List.append_nil, List.length_nil, Nat.zero_add, List.nil_append,
        show f - G.length + G.length = f by omega,
        show m - 2 * G.length + 2 * G.length = m by omega] at hlv
      rw [hlv, ← e]
    · rw [h1, flatBits, bitsOf_trees, kids_trees]; simp
    · rw [h2, leaves, kids_trees]
    · rw [h3, flatBits, bitsOf_trees, kids_trees]; simp

def fastTree (lg d : Nat) (S : List Nat) : Tr d := mkTr lg (lfFast lg) d S

/-- What the two-argument constructor builds. -/
theorem fastCtor_ok {lg : Nat} {junk : FastJunk} {S : List Nat} {u d : Nat} (hS : S ≠ []) (hlen : S.length < 2 ^ 32) (hu : 2 ≤ u)
    (hd : Nat.log2 (u - 1) + 1 = d + lg) (hd62 : d + lg ≤ 62) (hlg : 1 ≤ lg) :
    fastCtor lg junk S u = .ok {
      height := d + 1, heightWithRuns := junk.heightWithRuns, heightU := d + lg, runsEncoded := false, emptyTrie := junk.emptyTrie,
      bTrie := flatBits d [fastTree lg d S], lastLevel := leaves d [fastTree lg d S] } := by
  have hpos : 0 < S.length := List.length_pos_iff.2 hS
  have hp : 2 ^ (d + 1) ≤ 2 ^ (d + lg) := Nat.pow_le_pow_right (by omega) (by omega)
  have hp' : 2 ^ (d + 1) = 2 * 2 ^ d := by rw [Nat.pow_succ]; omega
  obtain ⟨s, e, m', h1, h2, h3⟩ := fast_run (lg := lg) (set := S) (height := d + 1) (hu := d + lg) (by omega) (by omega) d 0 [(0, S)] []
    (2 * (2 ^ (d + lg) - 1)) (2 ^ (d + lg)) (by omega) (by simp)
    (by intro g hg; simp at hg; subst hg; exact ⟨hS, [], [], by simp, rfl⟩)
    (by simp; omega) (by simp; omega)
  have e1 : (S.length + 2 ^ 32 - 1) % 2 ^ 32 = 0 + S.length - 1 := by
    rw [show S.length + 2 ^ 32 - 1 = (S.length - 1) + 2 ^ 32 by omega, Nat.add_mod_right, Nat.mod_eq_of_lt (by omega)]; omega
  simp only [List.map_cons, List.map_nil, ent, List.length_cons, List.length_nil, List.nil_append, Nat.zero_add] at e
  rw [fastCtor, heightOf_ok hu, hd, Nat.mod_eq_of_lt hlen, e1]
  have h4 : ¬ d + lg + 1 < lg := by omega
  have h5 : d + lg + 1 - lg = d + 1 := by omega
  simp only [R_bind_ok, maxNodes, h4, h5, hd62, if_true, if_false, Nat.zero_add, e]
  simp only [trees, List.map_cons, List.map_nil, List.nil_append] at h1 h2 h3
  rw [h3, h1, h2, bvResize_prefix]; rfl

/-- A fast trie whose vectors hold the level-order bits and the words of `T` represents `T`. -/
theorem fast_rep {lg : Nat} {t : FastTrie} {d pad : Nat} {T : Tr d} (hh : t.height = d + 1)
    (hb : t.bTrie = flatBits d [T]) (hl : t.lastLevel = leaves d [T]) (hnz : NZ lg d T) :
    Rep (t.nav pad).toNav (leafW lg (t.nav pad)) d 0 T 0 := by
  have hget : ∀ id ℓ b0 b1, ℓ < d → t.bTrie[2 * id]? = some b0 → t.bTrie[2 * id + 1]? = some b1 →
      (t.nav pad).getNode id ℓ = .ok (node2 b0 b1) := by
    intro id ℓ b0 b1 hℓ h0 h1
    show t.getNode pad id ℓ = _
    rw [FastTrie.getNode, bvGet_some h0, bvGet_some h1]
    rfl
  have hleft : ∀ id ℓ, ℓ < d → t.bTrie[2 * id]? = some true →
      (t.nav pad).getLeftChild id ℓ = .ok ((t.bTrie.take (2 * id + 1)).count true) := by
    intro id ℓ hℓ h0
    have : 2 * id < t.bTrie.length := by
      by_contra hc; rw [List.getElem?_eq_none (by omega)] at h0; simp at h0
    show t.getLeftChild id ℓ = _
    rw [FastTrie.getLeftChild, if_neg (by omega)]
    exact rank1_ok (by omega)
  have hright : ∀ id ℓ, ℓ < d → t.bTrie[2 * id + 1]? = some true →
      (t.nav pad).getRightChild id ℓ = .ok ((t.bTrie.take (2 * id + 2)).count true) := by
    intro id ℓ hℓ h0
    have : 2 * id + 1 < t.bTrie.length := by
      by_contra hc; rw [List.getElem?_eq_none (by omega)] at h0; simp at h0
    show t.getRightChild id ℓ = _
    rw [FastTrie.getRightChild, if_neg (by omega)]
    exact rank1_ok (by omega)
  refine rep_flat hget hleft hright d 0 [T] [] 0 (by omega) (by simp [hb]) rfl rfl ?_ 0 T rfl
  intro i w hw
  refine ⟨NZ_leaves d [T] (by simpa using hnz) w (List.mem_of_getElem? hw), ?_⟩
  show t.getWord _ = _
  rw [FastTrie.getWord, if_neg (by omega), Nat.add_sub_cancel_left, hl, vGet, hw]

theorem testBit_lfAcc {lg : Nat} : ∀ (g : List Nat) (w i : Nat),
    (lfAcc lg w g).testBit i = (w.testBit i || decide (∃ x ∈ g, x % 2 ^ lg = i))
  | [], w, i => by simp [lfAcc]
  | x :: g, w, i => by
    have := testBit_lfAcc (lg := lg) g (w ||| (1 <<< (x &&& ((1 <<< lg) - 1)))) i
    rw [lfAcc] at this ⊢
    rw [List.foldl_cons, this, Nat.one_shiftLeft, Nat.one_shiftLeft, Nat.and_two_pow_sub_one_eq_mod, Nat.testBit_or,
      Nat.testBit_two_pow, Bool.or_assoc]
    congr 1
    simp

theorem lfAcc_lt {lg : Nat} : ∀ (g : List Nat) (w : Nat), w < 2 ^ 2 ^ lg → lfAcc lg w g < 2 ^ 2 ^ lg
  | [], w, h => h
  | x :: g, w, h => by
    rw [lfAcc, List.foldl_cons]
    apply lfAcc_lt g
    apply Nat.or_lt_two_pow h
    rw [Nat.one_shiftLeft, Nat.one_shiftLeft, Nat.and_two_pow_sub_one_eq_mod]
    exact Nat.pow_lt_pow_right (by omega) (Nat.mod_lt _ (Nat.two_pow_pos lg))

theorem lfFast_leafFn (lg : Nat) : LeafFn lg (lfFast lg) := by
  intro p g hg
  refine ⟨lfAcc_lt g 0 (Nat.two_pow_pos _), fun x hx => ?_⟩
  rw [lfFast, testBit_lfAcc, Nat.zero_testBit, Bool.false_or, decide_eq_decide]
  have hmod : ∀ y < 2 ^ lg, (p + y) % 2 ^ lg = y := by
    intro y hy
    obtain ⟨q, rfl⟩ := hg.dvd
    rw [Nat.mul_add_mod, Nat.mod_eq_of_lt hy]
  constructor
  · rintro ⟨y, hy, e⟩
    obtain ⟨z, rfl⟩ := Nat.exists_eq_add_of_le (hg.mem y hy).1
    rw [hmod z (by have := (hg.mem _ hy).2; omega)] at e
    rwa [← e]
  · intro h; exact ⟨_, h, hmod x hx⟩

theorem fastTree_NE {lg : Nat} {S : List Nat} {d : Nat} (hS : S ≠ []) (hs : S.Pairwise (· < ·)) (hu : ∀ x ∈ S, x < 2 ^ (d + lg)) :
    NE lg d (fastTree lg d S) := NE_mkTr (lfFast_leafFn lg) (p := 0) (inBlock_zero hs hu) hS

theorem fastTree_enum {lg : Nat} {S : List Nat} {d : Nat} (hs : S.Pairwise (· < ·)) (hu : ∀ x ∈ S, x < 2 ^ (d + lg)) :
    enum (d + lg) (has lg d (fastTree lg d S)) 0 = S := enum_mkTr (lfFast_leafFn lg) (p := 0) (inBlock_zero hs hu)

theorem fastTree_has {lg : Nat} {S : List Nat} {d : Nat} (hs : S.Pairwise (· < ·)) (hu : ∀ x ∈ S, x < 2 ^ (d + lg)) :
    ∀ x < 2 ^ (d + lg), has lg d (fastTree lg d S) x = decide (x ∈ S) := by
  intro x hx
  rw [fastTree, has_mkTr (lfFast_leafFn lg) (p := 0) (inBlock_zero hs hu) x hx]; simp

end CBT
