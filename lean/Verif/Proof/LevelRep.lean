import Verif.Proof.FlatRep

/-!
# The level-wise trie built from a set represents the set
-/

namespace CBT

theorem levelChild_ok {s : LevelSt} {Ls Rs : List BV} {W : BV} {m : Nat} (c : Option (Nat × Nat × Nat))
    (hl : s.level = Ls.length) (hb : s.bTrie = Ls ++ (W ++ List.replicate (m + 1) false) :: Rs) (hi : s.index = W.length) :
    levelChild s c = .ok { s with
      q := s.q ++ c.toList, nodesNext := s.nodesNext + c.toList.length, index := s.index + 1,
      bTrie := Ls ++ (W ++ [c.isSome] ++ List.replicate m false) :: Rs } := by
  cases c with
  | none => simp [levelChild, hb, replicate_next]
  | some c => simp [levelChild, hb, hl, hi, vGet_append, bvSet_next]

theorem levelStep_ok {set : List Nat} {h : Nat} {s : LevelSt} {Ls Rs : List BV} {W : BV} {m : Nat} {g : Group} {q : List (Nat × Nat × Nat)}
    (hat : At set g) (hlen : set.length < 2 ^ 64) (hl : s.level = Ls.length)
    (hb : s.bTrie = Ls ++ (W ++ List.replicate (m + 2) false) :: Rs) (hi : s.index = W.length) :
    levelStep set h s g.1 (g.1 + g.2.length - 1) q = levelLevelEnd { s with
      q := q ++ (splitG (h - s.level - 1) g).map ent,
      count := s.count + 1, nodesNext := s.nodesNext + (splitG (h - s.level - 1) g).length,
      index := s.index + 2,
      bTrie := Ls ++ (W ++ bitsG (h - s.level - 1) g ++ List.replicate m false) :: Rs } := by
  obtain ⟨left, right, e, e1, e2⟩ := scan_group (h - s.level - 1) hat hlen
  rw [levelStep]
  simp only [e, R_bind_ok, e1, e2]
  rw [levelChild_ok (W := W) (m := m + 1) _ (by exact hl) (by exact hb) (by exact hi)]
  simp only [R_bind_ok]
  rw [levelChild_ok (W := W ++ [((loG (h - s.level - 1) g).map ent).isSome]) (m := m) (Ls := Ls) (Rs := Rs) _ (by exact hl) rfl
    (by simp [hi])]
  simp only [R_bind_ok]
  rw [List.append_assoc, toList_map_append, Nat.add_assoc s.nodesNext, toList_map_length]
  simp [bitsG]

theorem levelLevelEnd_pos {s : LevelSt} {Ls Rs : List BV} {W : BV} {m : Nat} (hc : s.count = s.nodesCurr) (hl : s.level = Ls.length)
    (hb : s.bTrie = Ls ++ (W ++ List.replicate m false) :: Rs) (hW : W.length = 2 * s.count) :
    levelLevelEnd s = .ok { s with
      bTrie := Ls ++ W :: Rs, nodesCurr := s.nodesNext, nodesNext := 0, count := 0, index := 0, level := s.level + 1 } := by
  rw [levelLevelEnd, if_pos hc, hb, hl, vGet_append, ← hW]
  simp [bvResize_prefix]

/-- A whole level. -/
theorem level_level {set : List Nat} {h ℓ : Nat} (hlen : set.length < 2 ^ 64) (hℓ : ℓ < h) {Ls Rs : List BV} (hLs : Ls.length = ℓ) :
    ∀ (rest done : List Group) (W : BV) (m f : Nat), rest ≠ [] → (∀ g ∈ rest, At set g) → W.length = 2 * done.length →
    levelLoop set h (f + rest.length)
      { q := rest.map ent ++ (splitAll (h - ℓ - 1) done).map ent, level := ℓ, nodesCurr := done.length + rest.length,
        count := done.length, nodesNext := (splitAll (h - ℓ - 1) done).length, index := W.length,
        bTrie := Ls ++ (W ++ List.replicate (m + 2 * rest.length) false) :: Rs } =
    (let s : LevelSt :=
      { q := (splitAll (h - ℓ - 1) (done ++ rest)).map ent, level := ℓ + 1,
        nodesCurr := (splitAll (h - ℓ - 1) (done ++ rest)).length, count := 0, nodesNext := 0,
        index := 0, bTrie := Ls ++ (W ++ bitsAll (h - ℓ - 1) rest) :: Rs }
     if ℓ + 1 = h then .ok s else levelLoop set h f s) := by
  intro rest
  induction rest with
  | nil => intro _ _ _ _ h; exact absurd rfl h
  | cons g rest ih =>
    intro done W m f _ hat hW
    rw [List.length_cons, ← Nat.add_assoc, levelLoop]
    simp only [List.map_cons, List.cons_append, ent]
    rw [levelStep_ok (W := W) (Ls := Ls) (Rs := Rs) (m := m + 2 * rest.length) (hat g (by simp)) hlen (by simp [hLs])
      (by rw [show m + 2 * (rest.length + 1) = m + 2 * rest.length + 2 by omega]) rfl]
    by_cases hr : rest = []
    · subst hr
      rw [levelLevelEnd_pos (Ls := Ls) (Rs := Rs) (W := W ++ bitsG (h - ℓ - 1) g) (m := m) (by simp) (by simp [hLs]) (by simp)
        (by simp [bitsG, hW]; omega)]
      simp [splitAll_snoc, bitsAll, bitsG]
    · rw [levelLevelEnd, if_neg (by simp [hr])]
      simp only [R_bind_ok]
      have h3 : ¬ ℓ = h := by omega
      simp only [h3, if_false]
      have := ih (done ++ [g]) (W ++ bitsG (h - ℓ - 1) g) m f hr (fun g' hg' => hat g' (by simp [hg']))
        (by simp [bitsG, hW]; omega)
      simp only [splitAll_append, splitAll_nil, splitAll_cons, bitsAll_cons, bitsG, List.map_append, List.length_append,
        List.append_assoc, List.length_cons, List.length_nil, List.append_nil, Nat.zero_add, Nat.add_assoc, Nat.reduceAdd] at this ⊢
      rw [show done.length + (1 + rest.length) = done.length + (rest.length + 1) by omega] at this
      exact this

/-- Fresh levels. -/
def zeroLevels (ℓ n : Nat) : List BV := (List.range' ℓ n).map fun l => List.replicate (2 * 2 ^ l) false

theorem zeroLevels_succ (ℓ n : Nat) : zeroLevels ℓ (n + 1) = List.replicate (2 * 2 ^ ℓ) false :: zeroLevels (ℓ + 1) n := by
  simp [zeroLevels, List.range'_succ]

theorem level_run {set : List Nat} {h : Nat} (hlen : set.length < 2 ^ 64) :
    ∀ (d ℓ : Nat) (G : List Group) (Ls : List BV) (f : Nat), ℓ + d + 1 = h → G ≠ [] → (∀ g ∈ G, At set g) → Ls.length = ℓ →
    G.length * (2 ^ (d + 1) - 1) ≤ f → G.length ≤ 2 ^ ℓ →
    ∃ s, levelLoop set h f
      { q := G.map ent, level := ℓ, nodesCurr := G.length, count := 0, nodesNext := 0, index := 0,
        bTrie := Ls ++ zeroLevels ℓ (d + 1) } = .ok s ∧
      s.bTrie = Ls ++ nodeLevels d (trees 1 lfFlat d G) ++ [(leaves d (trees 1 lfFlat d G)).flatMap leafBits] := by
  intro d
  induction d with
  | zero =>
    intro ℓ G Ls f hℓ hG hat hLs hf hle
    have hlv := level_level (set := set) (h := h) (Ls := Ls) (Rs := []) hlen (by omega) hLs G [] [] (2 * 2 ^ ℓ - 2 * G.length)
      (f - G.length) hG hat rfl
    rw [show h - ℓ - 1 = 0 by omega] at hlv
    simp only [splitAll_nil, List.map_nil, List.append_nil, List.length_nil, Nat.zero_add,
      List.nil_append, show f - G.length + G.length = f by simp at hf; omega,
      show 2 * 2 ^ ℓ - 2 * G.length + 2 * G.length = 2 * 2 ^ ℓ by omega, show ℓ + 1 = h by omega, if_true] at hlv
    refine ⟨_, by simpa [zeroLevels] using hlv, ?_⟩
    simp [nodeLevels, leafBits_trees]
  | succ d ih =>
    intro ℓ G Ls f hℓ hG hat hLs hf hle
    have hk : h - ℓ - 1 = d + 1 := by omega
    obtain ⟨X, hX⟩ : ∃ X, 2 ^ (d + 1) = X + 1 := ⟨2 ^ (d + 1) - 1, by have := Nat.two_pow_pos (d + 1); omega⟩
    have hp1 : 2 ^ (d + 1 + 1) = 2 * X + 2 := by rw [Nat.pow_succ]; omega
    rw [hp1, show 2 * X + 2 - 1 = 2 * X + 1 by omega] at hf
    have hsl := length_splitAll_le (d + 1) G
    have hsl2 : (splitAll (d + 1) G).length * X ≤ 2 * G.length * X := Nat.mul_le_mul_right _ hsl
    have e1 : G.length * (2 * X + 1) = 2 * (G.length * X) + G.length := by ring
    have e3 : 2 * G.length * X = 2 * (G.length * X) := by ring
    have e4 : (splitAll (d + 1) G).length * (2 ^ (d + 1) - 1) = (splitAll (d + 1) G).length * X := by
      rw [hX, Nat.add_sub_cancel]
    have e5 : 2 ^ (ℓ + 1) = 2 * 2 ^ ℓ := by rw [Nat.pow_succ]; omega
    have hlv := level_level (set := set) (h := h) (Ls := Ls) (Rs := zeroLevels (ℓ + 1) (d + 1)) hlen (by omega) hLs G [] []
      (2 * 2 ^ ℓ - 2 * G.length) (f - G.length) hG hat rfl
    rw [hk] at hlv
    obtain ⟨s, e, h1⟩ := ih (ℓ + 1) (splitAll (d + 1) G) (Ls ++ [bitsAll (d + 1) G]) (f - G.length) (by omega)
      (splitAll_ne_nil hat hG) (At.splitAll hat) (by simp [hLs]) (by omega) (by omega)
    refine ⟨s, ?_, ?_⟩
    · simp only [splitAll_nil, List.map_nil, List.append_nil, List.length_nil, Nat.zero_add,
        List.nil_append, show f - G.length + G.length = f by omega,
        show 2 * 2 ^ ℓ - 2 * G.length + 2 * G.length = 2 * 2 ^ ℓ by omega, show ¬ ℓ + 1 = h by omega, if_false] at hlv
      rw [zeroLevels_succ, hlv, ← e]
      simp
    · rw [h1, nodeLevels, bitsOf_trees, kids_trees, leaves, kids_trees]; simp

/-- What the two-argument constructor builds. -/
theorem levelCtor_ok {S : List Nat} {u d : Nat} (hS : S ≠ []) (hlen : S.length < 2 ^ 64) (hu : 2 ≤ u)
    (hd : Nat.log2 (u - 1) = d) (hd62 : d ≤ 62) :
    levelCtor S u = .ok {
      heightWithRuns := 0, runsEncoded := false, emptyTrie := false,
      bTrie := nodeLevels d [flatTree d S] ++ [(leaves d [flatTree d S]).flatMap leafBits] } := by
  have hpos : 0 < S.length := List.length_pos_iff.2 hS
  obtain ⟨s, e, h1⟩ := level_run (set := S) (h := d + 1) hlen d 0 [(0, S)] [] (2 ^ (d + 1)) (by omega) (by simp)
    (by intro g hg; simp at hg; subst hg; exact ⟨hS, [], [], by simp, rfl⟩) rfl (by simp) (by simp)
  have e1 : (S.length + 2 ^ 64 - 1) % 2 ^ 64 = 0 + S.length - 1 := by
    rw [show S.length + 2 ^ 64 - 1 = (S.length - 1) + 2 ^ 64 by omega, Nat.add_mod_right, Nat.mod_eq_of_lt (by omega)]; omega
  simp only [List.map_cons, List.map_nil, ent, List.length_cons, List.length_nil, List.nil_append, Nat.zero_add, zeroLevels,
    ← List.range_eq_range'] at e
  rw [levelCtor, heightOf_ok hu, hd, e1]
  have : ¬ 63 < d + 1 := by omega
  simp only [R_bind_ok, this, if_false, Nat.zero_add, e]
  simp only [trees, List.map_cons, List.map_nil, List.nil_append] at h1
  rw [h1]; rfl

theorem length_kids_le {d : Nat} (f : List (Tr (d + 1))) : (kids f).length ≤ 2 * f.length := by
  rw [← count_bitsOf, ← length_bitsOf]
  exact List.count_le_length

theorem length_nodeLevels_le : (d : Nat) → (f : List (Tr d)) → ∀ v ∈ nodeLevels d f, v.length ≤ f.length * 2 ^ d
  | 0, _, v, hv => by simp [nodeLevels] at hv
  | d + 1, f, v, hv => by
    have hp := Nat.two_pow_pos d
    have h1 : f.length * 2 ^ (d + 1) = 2 * f.length * 2 ^ d := by rw [Nat.pow_succ]; ring
    rw [h1]
    rcases List.mem_cons.1 hv with rfl | hv
    · rw [length_bitsOf]; exact Nat.le_mul_of_pos_right _ hp
    · exact (length_nodeLevels_le d (kids f) v hv).trans (Nat.mul_le_mul_right _ (length_kids_le f))

theorem rank1_ok {v : BV} {i : Nat} (h : i ≤ v.length) : rank1 v i = .ok ((v.take i).count true) := by
  rw [rank1, if_pos h]

theorem take_succ_count {v : BV} {i : Nat} (h : v[i]? = some true) : (v.take (i + 1)).count true = (v.take i).count true + 1 := by
  rw [List.take_add_one, h]; simp

theorem wrap_pred {k : Nat} (h : k < 2 ^ 64) : (k + 1 + 2 ^ 64 - 1) % 2 ^ 64 = k := by
  rw [show k + 1 + 2 ^ 64 - 1 = k + 2 ^ 64 by omega, Nat.add_mod_right, Nat.mod_eq_of_lt h]

/-- Level-wise layout: the levels of `T`, the last one being leaf bits. -/
theorem level_rep {t : LevelTrie} {d pad : Nat} {il : Bool} {T : Tr d}
    (hb : t.bTrie = nodeLevels d [T] ++ [(leaves d [T]).flatMap leafBits]) (hd : d ≤ 62)
    (hnz : NZ 1 d T) : Rep (t.nav il pad) (leafF (t.nav il pad)) d 0 T 0 := by
  have hh : t.height = d + 1 := by rw [LevelTrie.height, hb]; simp [length_nodeLevels]
  have hlt : ∀ {ℓ v}, ℓ < d → t.bTrie[ℓ]? = some v → v.length < 2 ^ 64 := by
    intro ℓ v hℓ hv
    rw [hb, List.getElem?_append_left (by rw [length_nodeLevels]; exact hℓ)] at hv
    have := length_nodeLevels_le d [T] v (List.mem_of_getElem? hv)
    have h2 : 2 ^ d ≤ 2 ^ 62 := Nat.pow_le_pow_right (by omega) hd
    simp at this
    omega
  have hget : ∀ id ℓ v b0 b1, ℓ < d → t.bTrie[ℓ]? = some v → v[2 * id]? = some b0 → v[2 * id + 1]? = some b1 →
      (t.nav il pad).getNode id ℓ = .ok (node2 b0 b1) := by
    intro id ℓ v b0 b1 hℓ hv h0 h1
    show t.getNode pad id ℓ = _
    rw [LevelTrie.getNode, vGet, hv]
    simp only [R_bind_ok, bvGet_some h0, bvGet_some h1]
  have hleft : ∀ id ℓ v, ℓ < d → t.bTrie[ℓ]? = some v → v[2 * id]? = some true →
      (t.nav il pad).getLeftChild id ℓ = .ok ((v.take (2 * id)).count true) := by
    intro id ℓ v hℓ hv h0
    have hlen : 2 * id < v.length := by
      by_contra hc; rw [List.getElem?_eq_none (by omega)] at h0; simp at h0
    have hc : (v.take (2 * id)).count true ≤ v.length := List.count_le_length.trans (by simp)
    have := hlt hℓ hv
    cases il with
    | false =>
      show t.getLeftChild id ℓ = _
      rw [LevelTrie.getLeftChild, if_neg (by omega), vGet, hv]
      exact rank1_ok (by omega)
    | true =>
      show t.getLeftChildIl id ℓ = _
      rw [LevelTrie.getLeftChildIl, if_neg (by omega), vGet, hv]
      simp only [R_bind_ok, rank1_ok (show 2 * id + 1 ≤ v.length by omega), take_succ_count h0]
      rw [wrap_pred (by omega)]
  have hright : ∀ id ℓ v, ℓ < d → t.bTrie[ℓ]? = some v → v[2 * id + 1]? = some true →
      (t.nav il pad).getRightChild id ℓ = .ok ((v.take (2 * id + 1)).count true) := by
    intro id ℓ v hℓ hv h0
    have hlen : 2 * id + 1 < v.length := by
      by_contra hc; rw [List.getElem?_eq_none (by omega)] at h0; simp at h0
    have hc : (v.take (2 * id + 1)).count true ≤ v.length := List.count_le_length.trans (by simp)
    have := hlt hℓ hv
    cases il with
    | false =>
      show t.getRightChild id ℓ = _
      rw [LevelTrie.getRightChild, if_neg (by omega), vGet, hv]
      exact rank1_ok (by omega)
    | true =>
      show t.getRightChildIl id ℓ = _
      rw [LevelTrie.getRightChildIl, if_neg (by omega), vGet, hv]
      simp only [R_bind_ok, rank1_ok (show 2 * id + 1 + 1 ≤ v.length by omega), take_succ_count h0]
      rw [wrap_pred (by omega)]
  refine rep_level hget hleft hright d 0 [T] (by omega) ?_ ?_ 0 T rfl
  · rw [hb, List.drop_zero, List.take_append_of_le_length (by rw [length_nodeLevels]),
      List.take_of_length_le (by rw [length_nodeLevels])]
  · intro i w hw
    obtain ⟨g0, g1⟩ := getElem?_leafBits _ _ _ hw
    have hv : t.bTrie[d]? = some ((leaves d [T]).flatMap leafBits) := by
      rw [hb, List.getElem?_append_right (by rw [length_nodeLevels]), length_nodeLevels]; simp
    refine ⟨NZ_leaves d [T] (by simpa using hnz) w (List.mem_of_getElem? hw), ?_, ⟨0, ?_⟩, ⟨0, ?_⟩⟩
    · show t.getNode pad i d = _
      rw [LevelTrie.getNode, vGet, hv]
      simp only [R_bind_ok, bvGet_some g0, bvGet_some g1]
    · cases il
      · show t.getLeftChild i d = _
        rw [LevelTrie.getLeftChild, if_pos (by omega)]
      · show t.getLeftChildIl i d = _
        rw [LevelTrie.getLeftChildIl, if_pos (by omega)]
    · cases il
      · show t.getRightChild i d = _
        rw [LevelTrie.getRightChild, if_pos (by omega)]
      · show t.getRightChildIl i d = _
        rw [LevelTrie.getRightChildIl, if_pos (by omega)]

end CBT
