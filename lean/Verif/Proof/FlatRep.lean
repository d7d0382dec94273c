import Verif.Proof.BuildFlat

/-!
# The flat trie built from a set represents the set
-/

namespace CBT

theorem length_flatBits_even : (d : Nat) → (f : List (Tr d)) → ∃ k, (flatBits d f).length = 2 * k
  | 0, _ => ⟨0, rfl⟩
  | d + 1, f => by
    obtain ⟨k, hk⟩ := length_flatBits_even d (kids f)
    exact ⟨f.length + k, by rw [flatBits, List.length_append, length_bitsOf, hk]; omega⟩

theorem NZ_leaves {b : Nat} : (d : Nat) → (f : List (Tr d)) → (∀ t ∈ f, NZ b d t) → ∀ w ∈ leaves d f, 0 < w ∧ w < 2 ^ 2 ^ b
  | 0, f, h, w, hw => by
    obtain ⟨t, ht, rfl⟩ := List.mem_map.1 hw
    exact h t ht
  | d + 1, f, h, w, hw => by
    apply NZ_leaves d (kids f) _ w hw
    intro t ht
    obtain ⟨s, hs, ht⟩ := List.mem_flatMap.1 ht
    rcases List.mem_append.1 ht with ht | ht
    · exact (h s hs).1 t (by simpa using ht)
    · exact (h s hs).2 t (by simpa using ht)

theorem getElem?_leafBits : (ws : List Nat) → (i w : Nat) → ws[i]? = some w →
    (ws.flatMap leafBits)[2 * i]? = some (w.testBit 0) ∧ (ws.flatMap leafBits)[2 * i + 1]? = some (w.testBit 1)
  | [], i, w, h => by simp at h
  | a :: ws, 0, w, h => by
    simp at h; subst h; simp [leafBits]
  | a :: ws, i + 1, w, h => by
    have := getElem?_leafBits ws i w (by simpa using h)
    simp only [List.flatMap_cons, leafBits, List.cons_append, List.nil_append]
    rw [show 2 * (i + 1) = 2 * i + 1 + 1 by omega]
    simpa [leafBits] using this

theorem length_leafBits (ws : List Nat) : (ws.flatMap leafBits).length = 2 * ws.length := by
  induction ws with
  | nil => rfl
  | cons a ws ih => simp [leafBits] at ih ⊢; omega

theorem bvGet_some {pad : Nat} {v : BV} {i : Nat} {b : Bool} (h : v[i]? = some b) : bvGet pad v i = .ok b := by
  simp [bvGet, h]

/-- Reading a vector that lacks trailing zeros of the virtual one. -/
theorem bvGet_virtual {pad z : Nat} {v : BV} {i : Nat} {b : Bool} (hz : z ≤ pad)
    (h : (v ++ List.replicate z false)[i]? = some b) : bvGet pad v i = .ok b := by
  by_cases hi : i < v.length
  · rw [List.getElem?_append_left hi] at h
    exact bvGet_some h
  · rw [List.getElem?_append_right (by omega), List.getElem?_replicate] at h
    split at h
    · simp only [Option.some.injEq] at h
      subst h
      rw [bvGet, List.getElem?_eq_none (by omega)]
      simp; omega
    · simp at h

theorem virtual_true {z : Nat} {v : BV} {i : Nat} (h : (v ++ List.replicate z false)[i]? = some true) : i < v.length := by
  by_contra hi
  rw [List.getElem?_append_right (by omega), List.getElem?_replicate] at h
  split at h <;> simp at h

theorem rank1_virtual {z : Nat} {v : BV} {i : Nat} (hi : i ≤ v.length) :
    rank1 v i = .ok (((v ++ List.replicate z false).take i).count true) := by
  rw [rank1, if_pos hi, List.take_append_of_le_length hi]

/-- A flat trie whose vectors hold the level-order bits of `T`, possibly without the last `z` zeros, represents `T`. -/
theorem flat_rep {t : FlatTrie} {d pad z : Nat} {T : Tr d} (hh : t.height = d + 1)
    (hb : flatBits d [T] = t.bTrie ++ List.replicate z false) (hz : z ≤ pad)
    (hl : z = 0 → t.lastLevel = (leaves d [T]).flatMap leafBits) (hl' : z ≠ 0 → leaves d [T] = [])
    (hnz : NZ 1 d T) : Rep (t.nav pad) (leafF (t.nav pad)) d 0 T 0 := by
  have hget : ∀ id ℓ b0 b1, ℓ < d → (flatBits d [T])[2 * id]? = some b0 → (flatBits d [T])[2 * id + 1]? = some b1 →
      (t.nav pad).getNode id ℓ = .ok (node2 b0 b1) := by
    intro id ℓ b0 b1 hℓ h0 h1
    rw [hb] at h0 h1
    show t.getNode pad id ℓ = _
    rw [FlatTrie.getNode, if_pos (by omega), bvGet_virtual hz h0, bvGet_virtual hz h1]
    rfl
  have hleft : ∀ id ℓ, ℓ < d → (flatBits d [T])[2 * id]? = some true →
      (t.nav pad).getLeftChild id ℓ = .ok (((flatBits d [T]).take (2 * id + 1)).count true) := by
    intro id ℓ hℓ h0
    rw [hb] at h0 ⊢
    show t.getLeftChild id ℓ = _
    rw [FlatTrie.getLeftChild, if_neg (by omega)]
    exact rank1_virtual (virtual_true h0)
  have hright : ∀ id ℓ, ℓ < d → (flatBits d [T])[2 * id + 1]? = some true →
      (t.nav pad).getRightChild id ℓ = .ok (((flatBits d [T]).take (2 * id + 2)).count true) := by
    intro id ℓ hℓ h0
    rw [hb] at h0 ⊢
    show t.getRightChild id ℓ = _
    rw [FlatTrie.getRightChild, if_neg (by omega)]
    exact rank1_virtual (virtual_true h0)
  refine rep_flat hget hleft hright d 0 [T] [] 0 (by omega) (by simp) rfl rfl ?_ 0 T rfl
  intro i w hw
  have hmem : w ∈ leaves d [T] := List.mem_of_getElem? hw
  have hz0 : z = 0 := by
    by_contra hc; rw [hl' hc] at hmem; simp at hmem
  subst hz0
  obtain ⟨k, hk⟩ := length_flatBits_even d [T]
  rw [List.replicate_zero, List.append_nil] at hb
  obtain ⟨g0, g1⟩ := getElem?_leafBits _ _ _ hw
  rw [← hl rfl] at g0 g1
  refine ⟨NZ_leaves d [T] (by simpa using hnz) w hmem, ?_, ⟨0, ?_⟩, ⟨0, ?_⟩⟩
  · show t.getNode pad _ d = _
    rw [FlatTrie.getNode, if_neg (by omega), ← hb, hk, if_neg (by omega)]
    rw [show 2 * (2 * k / 2 + i) - 2 * k = 2 * i by omega, bvGet_some g0, bvGet_some g1]
    rfl
  · show t.getLeftChild _ d = _
    rw [FlatTrie.getLeftChild, if_pos (by omega)]
  · show t.getRightChild _ d = _
    rw [FlatTrie.getRightChild, if_pos (by omega)]

theorem nonEmpty_isSome {g : List Nat} : (nonEmpty g).isSome = true ↔ ∃ x, x ∈ g := by
  cases g with
  | nil => simp [nonEmpty]
  | cons a g => simp only [nonEmpty, List.isEmpty_cons]; exact ⟨fun _ => ⟨a, by simp⟩, fun _ => rfl⟩

theorem lfFlat_leafFn : LeafFn 1 lfFlat := by
  intro p g hg
  have hlo := InBlock.lo (k := 0) hg
  have hhi := InBlock.hi (k := 0) hg
  have h0 : (nonEmpty (loPart 0 g)).isSome = decide (p + 0 ∈ g) := by
    rw [Bool.eq_iff_iff, nonEmpty_isSome, decide_eq_true_iff]
    constructor
    · rintro ⟨x, hx⟩
      have := hlo.mem x hx
      have : x = p + 0 := by simp at this; omega
      rw [← this]; exact (mem_lo (k := 0) hg (by simp; omega)).1 hx
    · intro h; exact ⟨_, (mem_lo (k := 0) hg (by simp)).2 h⟩
  have h1 : (nonEmpty (hiPart 0 g)).isSome = decide (p + 1 ∈ g) := by
    rw [Bool.eq_iff_iff, nonEmpty_isSome, decide_eq_true_iff]
    constructor
    · rintro ⟨x, hx⟩
      have := hhi.mem x hx
      have : x = p + 1 := by simp at this; omega
      rw [← this]; exact (mem_hi (k := 0) hg (by simp; omega)).1 hx
    · intro h; exact ⟨_, (mem_hi (k := 0) hg (by simp)).2 h⟩
  rw [lfFlat, h0, h1]
  constructor
  · split <;> split <;> decide
  · intro x hx
    have : x = 0 ∨ x = 1 := by simp at hx; omega
    rcases this with rfl | rfl
    · cases decide (p + 0 ∈ g) <;> cases decide (p + 1 ∈ g) <;> decide
    · cases decide (p + 0 ∈ g) <;> cases decide (p + 1 ∈ g) <;> decide

theorem heightOf_ok {u : Nat} (hu : 2 ≤ u) : heightOf u = .ok (Nat.log2 (u - 1) + 1) := by
  simp [heightOf]; omega

theorem lt_height {u x : Nat} (hx : x < u) : x < 2 ^ (Nat.log2 (u - 1) + 1) := by
  by_cases h0 : x = 0
  · subst h0; exact Nat.two_pow_pos _
  · have : u - 1 < 2 ^ (Nat.log2 (u - 1) + 1) := Nat.lt_log2_self
    omega

/-- The trie of a set of numbers below `2^(d+1)`. -/
def flatTree (d : Nat) (S : List Nat) : Tr d := mkTr 1 lfFlat d S

theorem inBlock_zero {S : List Nat} {k : Nat} (hs : S.Pairwise (· < ·)) (hu : ∀ x ∈ S, x < 2 ^ k) : InBlock k 0 S :=
  ⟨hs, fun x hx => ⟨Nat.zero_le _, by simpa using hu x hx⟩, dvd_zero _⟩

theorem length_leaves_pos {set : List Nat} {b : Nat} {lf : List Nat → Nat} : ∀ (d : Nat) (G : List Group), G ≠ [] → (∀ g ∈ G, At set g) →
    leaves d (trees b lf d G) ≠ []
  | 0, G, h, _ => by simpa [leaves, trees] using h
  | d + 1, G, h, hat => by
    rw [leaves, kids_trees]
    exact length_leaves_pos d _ (splitAll_ne_nil hat h) (At.splitAll hat)

/-- What the two-argument constructor builds. -/
theorem flatCtor_ok {S : List Nat} {u d : Nat} (hS : S ≠ []) (hlen : S.length < 2 ^ 32) (hu : 2 ≤ u)
    (hd : Nat.log2 (u - 1) = d) (hd1 : 1 ≤ d) (hd62 : d ≤ 61) :
    flatCtor S u = .ok {
      height := d + 1, heightWithRuns := 0, runsEncoded := false, emptyTrie := false,
      bTrie := flatBits d [flatTree d S], lastLevel := (leaves d [flatTree d S]).flatMap leafBits } := by
  have hpos : 0 < S.length := List.length_pos_iff.2 hS
  have hd0 : d ≠ 0 := by omega
  obtain ⟨s, e, m', M', h1, h2, h3, h4⟩ := flat_run (set := S) (h := d + 1) (by omega) d 0 [(0, S)] []
    (2 * (2 ^ (d + 1) - 1)) (2 ^ (d + 1)) (2 ^ (d + 1)) 0 (by omega) (by simp)
    (by intro g hg; simp at hg; subst hg; exact ⟨hS, [], [], by simp, rfl⟩)
    (by simp) (by simp [Nat.pow_succ]; omega) (by simp)
  have e1 : (S.length + 2 ^ 32 - 1) % 2 ^ 32 = 0 + S.length - 1 := by
    rw [show S.length + 2 ^ 32 - 1 = (S.length - 1) + 2 ^ 32 by omega, Nat.add_mod_right, Nat.mod_eq_of_lt (by omega)]; omega
  simp only [hd0, List.map_cons, List.map_nil, ent, List.length_cons, List.length_nil, ite_self, List.nil_append,
    Nat.zero_add] at e
  rw [flatCtor, heightOf_ok hu, hd, Nat.mod_eq_of_lt hlen, e1]
  simp only [R_bind_ok, maxNodes, show d + 1 ≤ 62 by omega, if_true, Nat.zero_add, e]
  simp only [trees, List.map_cons, List.map_nil, List.nil_append, hd0, if_false] at h1 h2 h3 h4
  have t1 : s.total - 2 * s.nodesLast = (flatBits d [flatTree d S]).length := by
    rw [h3, h1, h2, h4]
    simp only [List.length_append, List.length_replicate, Nat.add_sub_cancel, length_leafBits, flatTree]
  have t2 : 2 * s.nodesLast = ((leaves d [flatTree d S]).flatMap leafBits).length := by
    rw [h4, length_leafBits]; rfl
  rw [t1, t2, h1, h2]
  rw [show mkTr 1 lfFlat d S = flatTree d S from rfl, bvResize_prefix, bvResize_prefix]

theorem flatTree_NE {S : List Nat} {d : Nat} (hS : S ≠ []) (hs : S.Pairwise (· < ·)) (hu : ∀ x ∈ S, x < 2 ^ (d + 1)) :
    NE 1 d (flatTree d S) := NE_mkTr lfFlat_leafFn (p := 0) (inBlock_zero hs hu) hS

theorem flatTree_enum {S : List Nat} {d : Nat} (hs : S.Pairwise (· < ·)) (hu : ∀ x ∈ S, x < 2 ^ (d + 1)) :
    enum (d + 1) (has 1 d (flatTree d S)) 0 = S := enum_mkTr lfFlat_leafFn (p := 0) (inBlock_zero hs hu)

theorem flatTree_has {S : List Nat} {d : Nat} (hs : S.Pairwise (· < ·)) (hu : ∀ x ∈ S, x < 2 ^ (d + 1)) :
    ∀ x < 2 ^ (d + 1), has 1 d (flatTree d S) x = decide (x ∈ S) := by
  intro x hx
  rw [flatTree, has_mkTr lfFlat_leafFn (p := 0) (inBlock_zero hs hu) x hx]; simp

theorem flat_plain_rep {t : FlatTrie} {d pad : Nat} {T : Tr d} (hh : t.height = d + 1) (hb : t.bTrie = flatBits d [T])
    (hl : t.lastLevel = (leaves d [T]).flatMap leafBits) (hnz : NZ 1 d T) :
    Rep (t.nav pad) (leafF (t.nav pad)) d 0 T 0 :=
  flat_rep (z := 0) hh (by simp [hb]) (Nat.zero_le _) (fun _ => hl) (fun h => absurd rfl h) hnz

end CBT
