import Verif.Proof.TwicePadLevel
import Verif.Proof.UnreadableFlat

/-!
# Reading a doubly run-encoded flat or fast trie when zeros can be read after the end of a vector
-/

namespace CBT

theorem flat_node {t : FlatTrie} {pad ℓ id v : Nat} (h : (t.nav pad).getNode id ℓ = .ok v) :
    ∃ b0 b1, v = node2 b0 b1 ∧ (ℓ + 1 < t.height →
      (t.bTrie ++ List.replicate pad false)[2 * id]? = some b0 ∧ (t.bTrie ++ List.replicate pad false)[2 * id + 1]? = some b1) ∧
      (t.height ≤ ℓ + 1 → t.bTrie.length ≤ 2 * id ∧ (t.lastLevel ++ List.replicate pad false)[2 * id - t.bTrie.length]? = some b0 ∧
        (t.lastLevel ++ List.replicate pad false)[2 * id - t.bTrie.length + 1]? = some b1) := by
  simp only [FlatTrie.nav, FlatTrie.getNode] at h
  split at h
  · obtain ⟨b0, b1, h0, h1, h⟩ := bind_ok2 h
    exact ⟨b0, b1, by simpa using h.symm, fun _ => ⟨bvGet_padded h0, bvGet_padded h1⟩, fun _ => by omega⟩
  · split at h
    · cases h
    · obtain ⟨b0, b1, h0, h1, h⟩ := bind_ok2 h
      exact ⟨b0, b1, by simpa using h.symm, fun _ => by omega, fun _ => ⟨by omega, bvGet_padded h0, bvGet_padded h1⟩⟩

theorem rank1_padded {v : BV} {i c pad : Nat} (h : rank1 v i = .ok c) : c = ((v ++ List.replicate pad false).take i).count true :=
  rank1_virtual_of_ok h

theorem flat_adjacent {t : FlatTrie} {pad D : Nat} (hh : t.height = D + 1) : Adjacent (t.nav pad) D := by
  refine ⟨fun id ℓ v h => ?_, fun id ℓ c c' hℓ h hc hc' => ?_⟩
  · obtain ⟨b0, b1, e, -⟩ := flat_node h
    exact ⟨b0, b1, e⟩
  · obtain ⟨b0, b1, e, hb, -⟩ := flat_node h
    obtain ⟨rfl, rfl⟩ := node2_inj e
    simp only [FlatTrie.nav, FlatTrie.getLeftChild, FlatTrie.getRightChild] at hc hc'
    rw [if_neg (by omega)] at hc hc'
    rw [rank1_padded (pad := pad) hc, rank1_padded (pad := pad) hc', count_succ_true (hb (by omega)).2]

theorem fast_node {t : FastTrie} {pad ℓ id v : Nat} (h : (t.nav pad).getNode id ℓ = .ok v) :
    ∃ b0 b1, v = node2 b0 b1 ∧
      (t.bTrie ++ List.replicate pad false)[2 * id]? = some b0 ∧ (t.bTrie ++ List.replicate pad false)[2 * id + 1]? = some b1 := by
  simp only [FastTrie.nav, FastTrie.getNode] at h
  obtain ⟨b0, b1, h0, h1, h⟩ := bind_ok2 h
  exact ⟨b0, b1, by simpa using h.symm, bvGet_padded h0, bvGet_padded h1⟩

theorem fast_adjacent {t : FastTrie} {pad D : Nat} (hh : t.height = D + 1) : Adjacent (t.nav pad).toNav D := by
  refine ⟨fun id ℓ v h => ?_, fun id ℓ c c' hℓ h hc hc' => ?_⟩
  · obtain ⟨b0, b1, e, -⟩ := fast_node h
    exact ⟨b0, b1, e⟩
  · obtain ⟨b0, b1, e, -, hb⟩ := fast_node h
    obtain ⟨rfl, rfl⟩ := node2_inj e
    simp only [FastTrie.nav, FastTrie.getLeftChild, FastTrie.getRightChild] at hc hc'
    rw [if_neg (by omega)] at hc hc'
    rw [rank1_padded (pad := pad) hc, rank1_padded (pad := pad) hc', count_succ_true hb]

/-- The number of nodes without children in all levels. -/
def bareAll : (d : Nat) → List (Tr d) → Nat
  | 0, _ => 0
  | d + 1, f => bareN f + bareAll d (kids f)

theorem flat_length : (d : Nat) → (f : List (Tr d)) → (flatBits d f).length = (nodeLevelsS d f).flatten.length + 2 * bareAll d f
  | 0, _ => rfl
  | d + 1, f => by
    rw [flatBits, List.length_append, bits_length, flat_length d (kids f), nodeLevelsS, List.flatten_cons, List.length_append, bareAll]
    omega

/-- Both families: a tree read from the nodes with children is the tree itself. -/
theorem prefix_tree {n : Nav} {leaf : Nat → Nat → Nat → Prop} {d b pad : Nat} {T T' : Tr d} {v : BV} (hv : v.length ≤ (nodeLevelsS d [T]).flatten.length)
    (hev : 2 ∣ v.length)
    (hget : ∀ id ℓ b0 b1, ℓ < d → n.getNode id ℓ = .ok (node2 b0 b1) → (v ++ List.replicate pad false)[2 * id]? = some b0 ∧
      (v ++ List.replicate pad false)[2 * id + 1]? = some b1)
    (hleft : ∀ id ℓ c, ℓ < d → n.getLeftChild id ℓ = .ok c → c = ((v ++ List.replicate pad false).take (2 * id + 1)).count true)
    (hright : ∀ id ℓ c, ℓ < d → n.getRightChild id ℓ = .ok c → c = ((v ++ List.replicate pad false).take (2 * id + 2)).count true)
    (hnz : NZ b d T) (ht : Tight b d T) (hnz' : NZ b d T') (hrep : Rep n leaf d 0 T' 0)
    (heq : ∀ x < 2 ^ (d + b), hasR b d T x = hasR b d T' x) :
    v.length = (nodeLevelsS d [T]).flatten.length ∧ T = T' ∧ (∃ rest, v ++ List.replicate pad false = flatBits d [T] ++ rest) ∧
      ∀ i w, (leaves d [T])[i]? = some w → leaf w ((flatBits d [T]).length / 2 + i) d := by
  obtain ⟨⟨rest, hr⟩, hlv⟩ := prefix_flat (leaf := leaf) hget hleft hright d 0 [T'] 0 (by omega)
    (fun j s hs => by
      have : j = 0 := by
        by_contra hc
        rw [List.getElem?_eq_none (by simp; omega)] at hs
        cases hs
      subst this
      obtain rfl : T' = s := by simpa using hs
      exact hrep) (by simp) (by simp)
  rw [Nat.mul_zero, List.drop_zero] at hr
  have h1 := congrArg nzPairs hr
  rw [nzPairs_append _ _ hev, nzPairs_zeros, nzPairs_append _ _ (by rw [flat_length]; have := solid_even_flat d [T']; omega)] at h1
  have h2 := nzPairs_flatBits d [T']
  have h3 := nzPairs_le v
  have hle : (nodeLevelsS d [T']).flatten.length ≤ v.length := by omega
  have h4 := solidN_forest d [T]
  have h5 := solidN_forest d [T']
  simp only [List.map_cons, List.map_nil, List.sum_cons, List.sum_nil] at h4 h5
  have hu := tree_unique hnz hnz' ht heq
  obtain rfl := hu.2 (by omega)
  refine ⟨by omega, rfl, ⟨rest, hr⟩, fun i w hw => ?_⟩
  have := hlv i w hw
  rwa [Nat.zero_add] at this

/-! ## Flat tries -/

/-- A flat trie holding the nodes of `T` that have a child, and its leaves. -/
def flatSolid (d : Nat) (T : Tr d) (hw : Nat) : FlatTrie :=
  { height := d + 1, heightWithRuns := hw, runsEncoded := true, emptyTrie := false, bTrie := (nodeLevelsS d [T]).flatten,
    lastLevel := (leaves d [T]).flatMap leafBits }

theorem flat_read {t : FlatTrie} {d pad : Nat} {T T' : Tr d} (hh : t.height = d + 1)
    (hv : t.bTrie.length ≤ (nodeLevelsS d [T]).flatten.length) (hev : 2 ∣ t.bTrie.length) (hnz : NZ 1 d T) (ht : Tight 1 d T)
    (hnz' : NZ 1 d T') (hrep : Rep (t.nav pad) (leafZ (t.nav pad)) d 0 T' 0)
    (heq : ∀ x < 2 ^ (d + 1), hasR 1 d T x = hasR 1 d T' x) :
    t.bTrie.length = (nodeLevelsS d [T]).flatten.length ∧ T = T' ∧
      (∃ rest, t.bTrie ++ List.replicate pad false = flatBits d [T] ++ rest) ∧
      ∀ i w, (leaves d [T])[i]? = some w → leafZ (t.nav pad) w ((flatBits d [T]).length / 2 + i) d := by
  refine prefix_tree hv hev ?_ ?_ ?_ hnz ht hnz' hrep heq
  · intro id ℓ b0 b1 hℓ hn
    obtain ⟨c0, c1, e, h, -⟩ := flat_node hn
    obtain ⟨rfl, rfl⟩ := node2_inj e
    exact h (by omega)
  · intro id ℓ c hℓ hc
    simp only [FlatTrie.nav, FlatTrie.getLeftChild] at hc
    rw [if_neg (by omega)] at hc
    exact rank1_padded hc
  · intro id ℓ c hℓ hc
    simp only [FlatTrie.nav, FlatTrie.getRightChild] at hc
    rw [if_neg (by omega)] at hc
    exact rank1_padded hc

/-- Words of which each is the one `m` places later, or 3 at the end. -/
theorem words_three {ws : List Nat} {m : Nat} (hm : 1 ≤ m) (h : ∀ i w, ws[i]? = some w → w = (ws[i + m]?).getD 3) : ∀ w ∈ ws, w = 3 := by
  have key : ∀ k i, ws.length ≤ i + k → ∀ w, ws[i]? = some w → w = 3 := by
    intro k
    induction k with
    | zero =>
      intro i hi w hw
      have := (List.getElem?_eq_some_iff.1 hw).1
      omega
    | succ k ih =>
      intro i hi w hw
      have e := h i w hw
      cases hc : ws[i + m]? with
      | none => rw [hc] at e; exact e
      | some w' =>
        rw [hc] at e
        rw [e]
        exact ih (i + m) (by omega) w' hc
  intro w hw
  obtain ⟨i, hi, rfl⟩ := List.getElem_of_mem hw
  exact key ws.length i (by omega) _ (List.getElem?_eq_getElem hi)

theorem wordZ_leaf {w : Nat} (h : 0 < w ∧ w < 2 ^ 2 ^ 1) : wordZ (w.testBit 0) (w.testBit 1) = w := by
  have : w = 1 ∨ w = 2 ∨ w = 3 := by omega
  rcases this with rfl | rfl | rfl <;> decide

/-- The run decoder on a tree whose last-level nodes are read as it reads them. -/
theorem decode_leafZ {n : Nav} (hh : n.height < 64) : ∀ (d ℓ : Nat) (t : Tr d) (id part : Nat) (out : List Nat),
    Rep n (leafZ n) d ℓ t id → n.height = ℓ + d + 1 → 2 ^ (d + 1) ∣ part →
    runsRecDecode n (d + 1) out part id ℓ = .ok (out ++ enum (d + 1) (hasR 1 d t) part) := by
  intro d
  induction d with
  | zero =>
    intro ℓ t id part out hr hℓ hd
    obtain ⟨b0, b1, hn, hl, hr, hw⟩ := hr
    have hs : shl1 (n.height - ℓ - 1) = .ok 1 := by rw [hℓ]; simp [shl1]
    have ho : part ||| 1 = part + 1 := or_two_pow (k := 0) hd
    have hword : t.word = wordZ b0 b1 := hw
    cases hb : (b0 || b1) with
    | false =>
      obtain ⟨rfl, rfl⟩ : b0 = false ∧ b1 = false := by simpa using hb
      refine runsRecDecode_bare (k := 0 + 1) hn (by omega) (by omega) hd (fun x hx => ?_)
      have : x = 0 ∨ x = 1 := by simp at hx; omega
      rw [hasR, hword]
      rcases this with rfl | rfl <;> decide
    | true =>
      rw [show 0 + 1 = 1 from rfl, enum_wordR, runsRecDecode_step hn hb hs, hword]
      cases b0
      · cases b1
        · cases hb
        · obtain ⟨c', hc'⟩ := hr rfl
          simp [hc', runsRecDecode, ho, wordZ, show Nat.testBit 2 0 = false from by decide, show Nat.testBit 2 1 = true from by decide]
      · obtain ⟨c, hc⟩ := hl rfl
        cases b1
        · simp [hc, runsRecDecode, wordZ, show Nat.testBit 1 0 = true from by decide, show Nat.testBit 1 1 = false from by decide]
        · obtain ⟨c', hc'⟩ := hr rfl
          simp [hc, hc', runsRecDecode, ho, wordZ, show Nat.testBit 3 0 = true from by decide, show Nat.testBit 3 1 = true from by decide]
  | succ d ih =>
    intro ℓ t id part out hr hℓ hd
    obtain ⟨hn, hl, hr⟩ := hr
    cases hb : t.bare with
    | true =>
      obtain ⟨e1, e2⟩ := Tr.bare_eq hb
      rw [e1, e2] at hn
      exact runsRecDecode_bare (k := d + 1 + 1) hn (by omega) (by omega) hd (fun x _ => hasR_bare hb)
    | false =>
    have hs : shl1 (n.height - ℓ - 1) = .ok (2 ^ (d + 1)) := by
      rw [hℓ, show ℓ + (d + 1) + 1 - ℓ - 1 = d + 1 by omega]; exact shl1_ok (by omega)
    have ho : part ||| 2 ^ (d + 1) = part + 2 ^ (d + 1) := or_two_pow hd
    have hab : (t.l.isSome || t.r.isSome) = true := by
      revert hb; unfold Tr.bare; cases t.l <;> cases t.r <;> simp
    rw [enum_hasR_node _ _ hb, runsRecDecode_step hn hab hs, ho]
    cases h1 : t.l with
    | none =>
      cases h2 : t.r with
      | none => simp
      | some s' =>
        obtain ⟨c', hc', hR'⟩ := hr s' h2
        simp [hc', ih (ℓ + 1) s' c' (part + 2 ^ (d + 1)) out hR' (by omega) (dvd_hi hd)]
    | some s =>
      obtain ⟨c, hc, hR, _⟩ := hl s h1
      have e1 := ih (ℓ + 1) s c part out hR (by omega) (dvd_lo hd)
      cases h2 : t.r with
      | none => simp [hc, e1]
      | some s' =>
        obtain ⟨c', hc', hR'⟩ := hr s' h2
        simp [hc, hc', e1, ih (ℓ + 1) s' c' (part + 2 ^ (d + 1)) _ hR' (by omega) (dvd_hi hd)]

theorem leafBits_after {ws : List Nat} {pad j : Nat} {b0 b1 : Bool} (hw : ∀ w ∈ ws, 0 < w ∧ w < 2 ^ 2 ^ 1)
    (h0 : (ws.flatMap leafBits ++ List.replicate pad false)[2 * j]? = some b0)
    (h1 : (ws.flatMap leafBits ++ List.replicate pad false)[2 * j + 1]? = some b1) : wordZ b0 b1 = (ws[j]?).getD 3 := by
  cases hc : ws[j]? with
  | some w =>
    obtain ⟨g0, g1⟩ := getElem?_leafBits _ _ _ hc
    obtain ⟨k0, -⟩ := List.getElem?_eq_some_iff.1 g0
    obtain ⟨k1, -⟩ := List.getElem?_eq_some_iff.1 g1
    rw [List.getElem?_append_left k0, g0] at h0
    rw [List.getElem?_append_left k1, g1] at h1
    rw [← Option.some.inj h0, ← Option.some.inj h1]
    exact wordZ_leaf (hw w (List.mem_of_getElem? hc))
  | none =>
    have hl := List.getElem?_eq_none_iff.1 hc
    have hll := length_leafBits ws
    rw [List.getElem?_append_right (by omega), List.getElem?_replicate] at h0 h1
    split at h0
    · split at h1
      · rw [← Option.some.inj h0, ← Option.some.inj h1]; rfl
      · cases h1
    · cases h0

/-- What a flat trie that was run-encoded twice needs to decode correctly, if there are leaves. -/
theorem flat_late {d pad hw : Nat} {T : Tr d} (hd : d ≤ 61) (hnz : NZ 1 d T) (ht : Tight 1 d T) (out : List Nat) :
    runsRecDecode ((flatSolid d T hw).nav pad) (d + 1) out 0 0 0 = .ok (out ++ enum (d + 1) (hasR 1 d T) 0) ↔
      LateFlat d [T] ∧ 2 * bareAll d [T] ≤ pad ∧ (bareAll d [T] = 0 ∨ ∀ w ∈ leaves d [T], w = 3) := by
  obtain ⟨t, htt⟩ : ∃ t, t = flatSolid d T hw := ⟨_, rfl⟩
  have hbt : t.bTrie = (nodeLevelsS d [T]).flatten := by rw [htt, flatSolid]
  have hlt : t.lastLevel = (leaves d [T]).flatMap leafBits := by rw [htt, flatSolid]
  have hh : t.height = d + 1 := by rw [htt, flatSolid]
  have hlen := flat_length d [T]
  have hev := solid_even_flat d [T]
  have hws := leaves_nz d [T] (by simpa using hnz)
  rw [← htt]
  constructor
  · intro h
    obtain ⟨T', hnz', hrep, hout⟩ := decode_tree (flat_adjacent hh) hh (by omega) d 0 out 0 0 _ (by omega) (dvd_zero _) h
    have heq := enum_inj (List.append_cancel_left hout)
    obtain ⟨-, rfl, ⟨rest, hr⟩, hleaf⟩ := flat_read hh (by rw [hbt]) (by rw [hbt]; exact hev) hnz ht hnz' hrep heq
    rw [hbt] at hr
    obtain ⟨z, hz, e⟩ := prefix_zeros hr (solid_le_flat d [T])
    have hl1 := congrArg List.length e
    rw [List.length_append, List.length_replicate] at hl1
    refine ⟨(lateFlat_iff d [T]).1 ⟨z, e⟩, by omega, ?_⟩
    by_cases hm : bareAll d [T] = 0
    · exact Or.inl hm
    · right
      refine words_three (m := bareAll d [T]) (by omega) fun i w hw => ?_
      obtain ⟨b0, b1, hn, -, -, rfl⟩ := hleaf i w hw
      obtain ⟨c0, c1, e, -, hlast⟩ := flat_node hn
      obtain ⟨rfl, rfl⟩ := node2_inj e
      obtain ⟨-, h0, h1⟩ := hlast (by omega)
      rw [hbt, hlt, show 2 * ((flatBits d [T]).length / 2 + i) - (nodeLevelsS d [T]).flatten.length = 2 * (i + bareAll d [T]) by omega] at h0 h1
      exact leafBits_after hws h0 h1
  · rintro ⟨hL, hp, hm⟩
    obtain ⟨z, e⟩ := (lateFlat_iff d [T]).2 hL
    have hl1 := congrArg List.length e
    rw [List.length_append, List.length_replicate] at hl1
    have hz : z ≤ pad := by omega
    rw [← hbt] at e
    have hrep : Rep (t.nav pad) (leafZ (t.nav pad)) d 0 T 0 := by
      refine rep_flat (bits := flatBits d [T]) (D := d) ?_ ?_ ?_ d 0 [T] [] 0 (by omega) rfl rfl (by simp) ?_ 0 T rfl
      · intro id ℓ b0 b1 hℓ h0 h1
        rw [e] at h0 h1
        show t.getNode pad id ℓ = _
        rw [FlatTrie.getNode, if_pos (by omega), bvGet_virtual hz h0, bvGet_virtual hz h1]
        rfl
      · intro id ℓ hℓ h0
        rw [e] at h0 ⊢
        have := virtual_true h0
        show t.getLeftChild id ℓ = _
        rw [FlatTrie.getLeftChild, if_neg (by omega), rank1_virtual (by omega)]
      · intro id ℓ hℓ h0
        rw [e] at h0 ⊢
        have := virtual_true h0
        show t.getRightChild id ℓ = _
        rw [FlatTrie.getRightChild, if_neg (by omega), rank1_virtual (by omega)]
      · intro i w hw
        obtain ⟨hi, -⟩ := List.getElem?_eq_some_iff.1 hw
        have hll := length_leafBits (leaves d [T])
        obtain ⟨b0, h0⟩ : ∃ b, (t.lastLevel ++ List.replicate pad false)[2 * (i + bareAll d [T])]? = some b :=
          ⟨_, List.getElem?_eq_getElem (by simp only [List.length_append, List.length_replicate, hlt]; omega)⟩
        obtain ⟨b1, h1⟩ : ∃ b, (t.lastLevel ++ List.replicate pad false)[2 * (i + bareAll d [T]) + 1]? = some b :=
          ⟨_, List.getElem?_eq_getElem (by simp only [List.length_append, List.length_replicate, hlt]; omega)⟩
        refine ⟨b0, b1, ?_, fun _ => ⟨0, ?_⟩, fun _ => ⟨0, ?_⟩, ?_⟩
        · show t.getNode pad _ d = _
          rw [FlatTrie.getNode, if_neg (by omega), if_neg (by rw [hbt]; omega),
            show 2 * ((flatBits d [T]).length / 2 + i) - t.bTrie.length = 2 * (i + bareAll d [T]) by rw [hbt]; omega,
            bvGet_virtual (Nat.le_refl _) h0, bvGet_virtual (Nat.le_refl _) h1]
          rfl
        · show t.getLeftChild _ d = _
          rw [FlatTrie.getLeftChild, if_pos (by omega)]
        · show t.getRightChild _ d = _
          rw [FlatTrie.getRightChild, if_pos (by omega)]
        · rw [hlt] at h0 h1
          rw [leafBits_after hws h0 h1]
          rcases hm with hm | hm
          · rw [hm, Nat.add_zero, hw]; rfl
          · rw [hm w (List.mem_of_getElem? hw)]
            cases hc : (leaves d [T])[i + bareAll d [T]]? with
            | none => rfl
            | some w' => exact (hm w' (List.mem_of_getElem? hc)).symm
    exact decode_leafZ (by change t.height < 64; omega) d 0 T 0 0 out hrep (by change t.height = _; omega) (dvd_zero _)

/-- Without leaves only the whole universe survives. -/
theorem flat_none {d pad : Nat} {T : Tr d} (hd : d ≤ 61) (hd1 : 1 ≤ d) (hne : NE 1 d T) (hl : leaves d [prune 1 d T] = []) (out : List Nat) :
    ((flatOf d T 0 false).encodeRuns pad >>= fun t' => t'.encodeRuns pad >>= fun t'' => t''.decode pad out) =
        .ok (out ++ enum (d + 1) (hasR 1 d (prune 1 d T)) 0) ↔
      (∀ x < 2 ^ (d + 1), hasR 1 d (prune 1 d T) x = true) ∧ 2 ≤ pad := by
  have hnz : NZ 1 d (prune 1 d T) := hne.prune_nz
  have ht := tight_prune d T hne
  have hthin := thin_prune (b := 1) d T
  rcases flat_encodeRuns_ok (pad := pad) rfl (flatOf_rep (hw := 0) (runs := false) hne.nz) hne with ⟨hl', _⟩ | ⟨_, b, z, k, hb, hk, he⟩
  · exact (hl' hl).elim
  obtain ⟨t', e1, hh, hr, hem, hrep, hbad⟩ := flatOf_encode_cases (pad := pad) (hw := 0) (runs := false) hne
  rw [he] at e1
  have hlast : t'.lastLevel.length = z + 1 := by rw [← Except.ok.inj e1]; simp
  rw [he, e1, R_bind_ok]
  obtain ⟨T, hT⟩ : ∃ T', T' = prune 1 d T := ⟨_, rfl⟩
  rw [← hT] at hl hnz ht hthin hb hrep hbad ⊢
  -- the second encoding reads everything the decoder reads
  have hread : ∀ t'', t'.encodeRuns pad = .ok t'' → z + 1 ≤ pad := by
    intro t'' he'
    by_contra hc
    rw [FlatTrie.encodeRuns, if_neg (by omega)] at he'
    obtain ⟨r, hw, -⟩ := bind_ok he'
    obtain ⟨o, ho⟩ := flat_write_decodes (by omega) (t'.height - 1) 0 _ 0 r (by omega) hw out 0
    refine hbad hl (by omega) out o ?_
    rw [FlatTrie.decode, hr, hem]
    simp only [if_true, Bool.false_eq_true, if_false]
    rwa [show t'.height - 1 + 1 = t'.height by omega] at ho
  -- what the second encoding gives
  have henc : z + 1 ≤ pad → ∃ Ls k, levelsS d [T] = Ls ++ List.replicate k [] ∧ (∀ B ∈ Ls, B ≠ []) ∧ 1 ≤ k ∧
      ∃ w, t'.encodeRuns pad = .ok { t' with
        heightWithRuns := w, runsEncoded := true, bTrie := Ls.dropLast.flatten, lastLevel := (Ls.getLast?).getD [] } := by
    intro hz
    have hrep := hrep (Or.inr (by omega))
    obtain ⟨Ls, k, h1, h2, h3, -⟩ := levelsS_cases d [T]
    refine ⟨Ls, k, h1, h2, h3 hl, ?_⟩
    rw [FlatTrie.encodeRuns, hh]
    simp only [Nat.add_eq_zero_iff, one_ne_zero, and_false, if_false, Nat.add_sub_cancel, writeCompress_thin_start hrep hthin, R_bind_ok]
    rcases List.eq_nil_or_concat Ls with rfl | ⟨Ls', B, rfl⟩
    · obtain ⟨j, rfl⟩ : ∃ j, k = j + 1 := ⟨k - 1, by have := h3 hl; omega⟩
      rw [h1]
      refine ⟨1, ?_⟩
      simp [lastNonEmpty_zeros, List.replicate_succ, vGet, flatWriteLoop, onesOf, onesFrom, lastNonEmpty, setAll]
    · rw [List.concat_eq_append] at h1 h2 ⊢
      obtain ⟨e1, e2, e3⟩ := flat_write (Ls := Ls') (k := k) (B := B) (h2 _ (by simp)) (fun B hB => h2 B (by simp [hB]))
        (L := levelsS d [T]) h1
      rw [e1, e2]
      simp only [R_bind_ok]
      rw [e3]
      exact ⟨Ls'.length + 1, by simp⟩
  constructor
  · intro h
    obtain ⟨t'', he', hdec⟩ := bind_ok h
    have hz := hread t'' he'
    obtain ⟨Ls, k, h1, h2, h3, w, h4⟩ := henc hz
    rw [he'] at h4
    obtain ⟨t, htt⟩ : ∃ t, t = t'' := ⟨_, rfl⟩
    have hbt : t.bTrie = Ls.dropLast.flatten := by rw [htt, Except.ok.inj h4]
    have hht : t.height = d + 1 := by rw [htt, Except.ok.inj h4]; exact hh
    have hdec' : runsRecDecode (t.nav pad) (d + 1) out 0 0 0 = .ok (out ++ enum (d + 1) (hasR 1 d T) 0) := by
      rw [FlatTrie.decode, ← htt] at hdec
      have e1 : t.runsEncoded = true := by rw [htt, Except.ok.inj h4]
      have e2 : t.emptyTrie = false := by rw [htt, Except.ok.inj h4]; exact hem
      rw [e1, e2, hht] at hdec
      simpa using hdec
    obtain ⟨T', hnz', hrep', hout⟩ := decode_tree (flat_adjacent hht) hht (by omega) d 0 out 0 0 _ (by omega) (dvd_zero _) hdec'
    have heq := enum_inj (List.append_cancel_left hout)
    have hso : ∀ v ∈ levelsS d [T], Solid v := by
      rw [levelsS_eq, hl]
      intro v hv
      rcases List.mem_append.1 hv with hv | hv
      · exact solid_nodeLevelsS _ _ v hv
      · rw [List.mem_singleton.1 hv]; exact ⟨[], by simp, rfl⟩
    have hfl : (nodeLevelsS d [T]).flatten = Ls.flatten := by
      have e1 := congrArg List.flatten h1
      rw [levelsS_eq, hl] at e1
      simpa using e1
    have hLd : Ls.dropLast.flatten.length ≤ Ls.flatten.length := by
      rcases List.eq_nil_or_concat Ls with rfl | ⟨Ls', B, rfl⟩
      · simp
      · simp
    obtain ⟨hlen, -, ⟨rest, hpre⟩, -⟩ := flat_read (T := T) hht (by rw [hbt, hfl]; exact hLd)
      (by
        rw [hbt]
        exact ⟨_, (Solid.flatten fun v hv => hso v (by rw [h1]; exact List.mem_append_left _ (List.dropLast_subset _ hv))).even⟩)
      hnz ht hnz' hrep' heq
    rcases List.eq_nil_or_concat Ls with rfl | ⟨Ls', B, rfl⟩
    · obtain ⟨e, rfl⟩ : ∃ e, d = e + 1 := ⟨d - 1, by omega⟩
      have hs : solidBits [T] = [] := by
        rw [nodeLevelsS, List.flatten_cons] at hfl
        simp at hfl
        exact hfl.1
      have hb := solid_nil_iff.1 hs T (by simp)
      refine ⟨fun x _ => hasR_bare hb, ?_⟩
      have := congrArg List.length hpre
      rw [hbt, flatBits] at this
      simp only [List.dropLast_nil, List.flatten_nil, List.length_append, List.length_nil, List.length_replicate, length_bitsOf,
        List.length_singleton] at this
      omega
    · rw [hbt, hfl, List.concat_eq_append] at hlen
      have hB := List.length_pos_iff.2 (h2 B (by simp))
      rw [List.dropLast_concat, List.flatten_append, List.length_append, List.flatten_singleton] at hlen
      omega
  · rintro ⟨hfull, hp⟩
    obtain ⟨e, rfl⟩ : ∃ e, d = e + 1 := ⟨d - 1, by omega⟩
    have hbare : T.bare = true := by
      by_contra hc
      obtain ⟨x, hx, hf⟩ := ht.1 (by simpa using hc)
      rw [hfull x hx] at hf
      cases hf
    obtain ⟨el, er⟩ := Tr.bare_eq hbare
    have hz : z + 1 ≤ 2 := by
      have := congrArg List.length hb
      rw [flatBits, List.length_append, length_bitsOf] at this
      have hk : kids [T] = [] := by simp [kids, kidsOf, el, er]
      rw [hk, flatBits_nil] at this
      simp at this
      omega
    obtain ⟨Ls, k, h1, h2, h3, w, h4⟩ := henc (by omega)
    have hLs : Ls = [] := by
      cases Ls with
      | nil => rfl
      | cons B Ls =>
        rw [levelsS, solid_nil_iff.2 (by simpa using hbare), List.cons_append, List.cons.injEq] at h1
        exact (h2 B (by simp) h1.1.symm).elim
    subst hLs
    rw [h4, R_bind_ok, FlatTrie.decode]
    simp only [if_true, hem, Bool.false_eq_true, if_false, hh]
    refine runsRecDecode_bare (k := e + 1 + 1) ?_ (by simp only [FlatTrie.nav]; omega) (by omega) (dvd_zero _) (fun x _ => hasR_bare hbare)
    simp only [FlatTrie.nav, FlatTrie.getNode, List.dropLast_nil, List.flatten_nil]
    rw [if_pos (by omega)]
    rw [bvGet_virtual (z := pad) (b := false) (Nat.le_refl _) (by rw [List.nil_append, List.getElem?_replicate, if_pos (by omega)]),
      bvGet_virtual (z := pad) (b := false) (Nat.le_refl _) (by rw [List.nil_append, List.getElem?_replicate, if_pos (by omega)])]
    rfl

/-! ## Fast tries -/

/-- A fast trie holding the nodes of `T` that have a child, and its words. -/
def fastSolid (lg d : Nat) (T : Tr d) (hw : Nat) (empty : Bool) : FastTrie :=
  { height := d + 1, heightWithRuns := hw, heightU := d + lg, runsEncoded := true, emptyTrie := empty,
    bTrie := (nodeLevelsS d [T]).flatten, lastLevel := leaves d [T] }

theorem fast_late {lg d pad hw : Nat} {empty : Bool} {T : Tr d} (hlg : lg ≤ 6) (hd : d + lg < 64) (hnz : NZ lg d T) (ht : Tight lg d T) (out : List Nat) :
    fastRunsRecDecode lg (d + lg) ((fastSolid lg d T hw empty).nav pad) d out 0 0 0 = .ok (out ++ enum (d + lg) (hasR lg d T) 0) ↔
      LateFlat d [T] ∧ 2 * bareAll d [T] ≤ pad ∧ (bareAll d [T] = 0 ∨ leaves d [T] = []) := by
  obtain ⟨t, htt⟩ : ∃ t, t = fastSolid lg d T hw empty := ⟨_, rfl⟩
  have hbt : t.bTrie = (nodeLevelsS d [T]).flatten := by rw [htt, fastSolid]
  have hlt : t.lastLevel = leaves d [T] := by rw [htt, fastSolid]
  have hh : t.height = d + 1 := by rw [htt, fastSolid]
  have hlen := flat_length d [T]
  have hev := solid_even_flat d [T]
  have hws := leaves_nz d [T] (by simpa using hnz)
  rw [← htt]
  constructor
  · intro h
    obtain ⟨T', hnz', hrep, hout⟩ := fast_decode_tree hlg (fast_adjacent hh) rfl hd (fun id w hw => by
      simp only [FastTrie.nav, FastTrie.getWord] at hw
      split at hw
      · cases hw
      · unfold vGet at hw
        cases hc : t.lastLevel[id - t.bTrie.length / 2]? with
        | none => rw [hc] at hw; cases hw
        | some a =>
          rw [hc] at hw
          obtain rfl : a = w := by simpa using hw
          rw [hlt] at hc
          exact hws a (List.mem_of_getElem? hc)) d 0 out 0 0 _ (by omega) (dvd_zero _) h
    have heq := enum_inj (List.append_cancel_left hout)
    obtain ⟨-, rfl, ⟨rest, hr⟩, hleaf⟩ := prefix_tree (pad := pad) (v := t.bTrie) (by rw [hbt]) (by rw [hbt]; exact hev)
      (fun id ℓ b0 b1 hℓ hn => by
        obtain ⟨c0, c1, e, h⟩ := fast_node hn
        obtain ⟨rfl, rfl⟩ := node2_inj e
        exact h)
      (fun id ℓ c hℓ hc => by
        simp only [FastTrie.nav, FastTrie.getLeftChild] at hc
        rw [if_neg (by omega)] at hc
        exact rank1_padded hc)
      (fun id ℓ c hℓ hc => by
        simp only [FastTrie.nav, FastTrie.getRightChild] at hc
        rw [if_neg (by omega)] at hc
        exact rank1_padded hc) hnz ht hnz' hrep heq
    rw [hbt] at hr
    obtain ⟨z, hz, e⟩ := prefix_zeros hr (solid_le_flat d [T])
    have hl1 := congrArg List.length e
    rw [List.length_append, List.length_replicate] at hl1
    refine ⟨(lateFlat_iff d [T]).1 ⟨z, e⟩, by omega, ?_⟩
    by_cases hl : leaves d [T] = []
    · exact Or.inr hl
    · left
      have hp := List.length_pos_iff.2 hl
      obtain ⟨-, hw⟩ := hleaf ((leaves d [T]).length - 1) _ (List.getElem?_eq_getElem (by omega))
      simp only [FastTrie.nav, FastTrie.getWord] at hw
      split at hw
      · cases hw
      · unfold vGet at hw
        rw [hbt, hlt, show (flatBits d [T]).length / 2 + ((leaves d [T]).length - 1) - (nodeLevelsS d [T]).flatten.length / 2 =
          (leaves d [T]).length - 1 + bareAll d [T] by omega] at hw
        cases hc : (leaves d [T])[(leaves d [T]).length - 1 + bareAll d [T]]? with
        | none => rw [hc] at hw; cases hw
        | some a =>
          have := (List.getElem?_eq_some_iff.1 hc).1
          omega
  · rintro ⟨hL, hp, hm⟩
    obtain ⟨z, e⟩ := (lateFlat_iff d [T]).2 hL
    have hl1 := congrArg List.length e
    rw [List.length_append, List.length_replicate] at hl1
    have hz : z ≤ pad := by omega
    rw [← hbt] at e
    have hrep : Rep (t.nav pad).toNav (leafW lg (t.nav pad)) d 0 T 0 := by
      refine rep_flat (bits := flatBits d [T]) (D := d) ?_ ?_ ?_ d 0 [T] [] 0 (by omega) rfl rfl (by simp) ?_ 0 T rfl
      · intro id ℓ b0 b1 hℓ h0 h1
        rw [e] at h0 h1
        show t.getNode pad id ℓ = _
        rw [FastTrie.getNode, bvGet_virtual hz h0, bvGet_virtual hz h1]
        rfl
      · intro id ℓ hℓ h0
        rw [e] at h0 ⊢
        have := virtual_true h0
        show t.getLeftChild id ℓ = _
        rw [FastTrie.getLeftChild, if_neg (by omega), rank1_virtual (by omega)]
      · intro id ℓ hℓ h0
        rw [e] at h0 ⊢
        have := virtual_true h0
        show t.getRightChild id ℓ = _
        rw [FastTrie.getRightChild, if_neg (by omega), rank1_virtual (by omega)]
      · intro i w hw
        refine ⟨hws w (List.mem_of_getElem? hw), ?_⟩
        rcases hm with hm | hm
        · show t.getWord _ = _
          rw [FastTrie.getWord, if_neg (by rw [hbt]; omega), hlt, hbt,
            show (flatBits d [T]).length / 2 + i - (nodeLevelsS d [T]).flatten.length / 2 = i by omega, vGet, hw]
        · rw [hm] at hw
          simp at hw
    exact fastRunsRecDecode_rep hlg hd d 0 T 0 0 out hrep (by omega) (dvd_zero _)

end CBT
